import Verif.Ht.TableLemmas

/-!
# Quads: what the encoder derives and what the decoder table returns
-/

namespace Verif.Ht

/-- A quad of words as `quantize` leaves them: zero, or bit 31 set. -/
def QOk (q : Nat → Nat) : Prop := ∀ i, q i = 0 ∨ (2 ^ 31 ≤ q i ∧ q i < 2 ^ 32)

theorem magv_eq (q : Nat → Nat) (i : Nat) : magv q i = q i % 2 ^ 31 :=
  Nat.and_two_pow_sub_one_eq_mod (q i) 31

theorem sig_eq (q : Nat → Nat) (i : Nat) : sig q i = q i / 2 ^ 31 := Nat.shiftRight_eq_div_pow _ _

theorem QOk.sig_cases {q : Nat → Nat} (h : QOk q) (i : Nat) :
    (sig q i = 0 ∧ q i = 0) ∨ (sig q i = 1 ∧ q i = 2 ^ 31 + magv q i) := by
  rw [sig_eq, magv_eq]
  rcases h i with h | h <;> omega

theorem magv_lt (q : Nat → Nat) (i : Nat) : magv q i < 2 ^ 31 := by
  rw [magv_eq]; exact Nat.mod_lt _ (by positivity)

theorem QOk.expE_le {q : Nat → Nat} (h : QOk q) (i : Nat) : expE q i ≤ 31 := by
  have : bitLen (magv q i) ≤ 31 := Nat.size_le.mpr (magv_lt q i)
  unfold expE
  rcases h.sig_cases i with ⟨h, -⟩ | ⟨h, -⟩ <;> rw [h] <;> omega

theorem QOk.rho_lt {q : Nat → Nat} (h : QOk q) : rhoOf q < 16 := by
  unfold rhoOf
  simp only [Nat.shiftLeft_eq]
  rcases h.sig_cases 0 with ⟨h0, -⟩ | ⟨h0, -⟩ <;> rcases h.sig_cases 1 with ⟨h1, -⟩ | ⟨h1, -⟩ <;>
  rcases h.sig_cases 2 with ⟨h2, -⟩ | ⟨h2, -⟩ <;> rcases h.sig_cases 3 with ⟨h3, -⟩ | ⟨h3, -⟩ <;>
  rw [h0, h1, h2, h3] <;> omega

theorem QOk.rho_bit {q : Nat → Nat} (h : QOk q) {i : Nat} (hi : i < 4) :
    (rhoOf q).testBit i = decide (sig q i = 1) := by
  unfold rhoOf
  rcases h.sig_cases 0 with ⟨h0, -⟩ | ⟨h0, -⟩ <;> rcases h.sig_cases 1 with ⟨h1, -⟩ | ⟨h1, -⟩ <;>
  rcases h.sig_cases 2 with ⟨h2, -⟩ | ⟨h2, -⟩ <;> rcases h.sig_cases 3 with ⟨h3, -⟩ | ⟨h3, -⟩ <;>
  rw [h0, h1, h2, h3] <;> interval_cases i <;> simp only [h0, h1, h2, h3] <;> decide

/-- The exponent pattern of `codeQuad`. -/
def embOf (kappa : Nat) (q : Nat → Nat) : Nat :=
  let emax := max4 (expE q 0) (expE q 1) (expE q 2) (expE q 3)
  let uoff := if max emax kappa - kappa ≠ 0 then 1 else 0
  (if expE q 0 = emax then uoff else 0) + (if expE q 1 = emax then uoff <<< 1 else 0) +
    (if expE q 2 = emax then uoff <<< 2 else 0) + (if expE q 3 = emax then uoff <<< 3 else 0)

/-- Largest exponent of a quad. -/
def emaxOf (q : Nat → Nat) : Nat := max4 (expE q 0) (expE q 1) (expE q 2) (expE q 3)

theorem le_emaxOf (q : Nat → Nat) {i : Nat} (hi : i < 4) : expE q i ≤ emaxOf q := by
  unfold emaxOf max4
  interval_cases i <;> omega

theorem emaxOf_mem (q : Nat → Nat) : ∃ i < 4, expE q i = emaxOf q := by
  unfold emaxOf max4
  rcases Nat.le_total (expE q 0) (expE q 1) with a | a <;>
  rcases Nat.le_total (expE q 2) (expE q 3) with b | b <;>
  rcases Nat.le_total (max (expE q 0) (expE q 1)) (max (expE q 2) (expE q 3)) with c | c
  · exact ⟨3, by omega, by omega⟩
  · exact ⟨1, by omega, by omega⟩
  · exact ⟨2, by omega, by omega⟩
  · exact ⟨1, by omega, by omega⟩
  · exact ⟨3, by omega, by omega⟩
  · exact ⟨0, by omega, by omega⟩
  · exact ⟨2, by omega, by omega⟩
  · exact ⟨0, by omega, by omega⟩

theorem four_bits (a b c d : Prop) [Decidable a] [Decidable b] [Decidable c] [Decidable d] (i : Nat) :
    ((if a then 1 else 0) + (if b then 1 <<< 1 else 0) + (if c then 1 <<< 2 else 0) +
      (if d then 1 <<< 3 else 0) : Nat).testBit i =
      decide ((i = 0 ∧ a) ∨ (i = 1 ∧ b) ∨ (i = 2 ∧ c) ∨ (i = 3 ∧ d)) := by
  rcases Nat.lt_or_ge i 4 with h | h
  · interval_cases i <;> by_cases ha : a <;> by_cases hb : b <;> by_cases hc : c <;> by_cases hd : d <;>
      simp only [ha, hb, hc, hd] <;> decide
  · have : ((if a then 1 else 0) + (if b then 1 <<< 1 else 0) + (if c then 1 <<< 2 else 0) +
      (if d then 1 <<< 3 else 0) : Nat) < 2 ^ i := by
      refine lt_of_lt_of_le ?_ (Nat.pow_le_pow_right (by omega) h)
      split_ifs <;> decide
    rw [Nat.testBit_lt_two_pow this]
    symm
    rw [decide_eq_false_iff_not]
    omega

theorem embOf_testBit (kappa : Nat) (q : Nat → Nat) (i : Nat) :
    (embOf kappa q).testBit i = decide (i < 4 ∧ kappa < emaxOf q ∧ expE q i = emaxOf q) := by
  have e : embOf kappa q = if kappa < emaxOf q then
      ((if expE q 0 = emaxOf q then 1 else 0) + (if expE q 1 = emaxOf q then 1 <<< 1 else 0) +
       (if expE q 2 = emaxOf q then 1 <<< 2 else 0) + (if expE q 3 = emaxOf q then 1 <<< 3 else 0)) else 0 := by
    unfold embOf
    change (let uoff := if max (emaxOf q) kappa - kappa ≠ 0 then 1 else 0
      (if expE q 0 = emaxOf q then uoff else 0) + (if expE q 1 = emaxOf q then uoff <<< 1 else 0) +
      (if expE q 2 = emaxOf q then uoff <<< 2 else 0) + (if expE q 3 = emaxOf q then uoff <<< 3 else 0)) = _
    by_cases h : kappa < emaxOf q
    · rw [if_pos h, if_pos (by omega)]
    · rw [if_neg h, if_neg (by omega)]
      simp
  rw [e]
  by_cases h : kappa < emaxOf q
  · rw [if_pos h, four_bits]
    apply decide_eq_decide.mpr
    constructor
    · rintro (⟨rfl, a⟩ | ⟨rfl, a⟩ | ⟨rfl, a⟩ | ⟨rfl, a⟩) <;> exact ⟨by omega, h, a⟩
    · rintro ⟨a, -, b⟩
      interval_cases i <;> simp [b]
  · rw [if_neg h]
    simp [h]

theorem expE_pos_sig {q : Nat → Nat} (hq : QOk q) {i : Nat} (h : 0 < expE q i) : sig q i = 1 := by
  rcases hq.sig_cases i with ⟨h1, -⟩ | ⟨h1, -⟩
  · rw [expE, h1] at h; omega
  · exact h1

theorem embOf_sub {kappa : Nat} {q : Nat → Nat} (hq : QOk q) : embOf kappa q &&& rhoOf q = embOf kappa q := by
  apply Nat.eq_of_testBit_eq
  intro i
  rw [Nat.testBit_and, embOf_testBit]
  by_cases h : i < 4 ∧ kappa < emaxOf q ∧ expE q i = emaxOf q
  · rw [hq.rho_bit h.1, expE_pos_sig hq (by omega)]
    simp
  · rw [decide_eq_false h]; rfl

theorem embOf_eq_zero {kappa : Nat} {q : Nat → Nat} : embOf kappa q = 0 ↔ ¬ kappa < emaxOf q := by
  constructor
  · intro h h2
    obtain ⟨i, hi, he⟩ := emaxOf_mem q
    have := embOf_testBit kappa q i
    rw [h, decide_eq_true ⟨hi, h2, he⟩] at this
    simp at this
  · intro h
    apply Nat.eq_of_testBit_eq
    intro i
    rw [embOf_testBit, decide_eq_false (by tauto)]; simp

/-- The decoder table entry of a coded quad. -/
def tOf (c : Coded) : Nat :=
  (if c.u ≠ 0 then 1 else 0) + 2 * c.len + 16 * c.rho + 256 * c.emb1 + 4096 * c.embk

/-- Everything about a coded quad that does not mention the decoder. -/
structure CodedOk (cx kappa : Nat) (q : Nat → Nat) (c : Coded) : Prop where
  rho : c.rho = rhoOf q
  U : c.U = max (emaxOf q) kappa
  u : c.u = c.U - kappa
  emb1 : c.emb1 = embOf kappa q &&& c.embk
  len_le : c.len ≤ 7
  cwd_lt : c.cwd < 2 ^ c.len
  embk_sub : c.embk &&& c.rho = c.embk
  embk_lt : c.embk < 16
  embk_zero : c.u = 0 → c.embk = 0
  silent : cx = 0 → c.rho = 0 → tOf c = 0 ∧ c.cwd = 0

theorem rho_zero_emax {q : Nat → Nat} (hq : QOk q) (h : rhoOf q = 0) : emaxOf q = 0 := by
  obtain ⟨i, hi, he⟩ := emaxOf_mem q
  by_contra hc
  have h1 := expE_pos_sig hq (i := i) (by omega)
  have h2 := hq.rho_bit hi
  rw [h, h1] at h2
  simp at h2

theorem codeQuad_eq (T : List (List Nat)) {cx kappa : Nat} {q : Nat → Nat} (hq : QOk q) (hcx : cx < 2048) :
    codeQuad T cx kappa q =
      let e := tab T (embOf kappa q + 16 * rhoOf q + cx)
      { rho := rhoOf q, U := max (emaxOf q) kappa, u := max (emaxOf q) kappa - kappa, embk := e &&& 0xF,
        emb1 := embOf kappa q &&& (e &&& 0xF), len := (e >>> 4) &&& 0x07, cwd := e >>> 7 } := by
  have h1 := hq.rho_lt
  have h2 : embOf kappa q < 16 := by
    rw [← embOf_sub hq]; exact lt_of_le_of_lt Nat.and_le_right h1
  have h3 : (embOf kappa q + (rhoOf q <<< 4) + cx) % 2 ^ 16 = embOf kappa q + 16 * rhoOf q + cx := by
    rw [Nat.shiftLeft_eq]; omega
  change (let e := tab T ((embOf kappa q + (rhoOf q <<< 4) + cx) % 2 ^ 16)
    ({ rho := rhoOf q, U := max (emaxOf q) kappa, u := max (emaxOf q) kappa - kappa, embk := e &&& 0xF,
       emb1 := embOf kappa q &&& (e &&& 0xF), len := (e >>> 4) &&& 0x07, cwd := e >>> 7 } : Coded)) = _
  rw [h3]

theorem codeQuad_ok (first : Bool) {k kappa : Nat} {q : Nat → Nat} (hq : QOk q) (hk : k < 8) :
    CodedOk (256 * k) kappa q (codeQuad (encVlc first) (256 * k) kappa q) := by
  rw [codeQuad_eq _ hq (by omega)]
  have h := vlcEntry_facts first hk hq.rho_lt (embOf_sub (kappa := kappa) hq)
  simp only at h
  generalize tab (encVlc first) (embOf kappa q + 16 * rhoOf q + 256 * k) = e at *
  obtain ⟨h1, h2, h3, h4⟩ := h
  refine ⟨rfl, rfl, rfl, rfl, Nat.and_le_right, h1, h2, lt_of_le_of_lt Nat.and_le_right (by omega), ?_, ?_⟩
  · intro h
    exact h3 (embOf_eq_zero.mpr (by simp only at h; omega))
  · intro a b
    simp only at b
    have := h4 (by omega) b
    have he : emaxOf q = 0 := rho_zero_emax hq b
    simp [tOf, this, he, b]

theorem codeQuad_dec (first : Bool) {k kappa : Nat} {q : Nat → Nat} (hq : QOk q) (hk : k < 8)
    (hne : k ≠ 0 ∨ rhoOf q ≠ 0) (v : Nat)
    (hv : v % 2 ^ (codeQuad (encVlc first) (256 * k) kappa q).len =
      (codeQuad (encVlc first) (256 * k) kappa q).cwd) :
    tab (decVlc first) (v % 128 + 128 * k) = tOf (codeQuad (encVlc first) (256 * k) kappa q) := by
  rw [codeQuad_eq _ hq (by omega)] at *
  have h := vlcEntry_dec first hk hq.rho_lt (embOf_sub (kappa := kappa) hq) hne v hv
  rw [h]
  unfold tval tOf
  have : (embOf kappa q ≠ 0) = (max (emaxOf q) kappa - kappa ≠ 0) := by
    rw [ne_eq, embOf_eq_zero]; apply propext; omega
  simp only [this]

/-! ## Contexts -/

/-- The decoder's view of a significance pattern inside a table entry. -/
theorem tOf_rho {c : Coded} (hr : c.rho < 16) (hl : c.len ≤ 7) : tOf c &&& 0xF0 = c.rho <<< 4 := by
  have : tOf c &&& 0xF0 = ((tOf c >>> 4) % 16) <<< 4 := by
    apply Nat.eq_of_testBit_eq
    intro i
    rw [Nat.testBit_and, Nat.testBit_shiftLeft, show (16 : Nat) = 2 ^ 4 from rfl, Nat.testBit_mod_two_pow,
      Nat.testBit_shiftRight]
    rcases Nat.lt_or_ge i 8 with h | h
    · interval_cases i <;> simp <;> intro _ <;> decide
    · rw [show (0xF0 : Nat).testBit i = false from
        Nat.testBit_lt_two_pow (lt_of_lt_of_le (by decide) (Nat.pow_le_pow_right (by omega) h))]
      simp
      intro _ h2; omega
  rw [this]
  congr 1
  unfold tOf
  rw [Nat.shiftRight_eq_div_pow]
  split_ifs <;> omega

theorem and_sub_mask {t a m : Nat} (h : a &&& m = m) : t &&& m = (t &&& a) &&& m := by
  rw [Nat.and_assoc, h]

theorem or_double (a b : Nat) : 2 * a ||| 2 * b = 2 * (a ||| b) := by
  rw [Nat.mul_comm 2 a, Nat.mul_comm 2 b, Nat.mul_comm 2 (a ||| b)]
  change a * 2 ^ 1 ||| b * 2 ^ 1 = (a ||| b) * 2 ^ 1
  rw [← Nat.shiftLeft_eq, ← Nat.shiftLeft_eq, ← Nat.shiftLeft_eq, Nat.shiftLeft_or_distrib]

theorem ctxW : ∀ w < 16, ((w &&& 0x4) <<< 7) ||| ((w &&& 0x8) <<< 6) =
    2 * ((((w <<< 4) &&& 0x40) <<< 2) ||| (((w <<< 4) &&& 0x80) <<< 1)) := by decide +kernel
theorem ctxN : ∀ n < 16, ∀ nw < 16, ((nw &&& 0x8) <<< 5) ||| ((n &&& 0x2) <<< 7) ||| ((n &&& 0x8) <<< 7) =
    2 * (((nw <<< 4) &&& 0x80) ||| (((n <<< 4) &&& 0xA0) <<< 2)) := by decide +kernel
theorem ctxF : ∀ n < 16, ((n &&& 0x2) <<< 9) = 2 * (((n <<< 4) &&& 0x20) <<< 4) := by decide +kernel

/-- The decoder computes the encoder's context (halved) from table entries that carry the same
significance patterns. -/
theorem decCtx_eq {w nw n nf t tnw tn tnf : Nat} (hw : w < 16) (hnw : nw < 16) (hn : n < 16) (hnf : nf < 16)
    (h0 : t &&& 0xF0 = w <<< 4) (h1 : tnw &&& 0xF0 = nw <<< 4) (h2 : tn &&& 0xF0 = n <<< 4)
    (h3 : tnf &&& 0xF0 = nf <<< 4) : encCtx w nw n nf = 2 * decCtx t tnw tn tnf := by
  unfold decCtx encCtx
  rw [and_sub_mask (t := t) (a := 0xF0) (m := 0x40) (by decide),
    and_sub_mask (t := t) (a := 0xF0) (m := 0x80) (by decide),
    and_sub_mask (t := tnw) (a := 0xF0) (m := 0x80) (by decide),
    and_sub_mask (t := tn) (a := 0xF0) (m := 0xA0) (by decide),
    and_sub_mask (t := tnf) (a := 0xF0) (m := 0x20) (by decide), h0, h1, h2, h3,
    ← or_double, ← or_double, ← ctxW w hw, ← ctxN n hn nw hnw, ← ctxF nf hnf]
  simp only [Nat.or_assoc]

theorem ctxInit : ∀ w < 16, ((w >>> 1) ||| (w &&& 1)) < 8 ∧
    ((w >>> 1) ||| (w &&& 1)) <<< 7 = (((w <<< 4) &&& 0xE0) <<< 2) ||| (((w <<< 4) &&& 0x10) <<< 3) := by
  decide +kernel

theorem decCtx0_eq {w t : Nat} (hw : w < 16) (h : t &&& 0xF0 = w <<< 4) :
    ((w >>> 1) ||| (w &&& 1)) <<< 7 = decCtx0 t := by
  unfold decCtx0
  rw [and_sub_mask (t := t) (a := 0xF0) (m := 0xE0) (by decide),
    and_sub_mask (t := t) (a := 0xF0) (m := 0x10) (by decide), h]
  exact (ctxInit w hw).2

theorem encCtx_shape {w nw n nf : Nat} (hw : w < 16) (hnw : nw < 16) (hn : n < 16) (hnf : nf < 16) :
    ∃ k < 8, encCtx w nw n nf = 256 * k := by
  have h1 : ∀ w < 16, ∃ k < 8, ((w &&& 0x4) <<< 7) ||| ((w &&& 0x8) <<< 6) = k <<< 8 := by decide +kernel
  have h2 : ∀ n < 16, ∀ nw < 16, ∃ k < 8, ((nw &&& 0x8) <<< 5) ||| ((n &&& 0x2) <<< 7) = k <<< 8 := by
    decide +kernel
  have h3 : ∀ n < 16, ∀ nf < 16, ∃ k < 8, ((n &&& 0x8) <<< 7) ||| ((nf &&& 0x2) <<< 9) = k <<< 8 := by
    decide +kernel
  obtain ⟨a, ha, ea⟩ := h1 w hw
  obtain ⟨b, hb, eb⟩ := h2 n hn nw hnw
  obtain ⟨c, hc, ec⟩ := h3 n hn nf hnf
  refine ⟨a ||| b ||| c, ?_, ?_⟩
  · exact Nat.or_lt_two_pow (n := 3) (Nat.or_lt_two_pow (n := 3) ha hb) hc
  · unfold encCtx
    rw [ea, eb, ec, ← Nat.shiftLeft_or_distrib, ← Nat.shiftLeft_or_distrib, Nat.shiftLeft_eq]
    omega

end Verif.Ht
