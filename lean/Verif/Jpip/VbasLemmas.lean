import Verif.Jpip.Vbas
import Mathlib.Tactic.Ring
/-
Specification vocabulary and lemmas for the VBAS coder.
-/
namespace Verif.Jpip

/-- Specification: the mathematical value of a list of 7-bit groups, most significant first. -/
def groupsVal (a : Nat) (bs : List UInt8) : Nat := bs.foldl (fun a b => a * 128 + b.toNat % 128) a

/-- Specification: a well-formed VBAS is a non-empty byte list in which exactly the last byte has a
clear top bit. -/
def IsVbas : List UInt8 → Prop
  | [] => False
  | [b] => b.toNat < 128
  | b :: bs => 128 ≤ b.toNat ∧ IsVbas bs

theorem and80 (b : UInt8) : b.toNat &&& 0x80 = 0 ↔ b.toNat < 128 := by
  have h : ∀ n : Fin 256, (n.val &&& 0x80 = 0 ↔ n.val < 128) := by decide +kernel
  exact h ⟨b.toNat, b.toNat_lt⟩

theorem and7f (n : Nat) : n &&& 0x7F = n % 128 := by
  have := Nat.and_two_pow_sub_one_eq_mod n 7
  simpa using this

theorem shl7_or (v b : Nat) (h : b < 128) : (v <<< 7) ||| b = v * 128 + b := by
  have := Nat.shiftLeft_add_eq_or_of_lt (i := 7) (b := b) (by simpa using h) v
  rw [← this, Nat.shiftLeft_eq]

theorem groupsVal_cons (a : Nat) (b : UInt8) (bs : List UInt8) :
    groupsVal a (b :: bs) = groupsVal (a * 128 + b.toNat % 128) bs := rfl

theorem groupsVal_append (a : Nat) (xs ys : List UInt8) :
    groupsVal a (xs ++ ys) = groupsVal (groupsVal a xs) ys := by
  simp [groupsVal, List.foldl_append]

theorem le_groupsVal (a : Nat) (bs : List UInt8) : a ≤ groupsVal a bs := by
  induction bs generalizing a with
  | nil => simp [groupsVal]
  | cons b bs ih => rw [groupsVal_cons]; exact Nat.le_trans (by omega) (ih _)

/-- Full characterisation of the decoder loop. -/
theorem vbasDecodeLoop_iff (bs : List UInt8) (i v w n : Nat) (hv : v < 2 ^ 64) (h0 : i = 0 → v = 0) :
    vbasDecodeLoop bs i v = some (w, n) ↔
      ∃ pre rest, bs = pre ++ rest ∧ IsVbas pre ∧ i + pre.length = n ∧ n ≤ 10 ∧
        groupsVal v pre = w ∧ w < 2 ^ 64 := by
  induction bs generalizing i v with
  | nil =>
    simp only [vbasDecodeLoop]
    constructor
    · intro h; cases h
    · rintro ⟨pre, rest, h, hp, -⟩
      have : pre = [] := by
        cases pre with
        | nil => rfl
        | cons => simp at h
      subst this; exact hp.elim
  | cons b bs ih =>
    have hb := b.toNat_lt
    unfold vbasDecodeLoop
    have e7 : (v <<< 7) ||| (b.toNat &&& 0x7F) = v * 128 + b.toNat % 128 := by
      rw [and7f, shl7_or _ _ (by omega)]
    simp only [e7, kVbasMaxBytes]
    by_cases hi : i ≥ 10
    · simp only [hi, if_true]
      constructor
      · intro h; cases h
      · rintro ⟨pre, rest, h, hp, hn, hn10, -⟩
        cases pre with
        | nil => exact hp.elim
        | cons x xs => simp at hn; omega
    · simp only [hi, if_false]
      have e57 : v >>> (64 - 7) = v / 2 ^ 57 := Nat.shiftRight_eq_div_pow _ _
      by_cases hg : i > 0 ∧ v >>> (64 - 7) ≠ 0
      · rw [if_pos hg]
        constructor
        · intro h; simp at h
        · rintro ⟨pre, rest, h, hp, hn, hn10, hval, hw⟩
          exfalso
          cases pre with
          | nil => exact hp.elim
          | cons x xs =>
            rw [groupsVal_cons] at hval
            have h1 := le_groupsVal (v * 128 + x.toNat % 128) xs
            have : v / 2 ^ 57 ≠ 0 := by rw [← e57]; exact hg.2
            omega
      · rw [if_neg hg]
        have hlt : v * 128 + b.toNat % 128 < 2 ^ 64 := by
          by_cases hi0 : i = 0
          · have := h0 hi0; omega
          · have : v / 2 ^ 57 = 0 := by
              rw [← e57]; exact Classical.byContradiction fun hc => hg ⟨by omega, hc⟩
            omega
        rw [Nat.mod_eq_of_lt hlt]
        by_cases ht : b.toNat &&& 0x80 = 0
        · rw [if_pos ht]
          have htt := (and80 b).1 ht
          constructor
          · intro h
            injection h with h; injection h with h1 h2
            exact ⟨[b], bs, rfl, htt, h2, by omega, h1, by omega⟩
          · rintro ⟨pre, rest, h, hp, hn, hn10, hval, hw⟩
            match pre, hp with
            | [x], hp =>
              simp at h; obtain ⟨rfl, rfl⟩ := h
              simp at hn; subst hn
              simp only [groupsVal, List.foldl] at hval
              rw [hval]
            | x :: y :: xs, hp =>
              simp at h; obtain ⟨rfl, -⟩ := h
              have := hp.1; omega
        · rw [if_neg ht]
          have htt : ¬ b.toNat < 128 := fun hc => ht ((and80 b).2 hc)
          rw [ih (i + 1) _ hlt (by omega)]
          constructor
          · rintro ⟨pre, rest, h, hp, hn, hn10, hval, hw⟩
            refine ⟨b :: pre, rest, by simp [h], ?_, by simp; omega, hn10, by rw [groupsVal_cons]; exact hval, hw⟩
            cases pre with
            | nil => exact hp.elim
            | cons y ys => exact ⟨by omega, hp⟩
          · rintro ⟨pre, rest, h, hp, hn, hn10, hval, hw⟩
            match pre, hp with
            | [x], hp =>
              simp at h; obtain ⟨rfl, rfl⟩ := h
              exact absurd hp htt
            | x :: y :: xs, hp =>
              simp at h; obtain ⟨rfl, h⟩ := h
              refine ⟨y :: xs, rest, by simp [h], hp.2, ?_, hn10, ?_, hw⟩
              · simp at hn ⊢; omega
              · rw [groupsVal_cons] at hval; exact hval

/-- The bytes written by the encoding loop for a fixed group count `n`. -/
def encN (n v : Nat) : List UInt8 :=
  (List.range n).map fun i =>
    UInt8.ofNat (((v >>> ((n - 1 - i) * 7)) &&& 0x7F) ||| (if i + 1 < n then 0x80 else 0x00))

theorem encN_succ (n v : Nat) :
    encN (n + 1) v = UInt8.ofNat (((v >>> (n * 7)) &&& 0x7F) ||| (if 0 < n then 0x80 else 0)) :: encN n v := by
  unfold encN
  rw [List.range_succ_eq_map, List.map_cons, List.map_map]
  congr 1
  · simp
  · apply List.map_congr_left
    intro i hi
    simp only [Function.comp, Nat.succ_eq_add_one]
    have : n + 1 - 1 - (i + 1) = n - 1 - i := by omega
    rw [this]
    simp only [Nat.add_lt_add_iff_right]

theorem or80 (x : Nat) (h : x < 128) : x ||| 0x80 = x + 128 := by
  have := Nat.two_pow_add_eq_or_of_lt (i := 7) (b := x) (by simpa using h) 1
  rw [Nat.or_comm]; simpa [Nat.add_comm] using this.symm

theorem encN_isVbas (n v : Nat) (hn : 0 < n) : IsVbas (encN n v) := by
  induction n with
  | zero => omega
  | succ n ih =>
    rw [encN_succ]
    have hlt : (v >>> (n * 7)) &&& 0x7F < 128 := by rw [and7f]; omega
    by_cases h0 : 0 < n
    · have := ih h0
      rw [if_pos h0, or80 _ hlt]
      cases he : encN n v with
      | nil => rw [he] at this; exact this.elim
      | cons y ys =>
        rw [he] at this
        refine ⟨?_, this⟩
        simp only [UInt8.toNat_ofNat']
        omega
    · have : n = 0 := by omega
      subst this
      rw [if_neg h0, Nat.or_zero]
      simp only [encN, List.range_zero, List.map_nil, IsVbas, UInt8.toNat_ofNat']
      omega

theorem encN_length (n v : Nat) : (encN n v).length = n := by simp [encN]

theorem groupsVal_encN (n v a : Nat) : groupsVal a (encN n v) = a * 128 ^ n + v % 128 ^ n := by
  induction n generalizing a with
  | zero => simp [encN, groupsVal]; omega
  | succ n ih =>
    rw [encN_succ, groupsVal_cons, ih]
    have hlt : (v >>> (n * 7)) &&& 0x7F < 128 := by rw [and7f]; omega
    have hb : (UInt8.ofNat (((v >>> (n * 7)) &&& 0x7F) ||| (if 0 < n then 0x80 else 0))).toNat % 128
        = (v / 128 ^ n) % 128 := by
      have e : v >>> (n * 7) = v / 128 ^ n := by
        rw [Nat.shiftRight_eq_div_pow, Nat.mul_comm, Nat.pow_mul]
      rw [UInt8.toNat_ofNat', e] at *
      rw [and7f] at *
      split
      · rw [or80 _ (by omega)]; omega
      · rw [Nat.or_zero]; omega
    rw [hb]
    have e1 : v % 128 ^ (n + 1) = v % 128 ^ n + 128 ^ n * (v / 128 ^ n % 128) := by
      rw [Nat.pow_succ, Nat.mod_mul]
    rw [e1, Nat.pow_succ]
    ring

theorem vbasGroups_spec (v : Nat) : v < 128 ^ vbasGroups v ∧ (v ≠ 0 → 128 ^ (vbasGroups v - 1) ≤ v ∧ 0 < vbasGroups v) := by
  induction v using Nat.strongRecOn with
  | ind v ih =>
    unfold vbasGroups
    by_cases h : v = 0
    · simp [h]
    · simp only [h, dite_false]
      have e : v >>> 7 = v / 128 := by rw [Nat.shiftRight_eq_div_pow]
      rw [e]
      have := ih (v / 128) (by omega)
      obtain ⟨h1, h2⟩ := this
      refine ⟨?_, fun _ => ⟨?_, by omega⟩⟩
      · rw [Nat.pow_add]; omega
      · by_cases hz : v / 128 = 0
        · rw [hz]; simp [vbasGroups]; omega
        · have := h2 hz
          obtain ⟨h3, h4⟩ := this
          have : 1 + vbasGroups (v / 128) - 1 = (vbasGroups (v/128) - 1) + 1 := by omega
          rw [this, Nat.pow_succ]; omega

theorem vbasEncode_eq (v : Nat) (h : v ≠ 0) : vbasEncode v = encN (vbasGroups v) v := by
  unfold vbasEncode encN; simp [h]

theorem vbasEncode_isVbas (v : Nat) : IsVbas (vbasEncode v) := by
  by_cases h : v = 0
  · simp [vbasEncode, h, IsVbas]
  · rw [vbasEncode_eq v h]; exact encN_isVbas _ _ ((vbasGroups_spec v).2 h).2

theorem groupsVal_vbasEncode (v : Nat) : groupsVal 0 (vbasEncode v) = v := by
  by_cases h : v = 0
  · simp [vbasEncode, h, groupsVal]
  · rw [vbasEncode_eq v h, groupsVal_encN]
    rw [Nat.mod_eq_of_lt (vbasGroups_spec v).1]; omega

theorem vbasGroups_le (v k : Nat) (h : v < 128 ^ k) : vbasGroups v ≤ k := by
  by_cases hv : v = 0
  · subst hv; unfold vbasGroups; simp
  · have := ((vbasGroups_spec v).2 hv)
    have h2 : 128 ^ (vbasGroups v - 1) < 128 ^ k := Nat.lt_of_le_of_lt this.1 h
    have := (Nat.pow_lt_pow_iff_right (by omega : 1 < 128)).1 h2
    omega

theorem vbasEncode_length (v : Nat) (hv : v < 2 ^ 64) :
    1 ≤ (vbasEncode v).length ∧ (vbasEncode v).length ≤ 10 := by
  by_cases h : v = 0
  · simp [vbasEncode, h]
  · rw [vbasEncode_eq v h, encN_length]
    exact ⟨((vbasGroups_spec v).2 h).2, vbasGroups_le v 10 (Nat.lt_trans hv (by decide))⟩

theorem vbasDecode_iff (bs : List UInt8) (w n : Nat) :
    vbasDecode bs = some (w, n) ↔
      ∃ pre rest, bs = pre ++ rest ∧ IsVbas pre ∧ pre.length = n ∧ n ≤ 10 ∧
        groupsVal 0 pre = w ∧ w < 2 ^ 64 := by
  unfold vbasDecode
  rw [vbasDecodeLoop_iff bs 0 0 w n (by decide) (fun _ => rfl)]
  simp

theorem vbas_roundtrip (v : Nat) (hv : v < 2 ^ 64) (rest : List UInt8) :
    vbasDecode (vbasEncode v ++ rest) = some (v, (vbasEncode v).length) := by
  rw [vbasDecode_iff]
  exact ⟨_, _, rfl, vbasEncode_isVbas v, rfl, (vbasEncode_length v hv).2, groupsVal_vbasEncode v, hv⟩

theorem IsVbas.ne_nil {bs : List UInt8} (h : IsVbas bs) : bs ≠ [] := by
  cases bs <;> simp_all [IsVbas]

theorem vbasDecode_bounds {bs : List UInt8} {w n : Nat} (h : vbasDecode bs = some (w, n)) :
    1 ≤ n ∧ n ≤ 10 ∧ n ≤ bs.length ∧ w < 2 ^ 64 := by
  obtain ⟨pre, rest, rfl, hp, rfl, h10, -, hw⟩ := (vbasDecode_iff _ _ _).1 h
  have := hp.ne_nil
  have : 0 < pre.length := List.length_pos_iff.2 this
  simp; omega

theorem vbasDecode_append {bs : List UInt8} {r : Nat × Nat} (h : vbasDecode bs = some r) (more : List UInt8) :
    vbasDecode (bs ++ more) = some r := by
  obtain ⟨w, n⟩ := r
  rw [vbasDecode_iff] at h ⊢
  obtain ⟨pre, rest, rfl, h⟩ := h
  exact ⟨pre, rest ++ more, by simp, h⟩

/-- Ten bytes decide: extending a failing input of at least ten bytes cannot make it succeed. -/
theorem vbasDecode_none_append {bs : List UInt8} (h : vbasDecode bs = none) (hl : 10 ≤ bs.length)
    (more : List UInt8) : vbasDecode (bs ++ more) = none := by
  cases hd : vbasDecode (bs ++ more) with
  | none => rfl
  | some r =>
    obtain ⟨w, n⟩ := r
    obtain ⟨pre, rest, he, hp, hn, h10, hv⟩ := (vbasDecode_iff _ _ _).1 hd
    have hpre : pre = bs.take n := by
      have : (bs ++ more).take n = pre := by rw [he, ← hn]; simp
      rw [← this, List.take_append_of_le_length (by omega)]
    have : vbasDecode bs = some (w, n) :=
      (vbasDecode_iff _ _ _).2 ⟨pre, bs.drop n, by rw [hpre]; simp, hp, hn, h10, hv⟩
    rw [this] at h; cases h

end Verif.Jpip
