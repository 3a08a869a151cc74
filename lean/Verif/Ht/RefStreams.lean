import Verif.Ht.Refine
import Verif.Ht.SegLemmas

/-! # SigProp and MagRef bit streams: lemmas -/

namespace Verif.Ht

theorem bitsLE_prefix {n m : Nat} (v : Nat) (h : n ≤ m) : bitsLE n v <+: bitsLE m v := by
  obtain ⟨k, rfl⟩ := Nat.exists_eq_add_of_le h
  rw [bitsLE_add]; exact List.prefix_append _ _

theorem bitsLE_snoc {n t : Nat} (b : Bool) (h : t < 2 ^ n) : bitsLE (n + 1) (t ||| b.toNat <<< n) = bitsLE n t ++ [b] := by
  rw [bitsLE_or_shift h]; cases b <;> rfl

theorem snoc_lt {n t : Nat} (b : Bool) (h : t < 2 ^ n) : t ||| b.toNat <<< n < 2 ^ (n + 1) := by
  rw [or_shift_low h]; exact add_shift_lt h (by cases b <;> decide)

theorem toNat_shift_mod {n : Nat} (b : Bool) (h : n < 8) : (b.toNat <<< n) % 256 = b.toNat <<< n := by
  apply Nat.mod_eq_of_lt
  rw [Nat.shiftLeft_eq]
  have : 2 ^ n ≤ 2 ^ 7 := Nat.pow_le_pow_right (by omega) (by omega)
  cases b
  · simp
  · simp only [Bool.toNat_true]; omega

/-! ## Writers -/

/-- `SP_enc` holds the bits `B`. -/
structure SpInv (s : SpEnc) (B : List Bool) : Prop where
  eq : unstuff fwdDisc false s.buf ++ bitsLE s.bits s.tmp = B
  lt : s.tmp < 2 ^ s.bits
  bl : s.bits < s.max
  mx : s.max = 8 - (flagAfter fwdDisc false s.buf).toNat
  leg : Legal fwdDisc false s.buf

theorem SpInv.init : SpInv SpEnc.init [] := ⟨rfl, by decide, by decide, rfl, trivial⟩

theorem SpInv.emit {s : SpEnc} {B : List Bool} (h : SpInv s B) (b : Bool) : SpInv (s.emit b) (B ++ [b]) := by
  have h8 : s.bits < 8 := by have := h.bl; have := h.mx; omega
  unfold SpEnc.emit
  simp only [toNat_shift_mod b h8]
  have hl := snoc_lt b h.lt
  have hs := bitsLE_snoc b h.lt
  by_cases hm : s.bits + 1 = s.max
  · rw [if_pos hm]
    have hw : fwdDisc.w (flagAfter fwdDisc false s.buf) (s.tmp ||| b.toNat <<< s.bits) = s.bits + 1 := by
      simp only [fwdDisc]; have := h.mx; simp only [fwdDisc] at this; omega
    refine ⟨?_, by simp, by dsimp only; split_ifs <;> decide, ?_, ?_⟩
    · simp only [unstuff_append, unstuff, hw, hs, bitsLE_zero, List.append_nil]
      rw [← List.append_assoc, h.eq]
    · simp only [flagAfter_append, flagAfter, fwdDisc]
      by_cases h1 : s.tmp ||| b.toNat <<< s.bits = 0xFF
      · rw [if_pos h1, h1]; rfl
      · rw [if_neg h1, beq_false_of_ne h1]; rfl
    · rw [legal_append]
      exact ⟨h.leg, by rw [hw]; exact hl, trivial⟩
  · rw [if_neg hm]
    refine ⟨?_, hl, by have := h.bl; show s.bits + 1 < s.max; omega, h.mx, h.leg⟩
    simp only [hs]
    rw [← List.append_assoc, h.eq]

theorem SpInv.emitAll : ∀ (bs : List Bool) {s : SpEnc} {B : List Bool}, SpInv s B →
    SpInv (bs.foldl SpEnc.emit s) (B ++ bs)
  | [], _, _, h => by simpa using h
  | b :: bs, _, _, h => by simpa using SpInv.emitAll bs (h.emit b)

/-- `MR_enc` holds the bits `B`. -/
structure MrInv (s : MrEnc) (B : List Bool) : Prop where
  eq : unstuff revDisc true s.buf ++ bitsLE s.bits s.tmp = B
  lt : s.tmp < 2 ^ s.bits
  bl : s.bits < 8
  fl : flagAfter revDisc true s.buf = decide (0x8F < s.last)
  ns : ¬ (0x8F < s.last ∧ s.bits = 7 ∧ s.tmp = 0x7F)
  leg : Legal revDisc true s.buf

theorem MrInv.init : MrInv MrEnc.init [] := ⟨rfl, by decide, by decide, rfl, by decide, trivial⟩

theorem revWidth_eight {u : Bool} {d : Nat} (h : ¬ (u = true ∧ d &&& 0x7F = 0x7F)) : revWidth u d = 8 := by
  unfold revWidth
  have : (u && d &&& 0x7F == 0x7F) = false := by
    cases u
    · rfl
    · simpa using h
  rw [this]; rfl

theorem MrInv.emit {s : MrEnc} {B : List Bool} (h : MrInv s B) (b : Bool) : MrInv (s.emit b) (B ++ [b]) := by
  have h8 := h.bl
  unfold MrEnc.emit
  simp only [toNat_shift_mod b h8]
  have hl := snoc_lt b h.lt
  have hs := bitsLE_snoc b h.lt
  have hval := or_shift_low (b := b.toNat) h.lt
  generalize ht : s.tmp ||| b.toNat <<< s.bits = t at *
  by_cases hst : 0x8F < s.last ∧ t = 0x7F
  · obtain ⟨hla, rfl⟩ := hst
    have hb6 : s.bits = 6 := by
      have h1 : 6 ≤ s.bits := by
        by_contra hc
        have : 2 ^ (s.bits + 1) ≤ 2 ^ 6 := Nat.pow_le_pow_right (by omega) (by omega)
        omega
      by_contra hc
      have h7 : s.bits = 7 := by omega
      apply h.ns
      refine ⟨hla, h7, ?_⟩
      rw [h7] at hval
      have := h.lt
      rw [h7] at this
      cases b
      · simp at hval; omega
      · simp at hval
    rw [if_pos (show (if 0x8F < s.last ∧ (127 : Nat) = 0x7F then s.bits + 1 + 1 else s.bits + 1) = 8 by
      rw [if_pos ⟨hla, rfl⟩]; omega)]
    have hw : revWidth true 127 = 7 := by decide
    have hf : flagAfter revDisc true s.buf = true := by rw [h.fl]; simpa using hla
    rw [hb6] at hs
    refine ⟨?_, by simp, Nat.zero_lt_succ _, by simp [flagAfter_append, flagAfter, revDisc], by simp, ?_⟩
    · simp only [unstuff_append, unstuff, hf, bitsLE_zero, List.append_nil]
      rw [show revDisc.w true 127 = 7 from hw, hs, ← List.append_assoc, ← h.eq, hb6]
    · rw [legal_append, hf]
      exact ⟨h.leg, by decide, trivial⟩
  · rw [if_neg hst]
    by_cases hb : s.bits + 1 = 8
    · rw [if_pos hb]
      have h7 : s.bits = 7 := by omega
      have hw : revDisc.w (flagAfter revDisc true s.buf) t = 8 := by
        show revWidth _ _ = 8
        apply revWidth_eight
        rw [h.fl]
        rintro ⟨h1, h2⟩
        have h1 : 0x8F < s.last := by simpa using h1
        rw [and7F] at h2
        apply h.ns
        refine ⟨h1, h7, ?_⟩
        have hlt := h.lt
        rw [h7] at hval hlt
        rw [hval] at h2
        omega
      refine ⟨?_, by simp, Nat.zero_lt_succ _, by simp [flagAfter_append, flagAfter, revDisc], by simp, ?_⟩
      · simp only [unstuff_append, unstuff, bitsLE_zero, List.append_nil]
        rw [hw, ← hb, hs, ← List.append_assoc, h.eq]
      · rw [legal_append]
        exact ⟨h.leg, by rw [hw, ← hb]; exact hl, trivial⟩
    · rw [if_neg hb]
      refine ⟨?_, hl, by show s.bits + 1 < 8; omega, h.fl, ?_, h.leg⟩
      · simp only [hs]
        rw [← List.append_assoc, h.eq]
      · rintro ⟨h1, -, h3⟩
        exact hst ⟨h1, h3⟩

theorem MrInv.emitAll : ∀ (bs : List Bool) {s : MrEnc} {B : List Bool}, MrInv s B →
    MrInv (bs.foldl MrEnc.emit s) (B ++ bs)
  | [], _, _, h => by simpa using h
  | b :: bs, _, _, h => by simpa using MrInv.emitAll bs (h.emit b)

/-! ## Termination -/

theorem prefix_unstuff {D : Disc} {u : Bool} {a r : List Nat} {x n t : Nat} (hn : n ≤ D.w (flagAfter D u a) x)
    (hx : bitsLE n x = bitsLE n t) : unstuff D u a ++ bitsLE n t <+: unstuff D u (a ++ x :: r) := by
  rw [unstuff_append]
  simp only [unstuff]
  rw [← hx]
  exact (List.prefix_append_right_inj _).mpr ((bitsLE_prefix _ hn).trans (List.prefix_append _ _))

theorem spMax_le {sp : SpEnc} {S : List Bool} (h : SpInv sp S) (x : Nat) :
    sp.bits ≤ fwdDisc.w (flagAfter fwdDisc false sp.buf) x := by
  have h1 := h.bl; have h2 := h.mx
  simp only [fwdDisc] at *; omega

theorem mrBits_le {mr : MrEnc} {M : List Bool} (h : MrInv mr M) (x : Nat) :
    mr.bits ≤ revDisc.w (flagAfter revDisc true mr.buf) x := by
  have h1 := h.bl; have := revW_ge (flagAfter revDisc true mr.buf) x; omega

theorem or_eq_zero {a b : Nat} (h : a ||| b = 0) : a = 0 ∧ b = 0 := by
  constructor
  · have := Nat.left_le_or (n := a) (m := b); omega
  · have := Nat.right_le_or (n := a) (m := b); omega

/-- Both streams are prefixes of what their readers see. -/
theorem termSpMr_spec {sp : SpEnc} {S : List Bool} (hs : SpInv sp S) {mr : MrEnc} {M : List Bool} (hm : MrInv mr M) :
    S <+: unstuff fwdDisc false (termSpMr sp mr) ∧ M <+: unstuff revDisc true (termSpMr sp mr).reverse := by
  rw [← hs.eq, ← hm.eq]
  have hb8 : sp.bits ≤ 8 := by have := hs.bl; have := hs.mx; omega
  have hmb := hm.bl
  unfold termSpMr
  dsimp only
  split_ifs with h0 h1
  · obtain ⟨h0, h2⟩ := or_eq_zero h0
    obtain ⟨h0, -⟩ := or_eq_zero h0
    have e1 : sp.bits = 0 := by
      by_contra hc
      have := vlcMask_testBit (b := sp.bits) hb8 0
      rw [h0] at this; simp at this; omega
    have e2 : mr.bits = 0 := by
      by_contra hc
      have := vlcMask_testBit (b := mr.bits) (by omega) 0
      rw [h2] at this; simp at this; omega
    rw [e1, e2]
    simp only [bitsLE_zero, List.append_nil, List.reverse_append, List.reverse_reverse, unstuff_append]
    exact ⟨List.prefix_append _ _, List.prefix_append _ _⟩
  · obtain ⟨h1, h2⟩ := or_eq_zero h1
    constructor
    · rw [List.append_assoc, List.singleton_append]
      refine prefix_unstuff (spMax_le hs _) (bitsLE_congr fun i hi => xor_and_zero h1 i ?_)
      rw [Nat.testBit_or, vlcMask_testBit hb8]; simp [hi]
    · rw [List.reverse_append, List.reverse_append, List.reverse_reverse, List.reverse_singleton, List.singleton_append]
      refine prefix_unstuff (mrBits_le hm _) (bitsLE_congr fun i hi => xor_and_zero h2 i ?_)
      rw [vlcMask_testBit (by omega)]; simp [hi]
  · constructor
    · rw [List.append_assoc, List.append_assoc, List.singleton_append]
      exact prefix_unstuff (spMax_le hs _) rfl
    · rw [List.reverse_append, List.reverse_append, List.reverse_reverse, List.reverse_singleton, List.singleton_append]
      exact prefix_unstuff (mrBits_le hm _) rfl

/-- The SigProp stream alone, padded with zeros. -/
theorem SpEnc.term_spec {sp : SpEnc} {S : List Bool} (hs : SpInv sp S) :
    S <+: unstuff fwdDisc false (sp.term ++ [0]) := by
  rw [← hs.eq]
  unfold SpEnc.term
  by_cases ht : sp.tmp = 0
  · simp only [ht, ne_eq, not_true_eq_false, if_false]
    have key : ∀ r, unstuff fwdDisc false sp.buf ++ bitsLE sp.bits 0 <+: unstuff fwdDisc false (sp.buf ++ 0 :: r) :=
      fun r => prefix_unstuff (spMax_le hs _) rfl
    split_ifs
    · rw [List.append_assoc]; exact key _
    · exact key _
  · simp only [ne_eq, ht, not_false_eq_true, if_true]
    have key : ∀ r, unstuff fwdDisc false sp.buf ++ bitsLE sp.bits sp.tmp <+: unstuff fwdDisc false (sp.buf ++ sp.tmp :: r) :=
      fun r => prefix_unstuff (spMax_le hs _) rfl
    split_ifs <;> simp only [List.append_assoc, List.singleton_append] <;> exact key _

/-! ## No markers -/

/-- Every byte 0xFF is followed by a byte of at most 0x8F. -/
def MarkerFree (l : List Nat) : Prop := ∀ i, l[i]? = some 0xFF → ∃ b, l[i + 1]? = some b ∧ b ≤ 0x8F

theorem MarkerFree.nil : MarkerFree [] := by intro i h; simp at h

theorem MarkerFree.cons {x : Nat} {r : List Nat} (h : MarkerFree r)
    (hx : x = 0xFF → ∃ b, r.head? = some b ∧ b ≤ 0x8F) : MarkerFree (x :: r) := by
  intro i hi
  cases i with
  | zero =>
    simp only [List.getElem?_cons_zero, Option.some.injEq] at hi
    obtain ⟨b, h1, h2⟩ := hx hi
    exact ⟨b, by simpa [List.head?_eq_getElem?] using h1, h2⟩
  | succ i => simpa using h i (by simpa using hi)

theorem MarkerFree.fwd : ∀ (A : List Nat) {u : Bool} {T : List Nat}, Legal fwdDisc u A → MarkerFree T →
    (flagAfter fwdDisc u A = true → A ≠ [] → ∃ b, T.head? = some b ∧ b ≤ 0x8F) → MarkerFree (A ++ T)
  | [], _, _, _, hT, _ => hT
  | [x], _, T, _, hT, hx => by
    refine MarkerFree.cons hT fun hxx => hx ?_ (by simp)
    simp [flagAfter, fwdDisc, hxx]
  | x :: y :: A, u, T, hl, hT, hx => by
    refine MarkerFree.cons (MarkerFree.fwd (y :: A) hl.2 hT fun h _ => hx h (by simp)) fun hxx => ⟨y, rfl, ?_⟩
    have := hl.2.1
    rw [hxx] at this
    simp [fwdDisc] at this
    omega

theorem revFlag_false {l : List Nat} (h : flagAfter revDisc true l = false) :
    ∃ b, l.reverse.head? = some b ∧ b ≤ 0x8F := by
  rcases List.eq_nil_or_concat l with rfl | ⟨l', y, rfl⟩
  · simp [flagAfter] at h
  · refine ⟨y, by simp, ?_⟩
    simp only [List.concat_eq_append, flagAfter_append, flagAfter, revDisc] at h
    simpa using h

theorem MarkerFree.rev (l : List Nat) (h : Legal revDisc true l) : MarkerFree l.reverse := by
  induction l using List.reverseRecOn with
  | nil => exact MarkerFree.nil
  | append_singleton l x ih =>
    rw [legal_append] at h
    rw [List.reverse_append, List.reverse_singleton, List.singleton_append]
    refine MarkerFree.cons (ih h.1) fun hx => revFlag_false ?_
    by_contra hc
    have hc : flagAfter revDisc true l = true := by simpa using hc
    have := h.2.1
    rw [hc, hx] at this
    exact absurd this (by decide)

theorem spTmp_lt {sp : SpEnc} {S : List Bool} (h : SpInv sp S) : sp.tmp < 128 := by
  have h1 := h.lt; have h2 := h.bl; have h3 := h.mx
  exact lt_of_lt_of_le h1 (show 2 ^ sp.bits ≤ 2 ^ 7 from Nat.pow_le_pow_right (by omega) (by omega))

theorem mrTmp_lt {mr : MrEnc} {M : List Bool} (h : MrInv mr M) : mr.tmp < 128 := by
  have h1 := h.lt; have h2 := h.bl
  exact lt_of_lt_of_le h1 (show 2 ^ mr.bits ≤ 2 ^ 7 from Nat.pow_le_pow_right (by omega) (by omega))

theorem termSpMr_markerFree {sp : SpEnc} {S : List Bool} (hs : SpInv sp S) {mr : MrEnc} {M : List Bool} (hm : MrInv mr M) :
    MarkerFree (termSpMr sp mr) := by
  have hR := MarkerFree.rev _ hm.leg
  have a1 := spTmp_lt hs
  have a2 := mrTmp_lt hm
  unfold termSpMr
  dsimp only
  split_ifs with h0 h1
  · refine MarkerFree.fwd _ hs.leg hR fun hf _ => ?_
    exfalso
    obtain ⟨h0, -⟩ := or_eq_zero h0
    obtain ⟨-, h0⟩ := or_eq_zero h0
    have := hs.mx
    rw [hf] at this
    rw [this] at h0
    exact absurd h0 (by decide)
  · rw [List.append_assoc, List.singleton_append]
    have hlt : sp.tmp ||| mr.tmp < 2 ^ 7 := Nat.or_lt_two_pow a1 a2
    refine MarkerFree.fwd _ hs.leg (MarkerFree.cons hR fun h => by omega) fun _ _ => ⟨_, rfl, by omega⟩
  · rw [List.append_assoc, List.append_assoc, List.singleton_append, List.singleton_append]
    exact MarkerFree.fwd _ hs.leg (MarkerFree.cons (MarkerFree.cons hR fun h => by omega) fun h => by omega)
      fun _ _ => ⟨_, rfl, by omega⟩

theorem termSpMr_bytes {sp : SpEnc} {S : List Bool} (hs : SpInv sp S) {mr : MrEnc} {M : List Bool} (hm : MrInv mr M) :
    ∀ b ∈ termSpMr sp mr, b < 256 := by
  have a1 := spTmp_lt hs
  have a2 := mrTmp_lt hm
  have hlt : sp.tmp ||| mr.tmp < 2 ^ 7 := Nat.or_lt_two_pow a1 a2
  have b1 := hs.leg.lt fwdW_le
  have b2 := hm.leg.lt revW_le
  unfold termSpMr
  intro b
  dsimp only
  split_ifs <;> simp only [List.mem_append, List.mem_reverse, List.mem_singleton] <;> intro hb
  · rcases hb with hb | hb
    · exact b1 b hb
    · exact b2 b hb
  · rcases hb with (hb | hb) | hb
    · exact b1 b hb
    · omega
    · exact b2 b hb
  · rcases hb with ((hb | hb) | hb) | hb
    · exact b1 b hb
    · omega
    · omega
    · exact b2 b hb

/-! ## Sizes -/

theorem unstuff_length_ge {D : Disc} (hD : ∀ u b, 7 ≤ D.w u b) (u : Bool) (l : List Nat) :
    7 * l.length ≤ (unstuff D u l).length := by
  induction l generalizing u with
  | nil => simp
  | cons x l ih =>
    have := ih (D.nx x); have := hD u x
    simp only [unstuff, List.length_append, bitsLE_length, List.length_cons]; omega

theorem SpInv.length {sp : SpEnc} {S : List Bool} (h : SpInv sp S) : 7 * sp.buf.length ≤ S.length := by
  have := unstuff_length_ge fwdW_ge false sp.buf
  rw [← h.eq, List.length_append]; omega

theorem MrInv.length {mr : MrEnc} {M : List Bool} (h : MrInv mr M) : 7 * mr.buf.length ≤ M.length := by
  have := unstuff_length_ge revW_ge true mr.buf
  rw [← h.eq, List.length_append]; omega

/-! ## Readers -/

/-- The bytes `D` shows are those of `seg`. -/
def Shows (D : Nat → Option Nat) (seg : List Nat) : Prop := ∀ k < seg.length, D k = seg[k]?

/-- The SigProp reader will deliver `L`. -/
def SpRep (seg : List Nat) (s : SpDec) (L : List Bool) : Prop :=
  ∃ n, L <+: bitsLE s.bits s.tmp ++ unstuff fwdDisc (s.last == 0xFF) (seg.drop s.pos ++ List.replicate n 0)

theorem bitsLE_cons (n t : Nat) : bitsLE (n + 1) t = t.testBit 0 :: bitsLE n (t >>> 1) := by
  rw [Nat.add_comm, bitsLE_add]; rfl

theorem and_one_toNat (t : Nat) : t &&& 1 = (t.testBit 0).toNat := by
  rw [Nat.and_one_is_mod, Nat.testBit_zero]
  rcases Nat.mod_two_eq_zero_or_one t with h | h <;> simp [h]

/-- Delivering one bit out of a nonempty register. -/
theorem SpRep.take {seg : List Nat} {s : SpDec} {b : Bool} {L : List Bool} (h : SpRep seg s (b :: L)) (h0 : s.bits ≠ 0) :
    s.tmp &&& 1 = b.toNat ∧ SpRep seg { s with tmp := s.tmp >>> 1, bits := s.bits - 1 } L := by
  obtain ⟨n, h⟩ := h
  obtain ⟨k, hk⟩ := Nat.exists_eq_succ_of_ne_zero h0
  rw [hk, Nat.succ_eq_add_one, bitsLE_cons, List.cons_append, List.cons_prefix_cons] at h
  refine ⟨by rw [and_one_toNat, h.1], n, ?_⟩
  simp only [hk, Nat.succ_eq_add_one, Nat.add_sub_cancel]
  exact h.2

theorem SpRep.bit {D : Nat → Option Nat} {seg : List Nat} (hD : Shows D seg) {s : SpDec} {b : Bool} {L : List Bool}
    (h : SpRep seg s (b :: L)) : ∃ s', s.bit D seg.length = some (b.toNat, s') ∧ SpRep seg s' L := by
  unfold SpDec.bit
  by_cases h0 : s.bits = 0
  · rw [if_pos h0]
    obtain ⟨n, h⟩ := h
    rw [h0, bitsLE_zero, List.nil_append] at h
    have hw : ∀ x, fwdDisc.w (s.last == 0xFF) x = if s.last = 0xFF then 7 else 8 := by
      intro x; simp only [fwdDisc]
      by_cases hx : s.last = 0xFF
      · rw [if_pos hx, hx]; rfl
      · rw [if_neg hx, beq_false_of_ne hx]; rfl
    by_cases hp : s.pos < seg.length
    · rw [if_pos hp, hD _ hp, List.getElem?_eq_getElem hp]
      simp only [Option.map_some]
      rw [List.drop_eq_getElem_cons hp, List.cons_append] at h
      simp only [unstuff, hw] at h
      obtain ⟨e1, e2⟩ := SpRep.take (seg := seg) (L := L) (b := b)
        (s := ⟨if s.last = 0xFF then 7 else 8, seg[s.pos], seg[s.pos], s.pos + 1⟩) ⟨n, h⟩ (by simp only; split_ifs <;> omega)
      exact ⟨_, by rw [e1], e2⟩
    · rw [if_neg hp]
      simp only [Option.map_some]
      rw [List.drop_eq_nil_of_le (by omega), List.nil_append] at h
      cases n with
      | zero => simp [unstuff] at h
      | succ n =>
        rw [List.replicate_succ] at h
        simp only [unstuff, hw] at h
        obtain ⟨e1, e2⟩ := SpRep.take (seg := seg) (L := L) (b := b)
          (s := ⟨if s.last = 0xFF then 7 else 8, 0, 0, s.pos⟩)
          ⟨n, by simp only; rw [List.drop_eq_nil_of_le (by omega : seg.length ≤ s.pos), List.nil_append]; exact h⟩
          (by simp only; split_ifs <;> omega)
        exact ⟨_, by rw [e1], e2⟩
  · rw [if_neg h0]
    obtain ⟨e1, e2⟩ := h.take h0
    exact ⟨_, by rw [Option.map_some, e1], e2⟩

theorem SpRep.start {seg : List Nat} {L : List Bool} {n : Nat}
    (h : L <+: unstuff fwdDisc false (seg ++ List.replicate n 0)) : SpRep seg SpDec.init L :=
  ⟨n, by simpa [SpDec.init] using h⟩

/-- The MagRef reader will deliver `L`. -/
def MrRep (seg : List Nat) (s : MrDec) (L : List Bool) : Prop :=
  s.pos ≤ seg.length ∧
    ∃ n, L <+: bitsLE s.bits s.tmp ++ unstuff revDisc (decide (0x8F < s.last)) ((seg.take s.pos).reverse ++ List.replicate n 0)

theorem MrRep.take {seg : List Nat} {s : MrDec} {b : Bool} {L : List Bool} (h : MrRep seg s (b :: L)) (h0 : s.bits ≠ 0) :
    s.tmp &&& 1 = b.toNat ∧ MrRep seg { s with tmp := s.tmp >>> 1, bits := s.bits - 1 } L := by
  obtain ⟨hp, n, h⟩ := h
  obtain ⟨k, hk⟩ := Nat.exists_eq_succ_of_ne_zero h0
  rw [hk, Nat.succ_eq_add_one, bitsLE_cons, List.cons_append, List.cons_prefix_cons] at h
  refine ⟨by rw [and_one_toNat, h.1], hp, n, ?_⟩
  simp only [hk, Nat.succ_eq_add_one, Nat.add_sub_cancel]
  exact h.2

theorem MrRep.bit {D : Nat → Option Nat} {seg : List Nat} (hD : Shows D seg) {s : MrDec} {b : Bool} {L : List Bool}
    (h : MrRep seg s (b :: L)) : ∃ s', s.bit D = some (b.toNat, s') ∧ MrRep seg s' L := by
  unfold MrDec.bit
  by_cases h0 : s.bits = 0
  · rw [if_pos h0]
    obtain ⟨hpl, n, h⟩ := h
    rw [h0, bitsLE_zero, List.nil_append] at h
    have hw : ∀ x, revDisc.w (decide (0x8F < s.last)) x = if 0x8F < s.last ∧ x &&& 0x7F = 0x7F then 7 else 8 := by
      intro x
      show revWidth _ _ = _
      split_ifs with hx
      · unfold revWidth; simp [hx.1, hx.2]
      · exact revWidth_eight (by simpa using hx)
    by_cases hp : 0 < s.pos
    · have hlt : s.pos - 1 < seg.length := by omega
      rw [if_pos hp, hD _ hlt, List.getElem?_eq_getElem hlt]
      simp only [Option.map_some]
      have hta : (seg.take s.pos).reverse = seg[s.pos - 1] :: (seg.take (s.pos - 1)).reverse := by
        conv_lhs => rw [show s.pos = s.pos - 1 + 1 by omega, List.take_succ_eq_append_getElem hlt]
        simp
      rw [hta, List.cons_append] at h
      simp only [unstuff, hw] at h
      obtain ⟨e1, e2⟩ := MrRep.take (seg := seg) (L := L) (b := b)
        (s := ⟨if 0x8F < s.last ∧ seg[s.pos - 1] &&& 0x7F = 0x7F then 7 else 8, seg[s.pos - 1], seg[s.pos - 1], s.pos - 1⟩)
        ⟨by simp only; omega, n, h⟩ (by simp only; split_ifs <;> omega)
      exact ⟨_, by rw [e1], e2⟩
    · rw [if_neg hp]
      simp only [Option.map_some]
      have hp0 : s.pos = 0 := by omega
      rw [hp0, List.take_zero, List.reverse_nil, List.nil_append] at h
      cases n with
      | zero => simp [unstuff] at h
      | succ n =>
        rw [List.replicate_succ] at h
        simp only [unstuff, hw] at h
        obtain ⟨e1, e2⟩ := MrRep.take (seg := seg) (L := L) (b := b)
          (s := ⟨if 0x8F < s.last ∧ 0 &&& 0x7F = 0x7F then 7 else 8, 0, 0, 0⟩)
          ⟨by simp, n, by simpa [revDisc] using h⟩ (by simp only; split_ifs <;> omega)
        exact ⟨_, by rw [e1], e2⟩
  · rw [if_neg h0]
    obtain ⟨e1, e2⟩ := h.take h0
    exact ⟨_, by rw [Option.map_some, e1], e2⟩

theorem MrRep.start {seg : List Nat} {L : List Bool} (h : L <+: unstuff revDisc true seg.reverse) :
    MrRep seg (MrDec.init seg.length) L :=
  ⟨le_rfl, 0, by simpa [MrDec.init] using h⟩

end Verif.Ht
