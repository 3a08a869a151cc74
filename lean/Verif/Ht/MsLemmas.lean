import Verif.Ht.Bits

/-! # MagSgn encoder: the bytes carry exactly the emitted bits -/

namespace Verif.Ht

theorem and7F (x : Nat) : x &&& 0x7F = x % 2 ^ 7 := Nat.and_two_pow_sub_one_eq_mod x 7
theorem andFF (x : Nat) : x &&& 0xFF = x % 2 ^ 8 := Nat.and_two_pow_sub_one_eq_mod x 8

/-- The bytes and the register of `s` together hold the bits `B`. -/
structure MsInv (s : MsEnc) (B : List Bool) : Prop where
  bits : B = unstuff fwdDisc false s.buf ++ bitsLE s.ctreg s.creg
  small : s.creg < 2 ^ s.ctreg
  legal : Legal fwdDisc false s.buf
  flag : flagAfter fwdDisc false s.buf = (s.last == 255)

/-- Payload width of the next byte. -/
def MsEnc.width (s : MsEnc) : Nat := if s.last = 255 then 7 else 8

theorem emitByte_eq (s : MsEnc) : s.emitByte =
    { buf := s.buf ++ [s.creg % 2 ^ s.width], creg := s.creg >>> s.width,
      ctreg := s.ctreg - s.width, last := s.creg % 2 ^ s.width } := by
  unfold MsEnc.emitByte MsEnc.width
  split_ifs with h
  · rw [and7F]
  · rw [andFF]

theorem shiftRight_lt {c n w : Nat} (h : c < 2 ^ n) (hw : w ≤ n) : c >>> w < 2 ^ (n - w) := by
  rw [Nat.shiftRight_eq_div_pow, Nat.div_lt_iff_lt_mul (by positivity), ← Nat.pow_add,
    Nat.sub_add_cancel hw]
  exact h

theorem MsInv.emitByte {s : MsEnc} {B : List Bool} (h : MsInv s B) (hw : s.width ≤ s.ctreg) :
    MsInv s.emitByte B ∧ s.emitByte.ctreg = s.ctreg - s.width := by
  have hd : ∀ b, fwdDisc.w (s.last == 255) b = s.width := by
    intro b
    by_cases hl : s.last = 255
    · simp [fwdDisc, MsEnc.width, hl]
    · simp [fwdDisc, MsEnc.width, hl, beq_false_of_ne hl]
  rw [emitByte_eq]
  refine ⟨⟨?_, ?_, ?_, ?_⟩, rfl⟩
  · simp only
    rw [unstuff_append, List.append_assoc, h.flag]
    simp only [unstuff, List.append_nil]
    rw [hd, bitsLE_mod _ le_rfl, ← bitsLE_add, Nat.add_sub_cancel' hw]
    exact h.bits
  · exact shiftRight_lt h.small hw
  · rw [legal_append, h.flag]
    refine ⟨h.legal, ?_, trivial⟩
    rw [hd]
    exact Nat.mod_lt _ (by positivity)
  · simp only
    rw [flagAfter_append]
    rfl

theorem emitDword_eq (s : MsEnc) : s.emitDword = s.emitByte.emitByte.emitByte.emitByte := by
  unfold MsEnc.emitDword
  split_ifs with h
  · obtain ⟨h1, h2, h3, h4⟩ := h
    have e1 : s.emitByte = ⟨s.buf ++ [s.creg &&& 0xFF], s.creg >>> 8, s.ctreg - 8, s.creg &&& 0xFF⟩ := by
      unfold MsEnc.emitByte; rw [if_neg (by omega)]
    have e2 : s.emitByte.emitByte = ⟨s.buf ++ [s.creg &&& 0xFF, (s.creg >>> 8) &&& 0xFF],
        s.creg >>> 16, s.ctreg - 16, (s.creg >>> 8) &&& 0xFF⟩ := by
      rw [e1]; unfold MsEnc.emitByte; rw [if_neg (by simp only; omega)]
      simp only [List.append_assoc, List.cons_append, List.nil_append, ← Nat.shiftRight_add, Nat.sub_sub]
    have e3 : s.emitByte.emitByte.emitByte =
        ⟨s.buf ++ [s.creg &&& 0xFF, (s.creg >>> 8) &&& 0xFF, (s.creg >>> 16) &&& 0xFF],
          s.creg >>> 24, s.ctreg - 24, (s.creg >>> 16) &&& 0xFF⟩ := by
      rw [e2]; unfold MsEnc.emitByte; rw [if_neg (by simp only; omega)]
      simp only [List.append_assoc, List.cons_append, List.nil_append, ← Nat.shiftRight_add, Nat.sub_sub]
    rw [e3]; unfold MsEnc.emitByte; rw [if_neg (by simp only; omega)]
    simp only [List.append_assoc, List.cons_append, List.nil_append, ← Nat.shiftRight_add, Nat.sub_sub]
  · rfl

theorem MsEnc.width_le (s : MsEnc) : 7 ≤ s.width ∧ s.width ≤ 8 := by
  unfold MsEnc.width; split_ifs <;> omega

theorem MsInv.emitDword {s : MsEnc} {B : List Bool} (h : MsInv s B) (hc : 32 ≤ s.ctreg) :
    MsInv s.emitDword B ∧ s.emitDword.ctreg + 28 ≤ s.ctreg := by
  rw [emitDword_eq]
  have w0 := s.width_le
  obtain ⟨i1, c1⟩ := h.emitByte (by omega)
  have w1 := s.emitByte.width_le
  obtain ⟨i2, c2⟩ := i1.emitByte (by omega)
  have w2 := s.emitByte.emitByte.width_le
  obtain ⟨i3, c3⟩ := i2.emitByte (by omega)
  have w3 := s.emitByte.emitByte.emitByte.width_le
  obtain ⟨i4, c4⟩ := i3.emitByte (by omega)
  exact ⟨i4, by omega⟩

theorem MsInv.drain {B : List Bool} : ∀ n (s : MsEnc), MsInv s B → s.ctreg ≤ n →
    MsInv (MsEnc.drain n s) B ∧ (MsEnc.drain n s).ctreg < 32 := by
  intro n
  induction n with
  | zero => intro s h hc; exact ⟨h, by simp only [MsEnc.drain]; omega⟩
  | succ n ih =>
    intro s h hc
    unfold MsEnc.drain
    split_ifs with h32
    · obtain ⟨i, c⟩ := h.emitDword h32
      exact ih _ i (by omega)
    · exact ⟨h, by omega⟩

/-- The field value that `emit` packs. -/
theorem field_sub {v len emb : Nat} (hv : v < 2 ^ len) (hlen : v + emb * 2 ^ len < 2 ^ 32) :
    (v + emb * 2 ^ len + 2 ^ 32 - (emb <<< len) % 2 ^ 32) % 2 ^ 32 = v := by
  rw [Nat.shiftLeft_eq, Nat.mod_eq_of_lt (show emb * 2 ^ len < 2 ^ 32 by omega)]
  rw [show v + emb * 2 ^ len + 2 ^ 32 - emb * 2 ^ len = v + 2 ^ 32 by omega, Nat.add_mod_right]
  exact Nat.mod_eq_of_lt (by omega)

theorem MsInv.emit {s : MsEnc} {B : List Bool} {v len emb : Nat} (h : MsInv s B)
    (hc : s.ctreg < 32) (hl : len ≤ 32) (hv : v < 2 ^ len) (h32 : v + emb * 2 ^ len < 2 ^ 32) :
    MsInv (s.emit (v + emb * 2 ^ len) len emb) (B ++ bitsLE len v) ∧
      (s.emit (v + emb * 2 ^ len) len emb).ctreg < 32 := by
  unfold MsEnc.emit
  simp only
  rw [field_sub hv h32]
  refine MsInv.drain _ _ ?_ le_rfl
  have hor : s.creg ||| v <<< s.ctreg = v * 2 ^ s.ctreg + s.creg := by
    rw [Nat.or_comm, ← Nat.shiftLeft_add_eq_or_of_lt h.small, Nat.shiftLeft_eq]
  have hlt : v * 2 ^ s.ctreg + s.creg < 2 ^ (s.ctreg + len) := by
    rw [Nat.pow_add]
    have := h.small
    calc v * 2 ^ s.ctreg + s.creg < v * 2 ^ s.ctreg + 2 ^ s.ctreg := by omega
      _ = (v + 1) * 2 ^ s.ctreg := by ring
      _ ≤ 2 ^ len * 2 ^ s.ctreg := Nat.mul_le_mul_right _ hv
      _ = 2 ^ s.ctreg * 2 ^ len := by ring
  have h64 : v * 2 ^ s.ctreg + s.creg < 2 ^ 64 :=
    lt_of_lt_of_le hlt (Nat.pow_le_pow_right (by omega) (by omega))
  have hmod : (s.creg ||| v <<< s.ctreg) % 2 ^ 64 = s.creg ||| v <<< s.ctreg := by
    rw [hor]; exact Nat.mod_eq_of_lt h64
  refine ⟨?_, ?_, h.legal, h.flag⟩
  · simp only
    rw [hmod, bitsLE_add, ← List.append_assoc]
    congr 1
    · rw [h.bits]
      congr 1
      apply bitsLE_congr
      intro i hi
      simp [Nat.testBit_or, Nat.testBit_shiftLeft, show ¬ s.ctreg ≤ i by omega]
    · apply bitsLE_congr
      intro i hi
      rw [Nat.testBit_shiftRight, Nat.testBit_or, Nat.testBit_shiftLeft,
        Nat.testBit_lt_two_pow (lt_of_lt_of_le h.small (Nat.pow_le_pow_right (by omega) (by omega)))]
      simp
  · simp only
    rw [hmod, hor]
    exact hlt

theorem MsInv.flushBytes {B : List Bool} : ∀ n (s : MsEnc), MsInv s B → s.ctreg ≤ n →
    MsInv (MsEnc.flushBytes n s) B ∧ (MsEnc.flushBytes n s).ctreg < (MsEnc.flushBytes n s).width := by
  intro n
  induction n with
  | zero =>
    intro s h hc
    have := s.width_le
    exact ⟨h, by simp only [MsEnc.flushBytes]; omega⟩
  | succ n ih =>
    intro s h hc
    unfold MsEnc.flushBytes
    have hw := s.width_le
    split_ifs with h1 h2 h2
    · exact ⟨h, by unfold MsEnc.width; rw [if_pos h1]; exact h2⟩
    · obtain ⟨i, c⟩ := h.emitByte (by unfold MsEnc.width; rw [if_pos h1]; omega)
      exact ih _ i (by omega)
    · exact ⟨h, by unfold MsEnc.width; rw [if_neg h1]; exact h2⟩
    · obtain ⟨i, c⟩ := h.emitByte (by unfold MsEnc.width; rw [if_neg h1]; omega)
      exact ih _ i (by omega)

/-- No byte 0xFF is followed by a byte above 0x7F. -/
def NoMarker : List Nat → Prop
  | a :: b :: l => (a = 0xFF → b ≤ 0x7F) ∧ NoMarker (b :: l)
  | _ => True

theorem Legal.noMarker {u : Bool} {l : List Nat} (h : Legal fwdDisc u l) : NoMarker l := by
  induction l generalizing u with
  | nil => trivial
  | cons a l ih =>
    cases l with
    | nil => trivial
    | cons b l =>
      refine ⟨fun ha => ?_, ih h.2⟩
      have := h.2.1
      rw [ha] at this
      simp [fwdDisc] at this
      omega

theorem Legal.lt {D : Disc} (hD : ∀ u b, D.w u b ≤ 8) {u : Bool} {l : List Nat} (h : Legal D u l) :
    ∀ b ∈ l, b < 256 := by
  induction l generalizing u with
  | nil => simp
  | cons a l ih =>
    intro b hb
    rcases List.mem_cons.mp hb with rfl | hb
    · exact lt_of_lt_of_le h.1 (by
        calc 2 ^ D.w u b ≤ 2 ^ 8 := Nat.pow_le_pow_right (by omega) (hD u b)
          _ = 256 := rfl)
    · exact ih h.2 b hb

theorem flag_getLast {l : List Nat} (u : Bool) (b : Nat) : flagAfter fwdDisc u (l ++ [b]) = (b == 255) := by
  rw [flagAfter_append]; rfl

theorem flag_false {l : List Nat} (h : flagAfter fwdDisc false l = false) :
    l.getLast? ≠ some 255 := by
  rcases List.eq_nil_or_concat l with rfl | ⟨l', b, rfl⟩
  · simp
  · rw [List.concat_eq_append, flag_getLast] at h
    rw [List.concat_eq_append, List.getLast?_append]
    simp at h ⊢
    exact h

/-- `termMS`: the bytes, extended by one fill byte 0xFF, carry all emitted bits, contain no marker
and do not end in 0xFF. -/
theorem MsInv.term {s : MsEnc} {B : List Bool} (h : MsInv s B) :
    Legal fwdDisc false (s.term ++ [0xFF]) ∧ B <+: unstuff fwdDisc false (s.term ++ [0xFF]) ∧
      s.term.getLast? ≠ some 0xFF := by
  unfold MsEnc.term
  obtain ⟨i, c⟩ := MsInv.flushBytes s.ctreg s h le_rfl
  generalize MsEnc.flushBytes s.ctreg s = t at i c
  have hff : ∀ l : List Nat, Legal fwdDisc false l → flagAfter fwdDisc false l = false →
      Legal fwdDisc false (l ++ [0xFF]) := by
    intro l h1 h2
    rw [legal_append, h2]
    exact ⟨h1, by simp [fwdDisc], trivial⟩
  unfold MsEnc.finish
  by_cases h0 : 0 < t.ctreg
  · rw [if_pos h0]
    -- partial byte
    have hw := t.width_le
    have hc8 : t.ctreg < 8 := by omega
    have key : ∀ m : Nat, (∀ j, m.testBit j = (decide (t.ctreg ≤ j) && decide (j < t.width))) →
        let cwd := (t.creg ||| m) % 256
        cwd < 2 ^ t.width ∧ bitsLE t.width cwd = bitsLE t.ctreg t.creg ++
          bitsLE (t.width - t.ctreg) (2 ^ 8 - 1) := by
      intro m hm cwd
      have hcw : ∀ j, cwd.testBit j = (decide (j < 8) && (t.creg.testBit j || m.testBit j)) := by
        intro j
        show ((t.creg ||| m) % 2 ^ 8).testBit j = _
        rw [Nat.testBit_mod_two_pow, Nat.testBit_or]
      have hcreg : ∀ j, t.ctreg ≤ j → t.creg.testBit j = false := fun j hj =>
        Nat.testBit_lt_two_pow (lt_of_lt_of_le i.small (Nat.pow_le_pow_right (by omega) hj))
      constructor
      · apply Nat.lt_pow_two_of_testBit
        intro j hj
        rw [hcw, hcreg j (by omega), hm]
        simp [show ¬ j < t.width by omega]
      · rw [show t.width = t.ctreg + (t.width - t.ctreg) by omega, bitsLE_add]
        congr 1
        · apply bitsLE_congr
          intro j hj
          rw [hcw, hm]
          simp [show j < 8 by omega, show ¬ t.ctreg ≤ j by omega]
        · rw [Nat.add_sub_cancel_left]
          apply bitsLE_congr
          intro j hj
          rw [Nat.testBit_shiftRight, hcw, hcreg _ (by omega), hm, Nat.testBit_two_pow_sub_one]
          simp [show t.ctreg + j < 8 by omega, show t.ctreg + j < t.width by omega,
            show j < 8 by omega]
    have hmask : ∀ j, ((0xFF <<< t.ctreg) % 256).testBit j =
        (decide (t.ctreg ≤ j) && decide (j < 8)) := by
      intro j
      show (((2 ^ 8 - 1) <<< t.ctreg) % 2 ^ 8).testBit j = _
      rw [Nat.testBit_mod_two_pow, Nat.testBit_shiftLeft, Nat.testBit_two_pow_sub_one]
      by_cases h1 : j < 8
      · simp [h1, show j - t.ctreg < 8 by omega]
      · simp [h1]
    have hm : ∀ j, (if t.last = 0xFF then (0xFF <<< t.ctreg) % 256 &&& 0x7F
        else (0xFF <<< t.ctreg) % 256).testBit j =
        (decide (t.ctreg ≤ j) && decide (j < t.width)) := by
      intro j
      unfold MsEnc.width
      split_ifs with h1
      · rw [and7F, Nat.testBit_mod_two_pow, hmask]
        by_cases h7 : j < 7
        · simp [h7, show j < 8 by omega]
        · simp [h7]
      · exact hmask j
    obtain ⟨k1, k2⟩ := key _ hm
    simp only
    generalize (t.creg ||| (if t.last = 0xFF then (0xFF <<< t.ctreg) % 256 &&& 0x7F
        else (0xFF <<< t.ctreg) % 256)) % 256 = cwd at k1 k2
    have hwd : ∀ b, fwdDisc.w (t.last == 255) b = t.width := by
      intro b
      by_cases hl : t.last = 255
      · simp [fwdDisc, MsEnc.width, hl]
      · simp [fwdDisc, MsEnc.width, hl, beq_false_of_ne hl]
    have hleg1 : Legal fwdDisc false (t.buf ++ [cwd]) := by
      rw [legal_append, i.flag]
      refine ⟨i.legal, ?_, trivial⟩
      rw [hwd]; exact k1
    have hpre : B <+: unstuff fwdDisc false (t.buf ++ [cwd]) := by
      rw [unstuff_append, i.flag, i.bits]
      simp only [unstuff, List.append_nil]
      rw [hwd, k2]
      exact (List.prefix_append_right_inj _).mpr (List.prefix_append _ _)
    split_ifs with hcw
    · refine ⟨hff _ hleg1 ?_, ?_, ?_⟩
      · rw [flag_getLast]; simpa using hcw
      · rw [unstuff_append]; exact hpre.trans (List.prefix_append _ _)
      · rw [List.getLast?_append]; simpa using hcw
    · have hcw' : cwd = 255 := by simpa using hcw
      subst hcw'
      refine ⟨hleg1, hpre, flag_false ?_⟩
      rw [i.flag]
      by_contra hc
      simp only [beq_eq_false_iff_ne, ne_eq, Decidable.not_not] at hc
      rw [MsEnc.width, if_pos hc] at k1
      omega
  rw [if_neg h0]
  by_cases hl : t.last = 255
  · rw [if_pos hl]
    -- nothing pending, last byte 0xFF is dropped
    have hc0 : t.ctreg = 0 := by omega
    have hflag := i.flag
    rw [hl] at hflag
    rcases List.eq_nil_or_concat t.buf with hb | ⟨l, b, hb⟩
    · rw [hb] at hflag; simp [flagAfter] at hflag
    · rw [List.concat_eq_append] at hb
      rw [hb, flag_getLast] at hflag
      have hb255 : b = 255 := by simpa using hflag
      subst hb255
      have hleg := i.legal
      rw [hb] at hleg
      rw [hb, List.dropLast_concat]
      refine ⟨hleg, ?_, flag_false ?_⟩
      · rw [i.bits, hc0, bitsLE_zero, List.append_nil, hb]
      · have := (legal_append _ _ _ _).mp hleg |>.2.1
        by_contra hc
        simp only [Bool.not_eq_false] at hc
        rw [hc] at this
        simp [fwdDisc] at this
  · rw [if_neg hl]
    have hc0 : t.ctreg = 0 := by omega
    have hflag : flagAfter fwdDisc false t.buf = false := by rw [i.flag]; simpa using hl
    refine ⟨hff _ i.legal hflag, ?_, flag_false hflag⟩
    rw [i.bits, hc0, bitsLE_zero, List.append_nil, unstuff_append]
    exact List.prefix_append _ _

theorem MsInv.init : MsInv MsEnc.init [] := ⟨rfl, by simp [MsEnc.init], trivial, rfl⟩

/-- Bits of a list of `(value, length)` fields. -/
def fieldBits (fs : List (Nat × Nat)) : List Bool := fs.flatMap fun f => bitsLE f.2 f.1

/-- A MagSgn field as the encoder passes it: `(cwd, len, emb_1)` carrying the value
`cwd - emb_1 * 2^len`, which must fit in `len` bits. -/
def FieldOk (f : Nat × Nat × Nat) : Prop :=
  f.2.1 ≤ 32 ∧ f.1 < 2 ^ 32 ∧ f.2.2 * 2 ^ f.2.1 ≤ f.1 ∧ f.1 - f.2.2 * 2 ^ f.2.1 < 2 ^ f.2.1

/-- The value and the length of a field. -/
def fieldVal (f : Nat × Nat × Nat) : Nat × Nat := (f.1 - f.2.2 * 2 ^ f.2.1, f.2.1)

theorem msEncode_inv (fs : List (Nat × Nat × Nat)) (hfs : ∀ f ∈ fs, FieldOk f) (s : MsEnc)
    (B : List Bool) (h : MsInv s B) (hc : s.ctreg < 32) :
    MsInv (fs.foldl (fun s f => s.emit f.1 f.2.1 f.2.2) s) (B ++ fieldBits (fs.map fieldVal)) := by
  induction fs generalizing s B with
  | nil => simpa [fieldBits] using h
  | cons f fs ih =>
    obtain ⟨h1, h2, h3, h4⟩ := hfs f (by simp)
    obtain ⟨i, c⟩ := h.emit (v := f.1 - f.2.2 * 2 ^ f.2.1) (len := f.2.1) (emb := f.2.2) hc h1 h4
      (by rw [Nat.sub_add_cancel h3]; exact h2)
    rw [Nat.sub_add_cancel h3] at i c
    have := ih (fun g hg => hfs g (by simp [hg])) _ _ i c
    simpa [fieldBits, fieldVal, List.append_assoc] using this

theorem msEncode_spec (fs : List (Nat × Nat × Nat)) (hfs : ∀ f ∈ fs, FieldOk f) :
    Legal fwdDisc false (msEncode fs ++ [0xFF]) ∧
      fieldBits (fs.map fieldVal) <+: unstuff fwdDisc false (msEncode fs ++ [0xFF]) ∧
      (msEncode fs).getLast? ≠ some 0xFF := by
  have := msEncode_inv fs hfs MsEnc.init [] MsInv.init (by simp [MsEnc.init])
  exact this.term

end Verif.Ht
