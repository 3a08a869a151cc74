import Verif.Ht.MsLemmas

/-! # VLC encoder: the reversed bytes carry exactly the emitted bits -/

namespace Verif.Ht

/-- `bs` are the bytes written after the initial 0xFF; with the partial byte they hold `B`. -/
structure VlcInv (s : VlcEnc) (bs : List Nat) (B : List Bool) : Prop where
  buf : s.buf = 0xFF :: bs
  bits : B = unstuff revDisc true bs ++ bitsLE s.bits s.tmp
  small : s.tmp < 2 ^ s.bits
  legal : Legal revDisc true bs
  avail : s.bits + (if 0x8F < s.last then 1 else 0) < 8
  flag : (0x8F < s.last ∧ flagAfter revDisc true bs = true) ∨
    (¬ 0x8F < s.last ∧ (flagAfter revDisc true bs = true → s.bits = 7 ∧ s.tmp ≠ 0x7F))

theorem mask_low (c t : Nat) : c &&& ((1 <<< t) - 1) = c % 2 ^ t := by
  rw [Nat.one_shiftLeft]; exact Nat.and_two_pow_sub_one_eq_mod c t

theorem or_shift_low {a b n : Nat} (h : a < 2 ^ n) : a ||| (b <<< n) = a + b * 2 ^ n := by
  rw [Nat.or_comm, ← Nat.shiftLeft_add_eq_or_of_lt h, Nat.shiftLeft_eq, Nat.add_comm]

theorem add_shift_lt {a b m n : Nat} (ha : a < 2 ^ m) (hb : b < 2 ^ n) : a + b * 2 ^ m < 2 ^ (m + n) := by
  rw [Nat.pow_add]
  calc a + b * 2 ^ m < 2 ^ m + b * 2 ^ m := by omega
    _ = (b + 1) * 2 ^ m := by ring
    _ ≤ 2 ^ n * 2 ^ m := Nat.mul_le_mul_right _ hb
    _ = 2 ^ m * 2 ^ n := by ring

theorem bitsLE_or_shift {a b m n : Nat} (ha : a < 2 ^ m) :
    bitsLE (m + n) (a ||| (b <<< m)) = bitsLE m a ++ bitsLE n b := by
  rw [bitsLE_add]
  congr 1
  · apply bitsLE_congr
    intro i hi
    simp [Nat.testBit_or, Nat.testBit_shiftLeft, show ¬ m ≤ i by omega]
  · apply bitsLE_congr
    intro i hi
    rw [Nat.testBit_shiftRight, Nat.testBit_or, Nat.testBit_shiftLeft,
      Nat.testBit_lt_two_pow (lt_of_lt_of_le ha (Nat.pow_le_pow_right (by omega) (by omega)))]
    simp

theorem VlcInv.round {s : VlcEnc} {bs : List Nat} {B : List Bool} (h : VlcInv s bs B) (cwd len : Nat)
    (hlen : 0 < len) :
    ∃ bs', VlcInv (s.round cwd len).1 bs' (B ++ bitsLE (s.round cwd len).2 cwd) ∧
      0 < (s.round cwd len).2 ∧ (s.round cwd len).2 ≤ len := by
  have hav := h.avail
  unfold VlcEnc.round
  simp only
  set av := 8 - (if 0x8F < s.last then 1 else 0) - s.bits with hav'
  set t := min av len with ht
  have ht0 : 0 < t := by omega
  have hta : t ≤ av := Nat.min_le_left _ _
  have htl : t ≤ len := Nat.min_le_right _ _
  have hb8 : s.bits + t ≤ 8 := by omega
  have hc : cwd % 2 ^ t < 2 ^ t := Nat.mod_lt _ (by positivity)
  have hsh : ((cwd &&& ((1 <<< t) - 1)) <<< s.bits) % 256 = (cwd % 2 ^ t) <<< s.bits := by
    rw [mask_low, Nat.shiftLeft_eq]
    apply Nat.mod_eq_of_lt
    calc cwd % 2 ^ t * 2 ^ s.bits < 2 ^ t * 2 ^ s.bits := Nat.mul_lt_mul_of_pos_right hc (by positivity)
      _ = 2 ^ (s.bits + t) := by rw [← Nat.pow_add, Nat.add_comm]
      _ ≤ 2 ^ 8 := Nat.pow_le_pow_right (by omega) hb8
  rw [hsh]
  set tmp := s.tmp ||| (cwd % 2 ^ t) <<< s.bits with htmp
  have htmplt : tmp < 2 ^ (s.bits + t) := by
    rw [htmp, or_shift_low h.small]; exact add_shift_lt h.small hc
  have hbits : bitsLE (s.bits + t) tmp = bitsLE s.bits s.tmp ++ bitsLE t cwd := by
    rw [htmp, bitsLE_or_shift h.small, bitsLE_mod _ le_rfl]
  have hB : B ++ bitsLE t cwd = unstuff revDisc true bs ++ bitsLE (s.bits + t) tmp := by
    rw [hbits, h.bits, List.append_assoc]
  split_ifs with h1 h2
  · -- seven bits after a byte above 0x8F that are not all ones: an eighth bit follows
    refine ⟨bs, ⟨h.buf, hB, htmplt, h.legal, ?_, ?_⟩, ht0, htl⟩
    · simp only; rw [if_pos h2.1] at hav'; split_ifs <;> omega
    · right
      refine ⟨by simp, fun _ => ⟨?_, h2.2⟩⟩
      simp only; rw [if_pos h2.1] at hav'; omega
  · -- a whole byte is written
    have hwb : revDisc.w (flagAfter revDisc true bs) tmp = s.bits + t := by
      simp only [revDisc, revWidth, and7F]
      rcases h.flag with ⟨hl, hf⟩ | ⟨hl, hf⟩
      · rw [if_pos hl] at hav'
        have : tmp = 0x7F := by
          by_contra hne
          exact h2 ⟨hl, hne⟩
        have hflag : flagAfter ⟨revWidth, fun b => decide (0x8F < b)⟩ true bs = true := hf
        rw [hflag, this]
        simp; omega
      · rw [if_neg hl] at hav'
        have h8 : s.bits + t = 8 := by omega
        rw [h8]
        by_cases hfl : flagAfter revDisc true bs = true
        · obtain ⟨hb7, hne⟩ := hf hfl
          have : tmp % 2 ^ 7 = s.tmp := by
            have hs := h.small
            rw [hb7] at hs
            rw [htmp, or_shift_low h.small, hb7, Nat.add_mul_mod_self_right]
            exact Nat.mod_eq_of_lt hs
          rw [this]
          have : (s.tmp == 0x7F) = false := beq_false_of_ne hne
          rw [this]; simp
        · have hflag : flagAfter ⟨revWidth, fun b => decide (0x8F < b)⟩ true bs = false :=
            Bool.eq_false_iff.mpr hfl
          rw [hflag]; simp
    refine ⟨bs ++ [tmp], ⟨?_, ?_, by simp, ?_, ?_, ?_⟩, ht0, htl⟩
    · simp [h.buf]
    · simp only [bitsLE_zero, List.append_nil]
      rw [unstuff_append, hB]
      simp only [unstuff, List.append_nil]
      rw [hwb]
    · rw [legal_append]
      refine ⟨h.legal, ?_, trivial⟩
      rw [hwb]; exact htmplt
    · simp only; split_ifs <;> omega
    · rw [flagAfter_append]
      show (0x8F < tmp ∧ decide (0x8F < tmp) = true) ∨ (¬ 0x8F < tmp ∧ (decide (0x8F < tmp) = true → _))
      by_cases h3 : 0x8F < tmp
      · left; exact ⟨h3, by simpa using h3⟩
      · right; exact ⟨h3, fun h4 => absurd (by simpa using h4) h3⟩
  · refine ⟨bs, ⟨h.buf, hB, htmplt, h.legal, ?_, ?_⟩, ht0, htl⟩
    · simp only
      split_ifs at hav' ⊢ <;> omega
    · rcases h.flag with ⟨hl, hf⟩ | ⟨hl, hf⟩
      · left; exact ⟨hl, hf⟩
      · right
        refine ⟨hl, fun hfl => ?_⟩
        obtain ⟨hb7, -⟩ := hf hfl
        rw [if_neg hl] at hav'
        omega

theorem VlcInv.loop : ∀ (fuel : Nat) (s : VlcEnc) (bs : List Nat) (B : List Bool) (cwd len : Nat),
    VlcInv s bs B → len ≤ fuel →
    ∃ s' bs', VlcEnc.loop fuel s cwd len = some s' ∧ VlcInv s' bs' (B ++ bitsLE len cwd) := by
  intro fuel
  induction fuel with
  | zero =>
    intro s bs B cwd len h hl
    have : len = 0 := by omega
    subst this
    exact ⟨s, bs, by unfold VlcEnc.loop; simp, by simpa using h⟩
  | succ fuel ih =>
    intro s bs B cwd len h hl
    unfold VlcEnc.loop
    by_cases h0 : len = 0
    · subst h0
      exact ⟨s, bs, by simp, by simpa using h⟩
    · rw [if_neg h0]
      obtain ⟨bs', i, t0, tl⟩ := h.round cwd len (by omega)
      obtain ⟨s'', bs'', e, i'⟩ := ih _ _ _ (cwd >>> (s.round cwd len).2)
        (len - (s.round cwd len).2) i (by omega)
      refine ⟨s'', bs'', e, ?_⟩
      have : bitsLE len cwd = bitsLE (s.round cwd len).2 cwd ++
          bitsLE (len - (s.round cwd len).2) (cwd >>> (s.round cwd len).2) := by
        rw [← bitsLE_add, Nat.add_sub_cancel' tl]
      rw [this, ← List.append_assoc]
      exact i'

theorem VlcInv.emitAll : ∀ (cs : List (Nat × Nat)) (s : VlcEnc) (bs : List Nat) (B : List Bool),
    VlcInv s bs B → ∃ s' bs', s.emitAll cs = some s' ∧ VlcInv s' bs' (B ++ fieldBits cs) := by
  intro cs
  induction cs with
  | nil => intro s bs B h; exact ⟨s, bs, rfl, by simpa [fieldBits] using h⟩
  | cons c cs ih =>
    intro s bs B h
    obtain ⟨s1, bs1, e1, i1⟩ := VlcInv.loop c.2 s bs B c.1 c.2 h le_rfl
    obtain ⟨s2, bs2, e2, i2⟩ := ih s1 bs1 _ i1
    refine ⟨s2, bs2, ?_, ?_⟩
    · unfold VlcEnc.emitAll VlcEnc.emit
      rw [e1]; exact e2
    · simpa [fieldBits, List.append_assoc] using i2

/-- The four one bits in front of the stream. -/
def nibble : List Bool := [true, true, true, true]

theorem VlcInv.init : VlcInv VlcEnc.init [] nibble :=
  ⟨rfl, by decide, by decide, trivial, by decide, Or.inl ⟨by decide, rfl⟩⟩

/-- Any last byte (other than 0xFF) that agrees with the pending bits completes the stream. -/
theorem VlcInv.complete {s : VlcEnc} {bs : List Nat} {B : List Bool} (h : VlcInv s bs B) {x : Nat}
    (hx : x < 255) (hlow : x % 2 ^ s.bits = s.tmp) :
    Legal revDisc true (bs ++ [x]) ∧ B <+: unstuff revDisc true (bs ++ [x]) := by
  have hb : s.bits ≤ 7 := by have := h.avail; omega
  set u := flagAfter revDisc true bs
  have hw := revW_ge u x
  constructor
  · rw [legal_append]
    refine ⟨h.legal, ?_, trivial⟩
    show x < 2 ^ revWidth u x
    unfold revWidth
    by_cases hc : (u && ((x &&& 0x7F) == 0x7F)) = true
    · rw [hc]
      simp only [Bool.and_eq_true, beq_iff_eq] at hc
      rw [and7F] at hc
      have := hc.2
      simp
      omega
    · simp only [Bool.not_eq_true] at hc
      rw [hc]; simp; omega
  · rw [unstuff_append, h.bits]
    simp only [unstuff, List.append_nil]
    rw [List.prefix_append_right_inj]
    rw [show revDisc.w u x = s.bits + (revDisc.w u x - s.bits) by omega, bitsLE_add]
    have : bitsLE s.bits s.tmp = bitsLE s.bits x := by rw [← hlow, bitsLE_mod _ le_rfl]
    rw [this]
    exact List.prefix_append _ _

/-! ## Reading the reversed segment -/

theorem revPushes_rep {L : List Bool} : ∀ n (s : BitRd), Rep revDisc 0 s L → s.bits + 8 * n ≤ 64 →
    Rep revDisc 0 (revPushes n s) L := by
  intro n
  induction n with
  | zero => intro s h _; exact h
  | succ n ih =>
    intro s h hb
    unfold revPushes
    split
    · exact h
    · rename_i d r hr
      have hw := revW_le s.unstuff d
      apply ih
      · have := h.push_spec revW_le (by omega)
        rw [hr] at this
        exact this
      · show s.bits + revWidth s.unstuff d + 8 * n ≤ 64
        have : revWidth s.unstuff d ≤ 8 := hw
        omega

/-- The bits of the byte whose low nibble is all ones. -/
theorem low_nibble {w d : Nat} {L : List Bool} (hw : 4 ≤ w)
    (h : nibble <+: bitsLE w d ++ L) : d % 16 = 15 := by
  rw [show w = 4 + (w - 4) by omega, bitsLE_add, List.append_assoc] at h
  have h1 : nibble = bitsLE 4 d := by
    have := (List.prefix_append (bitsLE 4 d) (bitsLE (w - 4) (d >>> 4) ++ L))
    exact (List.prefix_of_prefix_length_le h this (by simp [nibble])).eq_of_length (by simp [nibble])
  have h2 : bitsLE 4 (d % 2 ^ 4) = bitsLE 4 15 := by
    rw [bitsLE_mod _ le_rfl, ← h1]; decide
  have := eq_of_bitsLE (Nat.mod_lt _ (by decide)) (by decide) h2
  simpa using this

/-- `rev_buf::init` in front of the bits `B` when the reversed segment is 0xFF, then bytes `ys`
carrying four one bits and `B`. -/
theorem revInit_rep {p : Nat} (hp : p < 4) {seg ys post : List Nat} {B : List Bool}
    (hseg : seg.reverse = 0xFF :: (ys ++ post)) (hleg : Legal revDisc true ys)
    (hB : nibble ++ B <+: unstuff revDisc true ys) (hpost : ∀ b ∈ post, b < 256) :
    ∃ s, revInit p seg = some s ∧ Rep revDisc 0 s B := by
  cases ys with
  | nil => simp [unstuff, nibble] at hB
  | cons d ys =>
    have hw7 := revW_ge true d
    have hw8 := revW_le true d
    have hnib : nibble <+: bitsLE (revDisc.w true d) d ++ unstuff revDisc (revDisc.nx d) ys :=
      (List.prefix_append _ _).trans hB
    have hd15 := low_nibble (by omega) hnib
    have hd : d < 2 ^ revDisc.w true d := hleg.1
    have hd256 : d < 256 := lt_of_lt_of_le hd (by
      calc 2 ^ revDisc.w true d ≤ 2 ^ 8 := Nat.pow_le_pow_right (by omega) hw8
        _ = 256 := rfl)
    have hor : d ||| 0x0F = d := by
      have : d = (d / 16) * 2 ^ 4 + 15 := by omega
      have e : (d / 16) <<< 4 ||| 15 = d := by
        rw [← Nat.shiftLeft_add_eq_or_of_lt (by decide), Nat.shiftLeft_eq]; omega
      conv_lhs => rw [← e]
      rw [Nat.or_assoc]
      exact e
    have hwid : 4 - (((d >>> 4) &&& 7) == 7).toNat = revDisc.w true d - 4 := by
      simp only [revDisc, revWidth, Bool.true_and]
      have h7 : ((d >>> 4) &&& 7 == 7) = ((d &&& 0x7F) == 0x7F) := by
        rw [and7F, show (d >>> 4) &&& 7 = (d >>> 4) % 2 ^ 3 from Nat.and_two_pow_sub_one_eq_mod _ 3,
          Nat.shiftRight_eq_div_pow]
        by_cases hc : d % 2 ^ 7 = 127
        · rw [hc, show d / 2 ^ 4 % 2 ^ 3 = 7 by omega]; rfl
        · rw [beq_false_of_ne hc, beq_false_of_ne (show d / 2 ^ 4 % 2 ^ 3 ≠ 7 by omega)]
      rw [h7]
      cases ((d &&& 0x7F) == 0x7F) <;> rfl
    unfold revInit
    rw [hseg]
    simp only [List.cons_append]
    refine ⟨_, rfl, ?_⟩
    rw [hor, hwid]
    refine (Rep.revRead_spec (revPushes_rep _ _ ?_ ?_)).1
    · refine ⟨by simp only; omega, ?_, ys, 0, by simp, hleg.2, ?_⟩
      · intro b hb
        rcases List.mem_append.mp hb with hb | hb
        · exact hleg.2.lt revW_le b hb
        · exact hpost b hb
      · have hsplit : unstuff revDisc true (d :: ys) =
            nibble ++ (bitsLE (revDisc.w true d - 4) (d >>> 4) ++ unstuff revDisc (revDisc.nx d) ys) := by
          have : bitsLE 4 d = nibble := by
            rw [← bitsLE_mod (k := 4) d le_rfl, show d % 2 ^ 4 = 15 from hd15]; decide
          show bitsLE (revDisc.w true d) d ++ _ = _
          rw [show revDisc.w true d = 4 + (revDisc.w true d - 4) by omega, bitsLE_add, this,
            List.append_assoc, Nat.add_sub_cancel_left]
        rw [hsplit, List.prefix_append_right_inj] at hB
        intro i b hi
        obtain ⟨T, hT⟩ := hB
        have hlt : i < B.length := by
          by_contra hc
          rw [List.getElem?_eq_none (by omega)] at hi
          cases hi
        have hi' : (bitsLE (revDisc.w true d - 4) (d >>> 4) ++
            unstuff revDisc (revDisc.nx d) ys)[i]? = some b := by
          rw [← hT, List.getElem?_append_left hlt]; exact hi
        rw [List.getElem?_append, bitsLE_length, bitsLE_getElem?] at hi'
        constructor
        · intro h1
          simp only at h1
          rw [if_pos h1, if_pos h1] at hi'
          exact Option.some.inj hi'
        · intro h1
          simp only at h1
          rw [if_neg (by omega)] at hi'
          refine ⟨?_, hi'⟩
          have := shiftRight_lt hd (show 4 ≤ revDisc.w true d by omega)
          exact Nat.testBit_lt_two_pow (lt_of_lt_of_le this (Nat.pow_le_pow_right (by omega) h1))
    · simp only; omega

end Verif.Ht
