import Verif.Simd.LaneLemmas
/-
Lemmas on the dequantisation of one lane of an HT code-block.
-/
namespace Verif.Simd
open Verif.Ebcot

theorem laneMask_and' (c : Bool) (a : BitVec 32) : laneMask c &&& a = if c then a else 0#32 := by
  rw [BitVec.and_comm, and_laneMask]

/-- The count of the up-shift of a lane. -/
def cntL (mb roi : Nat) (m : BitVec 32) : BitVec 32 := if m &&& ~~~ roiMask mb = 0#32 then BitVec.ofNat 32 roi else 0#32

theorem cnt_eq (mb roi : Nat) (m : BitVec 32) : laneMask (m &&& ~~~ roiMask mb == 0#32) &&& BitVec.ofNat 32 roi = cntL mb roi m := by
  rw [laneMask_and']
  simp only [cntL, beq_iff_eq]

/-- What `roiUp` gives, as a count. -/
theorem roiUp_cnt {mb roi n u : Nat} (hm : mb < 31) (hn : n < 2 ^ 31) (m : BitVec 32) (e : m.toNat = n) (h : roiUp mb roi n = .ok u) :
    ∃ k : Nat, cntL mb roi m = BitVec.ofNat 32 k ∧ u = n * 2 ^ k ∧ u < 2 ^ 31 ∧ k < 32 := by
  unfold roiUp at h
  unfold cntL
  by_cases hc : n / 2 ^ (31 - mb) = 0
  · rw [if_pos ((roi_cond mb hm m).2 (by rw [e]; exact hc))]
    by_cases hr : roi = 0
    · subst hr
      simp only [ne_eq, not_true_eq_false, false_and, if_false, Except.ok.injEq] at h
      exact ⟨0, rfl, by omega, by omega, by omega⟩
    · rw [if_pos ⟨hr, hc⟩] at h
      split at h
      · rename_i g
        rw [Except.ok.injEq] at h
        exact ⟨roi, rfl, h.symm, by rw [← h]; exact g.1, g.2⟩
      · cases h
  · rw [if_neg (fun g => hc (by rw [← e]; exact (roi_cond mb hm m).1 g))]
    rw [if_neg (fun g => hc g.2), Except.ok.injEq] at h
    exact ⟨0, rfl, by omega, by omega, by omega⟩

theorem shl_cnt {n u k : Nat} (m : BitVec 32) (e : m.toNat = n) (hu : u = n * 2 ^ k) (l : u < 2 ^ 31) (hk : k < 32) :
    (m <<< (BitVec.ofNat 32 k).toNat).toNat = u := by
  rw [BitVec.toNat_shiftLeft, e, Nat.shiftLeft_eq, BitVec.toNat_ofNat, Nat.mod_eq_of_lt (a := k) (by omega), ← hu, Nat.mod_eq_of_lt (by omega)]

/-- `_mm256_sign_epi32` with the sample itself. -/
theorem sign_mm (val : Nat) (q : BitVec 32) (z : Int) (hq : q.toInt = z) (h1 : -2 ^ 31 < z) (h0 : val % 2 ^ 32 = 0 → z = 0) :
    (if (BitVec.ofNat 32 val).msb then -q else if BitVec.ofNat 32 val = 0#32 then 0#32 else q).toInt = if val / 2 ^ 31 % 2 = 1 then -z else z := by
  rw [msb_ofNat]
  by_cases h : val / 2 ^ 31 % 2 = 1
  · simp only [h, decide_true, if_true]
    rw [BitVec.toInt_neg_of_ne_intMin, hq]
    intro g
    rw [g] at hq
    rw [← hq] at h1
    revert h1
    decide
  · simp only [h, decide_false, if_false, Bool.false_eq_true]
    by_cases hz : BitVec.ofNat 32 val = 0#32
    · rw [if_pos hz, h0]
      · rfl
      · have := congrArg BitVec.toNat hz
        simpa using this
    · rw [if_neg hz, hq]

/-- `vbslq_s32` with the sign. -/
theorem sign_bsl (val : Nat) (q : BitVec 32) (z : Int) (hq : q.toInt = z) (h1 : -2 ^ 31 < z) :
    (if ((BitVec.ofNat 32 val).sshiftRight 31).msb then -q else q).toInt = if val / 2 ^ 31 % 2 = 1 then -z else z := by
  have e : ((BitVec.ofNat 32 val).sshiftRight 31).msb = (BitVec.ofNat 32 val).msb := by
    rw [sign_lane]; cases (BitVec.ofNat 32 val).msb <;> rfl
  rw [e, msb_ofNat]
  by_cases h : val / 2 ^ 31 % 2 = 1
  · simp only [h, decide_true, if_true]
    rw [BitVec.toInt_neg_of_ne_intMin, hq]
    intro g
    rw [g] at hq
    rw [← hq] at h1
    revert h1
    decide
  · simp only [h, decide_false, if_false, Bool.false_eq_true, hq]

theorem htRev_inv {mb roi val : Nat} {q : Int} (h : htRev mb roi val = .ok q) :
    mb < 31 ∧ ∃ u, roiUp mb roi (val % 2 ^ 31) = .ok u ∧ u < 2 ^ 31 ∧ q = if val / 2 ^ 31 % 2 = 1 then -((u / 2 ^ (31 - mb) : Nat) : Int) else (u / 2 ^ (31 - mb) : Nat) := by
  unfold htRev at h
  split at h
  · cases h
  rename_i hm
  replace hm : mb < 31 := by omega
  obtain ⟨u, hu, h⟩ := bind_ok h
  rw [Except.ok.injEq] at h
  have l := (upL_ok hm (Nat.mod_lt _ (by decide)) _ (mag_toNat val) hu).2
  refine ⟨hm, u, hu, l, ?_⟩
  rw [← h, Nat.mod_eq_of_lt (Nat.lt_of_le_of_lt (Nat.div_le_self _ _) l)]

theorem toInt_of_toNat {x : BitVec 32} {u : Nat} (h : x.toNat = u) (l : u < 2 ^ 31) : x.toInt = u := by
  rw [BitVec.toInt_eq_toNat_of_lt (by omega), h]

theorem htRevAvx2_ok {mb roi : Nat} (val : Fin 8 → Nat) (i : Fin 8) {q : Int} (h : htRev mb roi (val i) = .ok q) :
    (htRevAvx2 mb roi (fun i => BitVec.ofNat 32 (val i)) i).toInt = q := by
  obtain ⟨hm, u, hu, l, rfl⟩ := htRev_inv h
  have hmag := mag_toNat (val i)
  have h0 : val i % 2 ^ 32 = 0 → ((u / 2 ^ (31 - mb) : Nat) : Int) = 0 := by
    intro g
    obtain ⟨k, -, hk, -⟩ := roiUp_cnt hm (Nat.mod_lt _ (by decide)) _ hmag hu
    have : val i % 2 ^ 31 = 0 := by omega
    rw [this, Nat.zero_mul] at hk
    rw [hk, Nat.zero_div]; rfl
  have lz : (-2 ^ 31 : Int) < ((u / 2 ^ (31 - mb) : Nat) : Int) := Int.lt_of_lt_of_le (by decide) (Int.natCast_nonneg _)
  have fin : ∀ m : BitVec 32, m.toNat = u → (m.sshiftRight (31 - mb)).toInt = ((u / 2 ^ (31 - mb) : Nat) : Int) := by
    intro m hm'
    rw [sshift_toInt, toInt_of_toNat hm' l]
    norm_cast
  have hmin : min (31 - mb) 31 = 31 - mb := by omega
  unfold htRevAvx2
  simp only [vsign, vsrai, hmin]
  refine sign_mm (val i) _ _ (fin _ ?_) lz h0
  by_cases hr : roi = 0
  · simp only [hr, if_true]
    have := (upL_ok hm (Nat.mod_lt _ (by decide)) _ hmag hu).1
    rw [upL, if_neg (by simp [hr])] at this
    exact this
  · simp only [hr, if_false, vsllv, veq, vand, vset, cnt_eq]
    obtain ⟨k, hk, hx, -, hk2⟩ := roiUp_cnt hm (Nat.mod_lt _ (by decide)) _ hmag hu
    rw [hk]
    exact shl_cnt _ hmag hx l hk2

theorem shl_byte : ∀ (a b : Fin 32), ((BitVec.ofNat 32 a.val - BitVec.ofNat 32 b.val).setWidth 8).toInt = (a.val : Int) - b.val := by decide +kernel

theorem htRevNeon_ok {mb roi : Nat} (val : Fin 4 → Nat) (i : Fin 4) {q : Int} (h : htRev mb roi (val i) = .ok q) :
    (htRevNeon mb roi (fun i => BitVec.ofNat 32 (val i)) i).toInt = q := by
  obtain ⟨hm, u, hu, l, rfl⟩ := htRev_inv h
  have hmag := mag_toNat (val i)
  obtain ⟨k, hk, hx, -, hk2⟩ := roiUp_cnt hm (Nat.mod_lt _ (by decide)) _ hmag hu
  unfold htRevNeon
  simp only [vbsl, vneg, vsrai, vand, vset, vshlN, vsub, veq, cnt_eq, hk, Nat.min_self]
  refine sign_bsl (val i) _ _ ?_ (Int.lt_of_lt_of_le (by decide) (Int.natCast_nonneg _))
  generalize BitVec.ofNat 32 (val i) &&& 2147483647#32 = m at hmag
  have hb := shl_byte ⟨k, hk2⟩ ⟨31 - mb, by omega⟩
  simp only at hb
  unfold shlN
  rw [hb]
  by_cases hc : 31 - mb ≤ k
  · rw [if_pos (by omega)]
    have e1 : ((k : Int) - ((31 - mb : Nat) : Int)).toNat = k - (31 - mb) := by omega
    have e2 : u / 2 ^ (31 - mb) = val i % 2 ^ 31 * 2 ^ (k - (31 - mb)) := by
      rw [hx, show k = (k - (31 - mb)) + (31 - mb) by omega, Nat.pow_add, ← Nat.mul_assoc, Nat.mul_div_cancel _ (Nat.pow_pos (by decide))]
      congr 2
      omega
    rw [e1]
    have l2 : u / 2 ^ (31 - mb) < 2 ^ 31 := Nat.lt_of_le_of_lt (Nat.div_le_self _ _) l
    refine toInt_of_toNat ?_ l2
    rw [BitVec.toNat_shiftLeft, hmag, Nat.shiftLeft_eq, ← e2, Nat.mod_eq_of_lt (by omega)]
  · rw [if_neg (by omega)]
    have e1 : (-((k : Int) - ((31 - mb : Nat) : Int))).toNat = 31 - mb - k := by omega
    have e2 : u / 2 ^ (31 - mb) = val i % 2 ^ 31 / 2 ^ (31 - mb - k) := by
      rw [hx]
      conv_lhs => rw [show 31 - mb = (31 - mb - k) + k by omega, Nat.pow_add]
      rw [Nat.mul_div_mul_right _ _ (Nat.pow_pos (by decide))]
    rw [e1, sshift_toInt, toInt_of_toNat hmag (Nat.mod_lt _ (by decide)), e2]
    norm_cast

theorem mulIrr_nonneg {scale q : Int} {w : Nat} (h0 : 0 ≤ scale) (h : mulIrr scale w = .ok q) : 0 ≤ q ∧ q < 2 ^ 31 ∧ (w = 0 → q = 0) := by
  unfold mulIrr at h
  obtain ⟨a, ha, h⟩ := bind_ok h
  obtain ⟨p, hp, h⟩ := bind_ok h
  obtain ⟨s, hs, h⟩ := bind_ok h
  rw [Except.ok.injEq] at h
  obtain ⟨a0, a1, a2⟩ := int32_ok ha
  obtain ⟨b0, b1, b2⟩ := int32_ok hp
  obtain ⟨c0, c1, c2⟩ := int32_ok hs
  have hp0 : 0 ≤ p := by rw [b0]; exact Int.mul_nonneg (by omega) h0
  refine ⟨by omega, by omega, ?_⟩
  intro hw
  subst hw
  have : a / 2 ^ 16 = 0 := by omega
  rw [this, Int.zero_mul] at b0
  omega

theorem htIrr_inv {mb roi val : Nat} {scale q : Int} (h0 : 0 ≤ scale) (h : htIrrRoi mb roi scale val = .ok q) :
    mb < 31 ∧ ∃ u z, roiUp mb roi (val % 2 ^ 31) = .ok u ∧ u < 2 ^ 31 ∧ mulIrr scale u = .ok z ∧ 0 ≤ z ∧ (u = 0 → z = 0) ∧ q = if val / 2 ^ 31 % 2 = 1 then -z else z := by
  unfold htIrrRoi at h
  split at h
  · cases h
  rename_i hm
  replace hm : mb < 31 := by omega
  obtain ⟨u, hu, h⟩ := bind_ok h
  replace hu := mapError_ok hu
  obtain ⟨z, hz, h⟩ := bind_ok h
  rw [Except.ok.injEq] at h
  have l := (upL_ok hm (Nat.mod_lt _ (by decide)) _ (mag_toNat val) hu).2
  obtain ⟨n1, n2, n3⟩ := mulIrr_nonneg h0 hz
  refine ⟨hm, u, z, hu, l, hz, n1, n3, ?_⟩
  rw [← h, Int.emod_eq_of_lt n1 n2]

theorem htIrrAvx2_ok {mb roi : Nat} {scale : Int} (h0 : 0 ≤ scale) (hs2 : scale < 2 ^ 31) (val : Fin 8 → Nat) (i : Fin 8) {q : Int} (h : htIrrRoi mb roi scale (val i) = .ok q) :
    (htIrrAvx2 mb roi scale (fun i => BitVec.ofNat 32 (val i)) i).toInt = q := by
  obtain ⟨hm, u, z, hu, l, hz, n1, n3, rfl⟩ := htIrr_inv h0 h
  have hmag := mag_toNat (val i)
  obtain ⟨k, hk, hx, -, hk2⟩ := roiUp_cnt hm (Nat.mod_lt _ (by decide)) _ hmag hu
  unfold htIrrAvx2
  simp only [vsign, vsrai, vand, vset, vsllv, veq, vadd, vmul, cnt_eq, hk, min16, min15]
  have hsh := shl_cnt _ hmag hx l hk2
  generalize (BitVec.ofNat 32 (val i) &&& 2147483647#32) <<< (BitVec.ofNat 32 k).toNat = m at hsh
  obtain ⟨t5, -⟩ := mul_lane m (toInt_of_toNat hsh l) (by omega) hs2 hz
  refine sign_mm (val i) _ _ t5 (by omega) ?_
  intro g
  apply n3
  have : val i % 2 ^ 31 = 0 := by omega
  rw [hx, this, Nat.zero_mul]

theorem htIrrNeon_ok {mb roi : Nat} {scale : Int} (h0 : 0 ≤ scale) (hs2 : scale < 2 ^ 31) (val : Fin 4 → Nat) (i : Fin 4) {q : Int} (h : htIrrRoi mb roi scale (val i) = .ok q) :
    (htIrrNeon mb roi scale (fun i => BitVec.ofNat 32 (val i)) i).toInt = q := by
  obtain ⟨hm, u, z, hu, l, hz, n1, n3, rfl⟩ := htIrr_inv h0 h
  have hmag := mag_toNat (val i)
  obtain ⟨k, hk, hx, -, hk2⟩ := roiUp_cnt hm (Nat.mod_lt _ (by decide)) _ hmag hu
  unfold htIrrNeon
  simp only [vbsl, vneg, vsrai, vand, vset, vshlN, veq, vmul, vrshr, cnt_eq, hk, Nat.min_self]
  refine sign_bsl (val i) _ _ ?_ (by omega)
  have hb := shl_byte ⟨k, hk2⟩ ⟨0, by decide⟩
  simp only [Int.ofNat_zero, Int.sub_zero] at hb
  have hb' : ((BitVec.ofNat 32 k).setWidth 8).toInt = (k : Int) := by simpa using hb
  have hsh : (shlN (BitVec.ofNat 32 (val i) &&& 2147483647#32) (BitVec.ofNat 32 k)).toNat = u := by
    have := shl_cnt _ hmag hx l hk2
    rw [BitVec.toNat_ofNat, Nat.mod_eq_of_lt (a := k) (by omega)] at this
    unfold shlN
    rw [hb', if_pos (by omega), Int.toNat_natCast, this]
  generalize shlN (BitVec.ofNat 32 (val i) &&& 2147483647#32) (BitVec.ofNat 32 k) = m at hsh
  obtain ⟨-, ⟨p, p1, p2, p3, p4⟩, -⟩ := mul_lane m (toInt_of_toNat hsh l) (by omega) hs2 hz
  rw [toInt_of_toNat hsh l]
  have e16 : ((u : Int) + 2 ^ (16 - 1)) / 2 ^ 16 = ((u : Int) + 2 ^ 15) / 2 ^ 16 := rfl
  have t1 : (BitVec.ofInt 32 (((u : Int) + 2 ^ (16 - 1)) / 2 ^ 16) * BitVec.ofInt 32 scale).toInt = p := by
    rw [BitVec.toInt_mul, BitVec.toInt_ofInt, BitVec.toInt_ofInt, toInt_of_range (z := scale) (by omega) hs2, e16,
      toInt_of_range (z := ((u : Int) + 2 ^ 15) / 2 ^ 16) (by omega) (by omega), ← p1, toInt_of_range p2 p3]
  rw [t1, BitVec.toInt_ofInt, p4]
  exact toInt_of_range (by omega) (by omega)

end Verif.Simd
