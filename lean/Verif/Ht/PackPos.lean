import Verif.Ht.PackMag

/-! # Packed SigProp: the words and the loop over positions, lemmas -/

namespace Verif.Ht

/-! ## Cells and words -/

/-- Three cells of a column, from the row above to the row below. -/
def colOf (f : Nat → Nat → Bool) (ca : Bool) (y r C : Nat) : Bool :=
  f (y + r) C || f (y + r + 1) C || ((!ca || decide (r ≠ 3)) && f (y + r + 2) C)

/-- Nine cells around position `k` of the group at `y, x`. -/
def nbOf (f : Nat → Nat → Bool) (ca : Bool) (y x k : Nat) : Bool :=
  colOf f ca y (k % 4) (x + k / 4) || colOf f ca y (k % 4) (x + k / 4 + 1) || colOf f ca y (k % 4) (x + k / 4 + 2)

theorem colOf_or (f g : Nat → Nat → Bool) (ca : Bool) (y r C : Nat) :
    colOf (fun a c => f a c || g a c) ca y r C = (colOf f ca y r C || colOf g ca y r C) := by
  unfold colOf
  dsimp only
  rw [Bool.and_or_distrib_left]
  ac_rfl

theorem nbOf_or (f g : Nat → Nat → Bool) (ca : Bool) (y x k : Nat) :
    nbOf (fun a c => f a c || g a c) ca y x k = (nbOf f ca y x k || nbOf g ca y x k) := by
  unfold nbOf
  rw [colOf_or, colOf_or, colOf_or]
  ac_rfl

/-- One cell is seen from the positions next to it. -/
theorem nbOf_cell {ca : Bool} {y x k j : Nat} (hkj : k < j) :
    nbOf (fun r c => decide (r = y + k % 4 + 1 ∧ c = x + k / 4 + 1)) ca y x j =
      decide (j / 4 ≤ k / 4 + 1 ∧ j % 4 ≤ k % 4 + 1 ∧ k % 4 ≤ j % 4 + 1) := by
  unfold nbOf colOf
  rw [Bool.eq_iff_iff]
  simp only [Bool.or_eq_true, Bool.and_eq_true, decide_eq_true_eq, Bool.not_eq_true']
  constructor
  · rintro ((((⟨h1, h2⟩ | ⟨h1, h2⟩) | ⟨-, h1, h2⟩) | ((⟨h1, h2⟩ | ⟨h1, h2⟩) | ⟨-, h1, h2⟩)) | ((⟨h1, h2⟩ | ⟨h1, h2⟩) | ⟨-, h1, h2⟩)) <;> omega
  · rintro ⟨h1, h2, h3⟩
    have hc : x + j / 4 = x + k / 4 + 1 ∨ x + j / 4 + 1 = x + k / 4 + 1 := by omega
    have hr : y + j % 4 = y + k % 4 + 1 ∨ y + j % 4 + 1 = y + k % 4 + 1 ∨ (j % 4 ≠ 3 ∧ y + j % 4 + 2 = y + k % 4 + 1) := by omega
    rcases hc with hc | hc <;> rcases hr with hr | hr | ⟨hr', hr⟩
    · exact Or.inl (Or.inl (Or.inl (Or.inl ⟨hr, hc⟩)))
    · exact Or.inl (Or.inl (Or.inl (Or.inr ⟨hr, hc⟩)))
    · exact Or.inl (Or.inl (Or.inr ⟨Or.inr hr', hr, hc⟩))
    · exact Or.inl (Or.inr (Or.inl (Or.inl ⟨hr, hc⟩)))
    · exact Or.inl (Or.inr (Or.inl (Or.inr ⟨hr, hc⟩)))
    · exact Or.inl (Or.inr (Or.inr ⟨Or.inr hr', hr, hc⟩))

theorem mask7 : ∀ k < 32, (0x77777777 : Nat).testBit k = decide (k % 4 ≠ 3) := by decide +kernel
theorem maskE : ∀ k < 32, (0xEEEEEEEE : Nat).testBit k = decide (k % 4 ≠ 0) := by decide +kernel
theorem mask8 : ∀ k < 32, (0x88888888 : Nat).testBit k = decide (k % 4 = 3) := by decide +kernel
theorem mask1 : ∀ k < 32, (0x11111111 : Nat).testBit k = decide (k % 4 = 0) := by decide +kernel
theorem mask7s : ∀ k < 32, (0x7777 : Nat).testBit k = (decide (k % 4 ≠ 3) && decide (k < 16)) := by decide +kernel
theorem maskEs : ∀ k < 32, (0xEEEE : Nat).testBit k = (decide (k % 4 ≠ 0) && decide (k < 16)) := by decide +kernel

theorem rowMask_bits : ∀ k < 16, ∀ j < 16, (shl32 (rowMask (k &&& 3)) (k &&& not32 3)).testBit j =
    decide (k ≤ j ∧ j / 4 ≤ k / 4 + 1 ∧ j % 4 ≤ k % 4 + 1 ∧ k % 4 ≤ j % 4 + 1) := by decide +kernel

theorem u_bits (ca : Bool) (ps ns : Nat) {k : Nat} (hk : k < 28) : (aboveBelow ca ps ns).testBit k =
    ((decide (k % 4 = 0) && ps.testBit (k + 3)) || (!ca && (decide (k % 4 = 3) && ns.testBit (k - 3)))) := by
  unfold aboveBelow
  have e1 : ((ps &&& 0x88888888) >>> 3).testBit k = (decide (k % 4 = 0) && ps.testBit (k + 3)) := by
    rw [Nat.testBit_shiftRight, Nat.testBit_and, Nat.add_comm 3 k, mask8 _ (by omega), Bool.and_comm]
    congr 1
    exact decide_eq_decide.mpr (by omega)
  cases ca
  · rw [if_neg (by simp), Nat.testBit_or, e1, shl32_testBit, Nat.testBit_and, mask1 _ (by omega)]
    congr 1
    rw [decide_eq_true (show k < 32 by omega), Bool.true_and, Bool.not_false, Bool.true_and]
    by_cases h3 : k % 4 = 3
    · rw [decide_eq_true h3, decide_eq_true (show 3 ≤ k by omega), decide_eq_true (show (k - 3) % 4 = 0 by omega)]
      simp
    · rw [decide_eq_false h3]
      by_cases hk3 : 3 ≤ k
      · rw [decide_eq_false (show ¬ (k - 3) % 4 = 0 by omega)]; simp
      · simp [hk3]
  · rw [if_pos rfl, e1]; simp

theorem spread_bits (cs u : Nat) {k : Nat} (hk : k < 28) : (spreadCol cs u).testBit k =
    (cs.testBit k || (decide (k % 4 ≠ 0) && cs.testBit (k - 1)) || (decide (k % 4 ≠ 3) && cs.testBit (k + 1)) || u.testBit k) := by
  unfold spreadCol
  simp only [Nat.testBit_or, shl32_testBit, Nat.testBit_and, Nat.testBit_shiftRight]
  rw [mask7 _ (by omega), maskE _ (by omega), decide_eq_true (show k < 32 by omega), Bool.true_and, Nat.add_comm 1 k]
  congr 1
  congr 1
  · congr 1
    by_cases h0 : k % 4 = 0
    · by_cases hk1 : 1 ≤ k
      · rw [decide_eq_false (show ¬ (k - 1) % 4 ≠ 3 by omega), decide_eq_false (show ¬ k % 4 ≠ 0 by omega)]; simp
      · simp [h0, hk1]
    · rw [decide_eq_true (show 1 ≤ k by omega), decide_eq_true (show (k - 1) % 4 ≠ 3 by omega), decide_eq_true (show k % 4 ≠ 0 from h0)]
      simp
  · rw [Bool.and_comm]
    congr 1
    exact decide_eq_decide.mpr (by omega)

theorem patOf_bits {w h qy qx : Nat} (hy : qy < quads h) (hx : qx < quads w) (k : Nat) :
    (patOf w (part h qy) (qx * 4)).testBit k = decide (k ∈ kScan (part w qx) (part h qy)) := by
  have h4 := part_le h qy
  have w4 := part_le w qx
  have h1 : 0 < part h qy := by rw [lt_part (by omega)]; rw [lt_quads] at hy; omega
  have w1 : 0 < part w qx := by rw [lt_part (by omega)]; rw [lt_quads] at hx; omega
  have e : patOf w (part h qy) (qx * 4) = (if part h qy < 4 then (if part h qy = 3 then 0x7777 else if part h qy = 2 then 0x3333 else 0x1111)
      else 0xFFFF) >>> ((4 - part w qx) * 4) := by
    unfold patOf
    dsimp only
    by_cases hw : w < qx * 4 + 4
    · rw [if_pos hw]
      congr 2
      unfold part
      rw [if_pos (by omega)]
      rw [lt_quads] at hx
      omega
    · have : part w qx = 4 := by unfold part; rw [if_neg (by omega)]
      rw [if_neg hw, this]; rfl
  rw [e, show decide (k ∈ kScan (part w qx) (part h qy)) = decide (k / 4 < part w qx ∧ k % 4 < part h qy) from
    decide_eq_decide.mpr (mem_kScan h4)]
  generalize part h qy = sh at h4 h1
  generalize part w qx = sw at w4 w1
  have hfin : ∀ sh, 0 < sh → sh < 5 → ∀ sw, 0 < sw → sw < 5 → ∀ k < 16,
      ((if sh < 4 then (if sh = 3 then 0x7777 else if sh = 2 then 0x3333 else 0x1111) else 0xFFFF) >>> ((4 - sw) * 4) : Nat).testBit k =
        decide (k / 4 < sw ∧ k % 4 < sh) := by
    intro sh a1 a2 sw a3 a4
    interval_cases sh <;> interval_cases sw <;> decide +kernel
  by_cases hk : k < 16
  · exact hfin sh h1 (by omega) sw w1 (by omega) k hk
  · rw [decide_eq_false (by omega)]
    apply Nat.testBit_lt_two_pow
    refine lt_of_le_of_lt (Nat.shiftRight_le _ _) (lt_of_lt_of_le (b := 2 ^ 16) ?_ (Nat.pow_le_pow_right (by decide) (by omega)))
    split_ifs <;> decide

/-! ## One step of the scalar build -/

/-- What a step does to a member. -/
def magStep (p : Nat) (b : RBlk) (x : Nat × Nat) (bit : Nat) : RBlk :=
  { b with st := upd2 b.st (x.1 + 1) (x.2 + 1) (b.st (x.1 + 1) (x.2 + 1) ||| (4 ||| bit <<< 3 ||| 16)),
           smp := upd2 b.smp x.1 x.2 (b.smp x.1 x.2 ||| (bit <<< p ||| bit <<< (p - 1))) }

theorem spMagStep_member {D : Nat → Option Nat} {lref p iEnd : Nat} {b : RBlk} {rd : SpDec} {x : Nat × Nat} (hi : x.1 < b.h) (hj : x.2 < b.w)
    (hm : mbrAt b x.1 x.2 iEnd = some 1) :
    spMagStep D lref p iEnd (b, rd) x = (rd.bit D lref).bind fun r => some (magStep p b x r.1, r.2) := by
  have hst := b.inSt_pad hi hj
  have hsm := b.inSmp_of hi hj
  have h1 : ∀ v u, ({ b with st := v, smp := u } : RBlk).inSt (x.1 + 1) (x.2 + 1) := fun _ _ => hst
  have h2 : ∀ v u, ({ b with st := v, smp := u } : RBlk).inSmp x.1 x.2 := fun _ _ => hsm
  unfold spMagStep
  rw [hm]
  simp only [Option.bind_eq_bind, Option.bind_some, ne_eq, one_ne_zero, not_false_eq_true, if_true, RBlk.orSt_of hst]
  cases rd.bit D lref with
  | none => rfl
  | some r =>
    simp only [Option.bind_some, RBlk.orSt_of (h1 _ _), RBlk.modSmp_of (h2 _ _), upd2_self, upd2_upd2, Option.pure_def]
    unfold magStep
    rw [← Nat.or_assoc, ← Nat.or_assoc, ← Nat.or_assoc]
    rfl

theorem spMagStep_other {D : Nat → Option Nat} {lref p iEnd : Nat} {b : RBlk} {rd : SpDec} {x : Nat × Nat} (hi : x.1 < b.h) (hj : x.2 < b.w)
    (hm : mbrAt b x.1 x.2 iEnd = some 0) :
    spMagStep D lref p iEnd (b, rd) x =
      some ({ b with st := upd2 b.st (x.1 + 1) (x.2 + 1) (b.st (x.1 + 1) (x.2 + 1) ||| 16) }, rd) := by
  have hst := b.inSt_pad hi hj
  unfold spMagStep
  rw [hm]
  simp only [Option.bind_eq_bind, Option.bind_some, ne_eq, not_true_eq_false, if_false, RBlk.orSt_of hst, Option.pure_def]
  rfl

theorem SpDec.bit_le {D : Nat → Option Nat} {lref : Nat} {s : SpDec} {r : Nat × SpDec} (h : s.bit D lref = some r) : r.1 = 0 ∨ r.1 = 1 := by
  unfold SpDec.bit at h
  rw [Option.map_eq_some_iff] at h
  obtain ⟨a, -, rfl⟩ := h
  dsimp only
  rw [Nat.and_one_is_mod]
  omega

end Verif.Ht
