import Verif.Simd.Lanes
/-
Lemmas on the dequantisation of one lane.
-/
namespace Verif.Simd
open Verif.Ebcot

/-- What a lane does before the sign is applied: the up-shift. -/
def upL (mb roi : Nat) (m : BitVec 32) : BitVec 32 := if roi ≠ 0 then (if m &&& ~~~ roiMask mb = 0#32 then m <<< roi else m) else m
/-- `N_b`. -/
def nbL (mb roi : Nat) (s : BitVec 8) : BitVec 32 := if roi ≠ 0 then BitVec.ofInt 32 (30 - ((31 : Int) - mb) + 1) else 30#32 - (s.setWidth 32 >>> 3) + 1#32
/-- The count of the shift. -/
def shL (mb : Nat) (nb : BitVec 32) : BitVec 32 :=
  BitVec.ofInt 32 ((31 : Int) - mb - 1) + (if (BitVec.ofNat 32 mb - nb).slt 0#32 then 0#32 else BitVec.ofNat 32 mb - nb)
/-- A reversible lane. -/
def revL (mb roi : Nat) (v : BitVec 32) (s : BitVec 8) : BitVec 32 :=
  let sg := v.sshiftRight 31
  let m := upL mb roi (v &&& 0x7FFFFFFF#32)
  let nb := nbL mb roi s
  let m := if (0#32).slt m && nb.slt (BitVec.ofNat 32 mb) then m ||| 1#32 <<< (shL mb nb).toNat else m
  ((m ^^^ sg) - sg).sshiftRight (31 - mb)
/-- An irreversible lane. -/
def irrL (mb roi : Nat) (scale : Int) (v : BitVec 32) (s : BitVec 8) : BitVec 32 :=
  let sg := v.sshiftRight 31
  let m := upL mb roi (v &&& 0x7FFFFFFF#32)
  let m := if (0#32).slt m then m ||| 1#32 <<< (shL mb (nbL mb roi s)).toNat else m
  let q := ((m + 0x8000#32).sshiftRight 16 * BitVec.ofInt 32 scale + 0x4000#32).sshiftRight 15
  (q ^^^ sg) - sg

theorem laneMask_msb (c : Bool) : (laneMask c).msb = c := by cases c <;> rfl
theorem and_laneMask (a : BitVec 32) (c : Bool) : a &&& laneMask c = if c then a else 0#32 := by
  cases c
  · simp [laneMask]
  · simp only [laneMask, if_true]; exact BitVec.and_allOnes
theorem laneMask_and (c d : Bool) : laneMask c &&& laneMask d = laneMask (c && d) := by cases c <;> cases d <;> rfl
theorem or_ite (c : Bool) (a b : BitVec 32) : (a ||| if c then b else 0#32) = if c then a ||| b else a := by cases c <;> simp
theorem beq_ite {α} (a b : BitVec 32) (x y : α) : (if (a == b) = true then x else y) = if a = b then x else y := by
  by_cases h : a = b <;> simp [h]

theorem plsb_min (mb : Nat) : min ((31 : Int) - mb).toNat 31 = 31 - mb := by omega

theorem min16 : min 16 31 = 16 := rfl
theorem min15 : min 15 31 = 15 := rfl

/-- Both cases of the up-shift: the conditions on `roi` away, the lanes out of the registers. -/
macro "lanes_simp" h:ident : tactic => `(tactic|
  (simp only [revL, irrL, upL, nbL, shL, $h:ident, vsrai, vand, vset, vblend, veq, vgt, vadd, vsub, vmul, vmax, vsllv, vslli, vor, vxor, vsrli, vcvtU8, keq, kgt, kand, kor, kslli,
      laneMask_msb, laneMask_and, plsb_min, ne_eq, not_true_eq_false, not_false_eq_true, if_true, if_false, beq_iff_eq, Nat.min_self, min16, min15]
   try simp only [and_laneMask, or_ite]
   try rfl))

theorem revAvx2_lane (mb roi : Nat) (val : V 8) (st : Fin 8 → BitVec 8) (i : Fin 8) : revAvx2 mb roi val st i = revL mb roi (val i) (st i) := by
  unfold revAvx2
  by_cases h : roi = 0 <;> lanes_simp h

theorem revAvx512_lane (mb roi : Nat) (val : V 16) (st : Fin 16 → BitVec 8) (i : Fin 16) : revAvx512 mb roi val st i = revL mb roi (val i) (st i) := by
  unfold revAvx512
  by_cases h : roi = 0 <;> lanes_simp h

theorem irrAvx2_lane (mb roi : Nat) (scale : Int) (val : V 8) (st : Fin 8 → BitVec 8) (i : Fin 8) :
    irrAvx2 mb roi scale val st i = irrL mb roi scale (val i) (st i) := by
  unfold irrAvx2
  by_cases h : roi = 0 <;> lanes_simp h

theorem irrAvx512_lane (mb roi : Nat) (scale : Int) (val : V 16) (st : Fin 16 → BitVec 8) (i : Fin 16) :
    irrAvx512 mb roi scale val st i = irrL mb roi scale (val i) (st i) := by
  unfold irrAvx512
  by_cases h : roi = 0 <;> lanes_simp h

/-! ### Counts -/

theorem st_lane (st : Nat) : ((BitVec.ofNat 8 st).setWidth 32 >>> 3) = BitVec.ofNat 32 (st % 256 / 8) := by
  apply BitVec.eq_of_toNat_eq
  simp [Nat.shiftRight_eq_div_pow]
  omega

theorem nb0_fin : ∀ (mb : Fin 31) (s : Fin 32), ((30#32 - BitVec.ofNat 32 s.val + 1#32).slt (BitVec.ofNat 32 mb.val) = decide (31 < mb.val + s.val)) ∧
    (shL mb.val (30#32 - BitVec.ofNat 32 s.val + 1#32)).toNat = max (s.val - 1) (30 - mb.val) ∧
    ((shL mb.val (30#32 - BitVec.ofNat 32 s.val + 1#32)).setWidth 8).toInt = (max (s.val - 1) (30 - mb.val) : Nat) := by decide +kernel

theorem nb1_fin : ∀ (mb : Fin 31), ((BitVec.ofInt 32 (30 - ((31 : Int) - mb.val) + 1)).slt (BitVec.ofNat 32 mb.val) = false) ∧
    (shL mb.val (BitVec.ofInt 32 (30 - ((31 : Int) - mb.val) + 1))).toNat = 30 - mb.val ∧
    ((shL mb.val (BitVec.ofInt 32 (30 - ((31 : Int) - mb.val) + 1))).setWidth 8).toInt = (30 - mb.val : Nat) := by decide +kernel

/-- `31 - N_b` or what is taken for it. -/
def zbL (mb roi st : Nat) : Nat := if roi ≠ 0 then 31 - mb else st % 256 / 8

theorem nbL_facts (mb roi st : Nat) (hm : mb < 31) :
    (nbL mb roi (BitVec.ofNat 8 st)).slt (BitVec.ofNat 32 mb) = decide (31 < mb + zbL mb roi st) ∧
    (shL mb (nbL mb roi (BitVec.ofNat 8 st))).toNat = max (zbL mb roi st - 1) (30 - mb) ∧
    ((shL mb (nbL mb roi (BitVec.ofNat 8 st))).setWidth 8).toInt = (max (zbL mb roi st - 1) (30 - mb) : Nat) := by
  unfold nbL zbL
  by_cases h : roi = 0
  · simp only [h, ne_eq, not_true_eq_false, if_false, st_lane]
    exact nb0_fin ⟨mb, hm⟩ ⟨st % 256 / 8, by omega⟩
  · simp only [h, ne_eq, not_false_eq_true, if_true]
    obtain ⟨a, b, c⟩ := nb1_fin ⟨mb, hm⟩
    simp only at a b c
    refine ⟨?_, ?_, ?_⟩
    · rw [a]; simp; omega
    · rw [b]; omega
    · rw [c]; congr 1; omega

theorem neg_plsb : ∀ mb : Fin 31, ((BitVec.ofInt 32 (-((31 : Int) - mb.val))).setWidth 8).toInt = -((31 : Int) - mb.val) := by decide +kernel

theorem vshlN_one (mb roi st : Nat) (hm : mb < 31) :
    shlN 1#32 (shL mb (nbL mb roi (BitVec.ofNat 8 st))) = 1#32 <<< (shL mb (nbL mb roi (BitVec.ofNat 8 st))).toNat := by
  obtain ⟨-, b, c⟩ := nbL_facts mb roi st hm
  unfold shlN
  rw [b, c, if_pos (by omega), Int.toNat_natCast]

theorem shlN_neg (mb : Nat) (hm : mb < 31) (v : BitVec 32) : shlN v (BitVec.ofInt 32 (-((31 : Int) - mb))) = v.sshiftRight (31 - mb) := by
  unfold shlN
  rw [neg_plsb ⟨mb, hm⟩, if_neg (by simp only; omega)]
  congr 1
  simp only
  omega

theorem revNeon_lane (mb roi : Nat) (hm : mb < 31) (val : V 4) (st : Fin 4 → Nat) (i : Fin 4) :
    revNeon mb roi val (fun i => BitVec.ofNat 8 (st i)) i = revL mb roi (val i) (BitVec.ofNat 8 (st i)) := by
  have h1 := vshlN_one mb roi (st i) hm
  by_cases h : roi = 0
  · simp only [nbL, shL, h, ne_eq, not_true_eq_false, if_false] at h1
    simp only [revNeon, revL, upL, nbL, shL, h, vsrai, vand, vset, vgt, vadd, vsub, vmax, vshlN, vor, vxor, laneMask_and, ne_eq, not_true_eq_false, if_false, shlN_neg mb hm]
    erw [h1]
    simp only [and_laneMask, or_ite, Nat.min_self]
  · simp only [nbL, shL, h, ne_eq, not_false_eq_true, if_true] at h1
    simp only [revNeon, revL, upL, nbL, shL, h, vsrai, vand, vset, vgt, vadd, vsub, vmax, vshlN, vor, vxor, laneMask_and, ne_eq, not_false_eq_true, if_true, shlN_neg mb hm]
    erw [h1]
    simp only [and_laneMask, or_ite, Nat.min_self]
    rfl

theorem irrNeon_lane (mb roi : Nat) (hm : mb < 31) (scale : Int) (val : V 4) (st : Fin 4 → Nat) (i : Fin 4) :
    irrNeon mb roi scale val (fun i => BitVec.ofNat 8 (st i)) i = irrL mb roi scale (val i) (BitVec.ofNat 8 (st i)) := by
  have h1 := vshlN_one mb roi (st i) hm
  by_cases h : roi = 0
  · simp only [nbL, shL, h, ne_eq, not_true_eq_false, if_false] at h1
    simp only [irrNeon, irrL, upL, nbL, shL, h, vsrai, vand, vset, vgt, vadd, vsub, vmul, vmax, vshlN, vor, vxor, and_laneMask, or_ite, ne_eq, not_true_eq_false, if_false]
    erw [h1]
    simp only [Nat.min_self, min16, min15]
  · simp only [nbL, shL, h, ne_eq, not_false_eq_true, if_true] at h1
    simp only [irrNeon, irrL, upL, nbL, shL, h, vsrai, vand, vset, vgt, vadd, vsub, vmul, vmax, vshlN, vor, vxor, and_laneMask, or_ite, ne_eq, not_false_eq_true, if_true]
    erw [h1]
    simp only [Nat.min_self, min16, min15]
    rfl

/-! ### Numbers -/

theorem mag_toNat (val : Nat) : (BitVec.ofNat 32 val &&& 0x7FFFFFFF#32).toNat = val % 2 ^ 31 := by
  rw [BitVec.toNat_and, show (0x7FFFFFFF#32).toNat = 2 ^ 31 - 1 from rfl, Nat.and_two_pow_sub_one_eq_mod]
  simp only [BitVec.toNat_ofNat]
  omega

theorem roiMask_fin : ∀ mb : Fin 31, (roiMask mb.val).toNat = 2 ^ (31 - mb.val) - 1 := by decide +kernel

theorem and_not_zero (m k : BitVec 32) : m &&& ~~~ k = 0#32 ↔ m &&& k = m := by
  constructor
  · intro h
    apply BitVec.eq_of_getLsbD_eq
    intro i hi
    have := congrArg (fun x => x.getLsbD i) h
    simp only [BitVec.getLsbD_and, BitVec.getLsbD_not, BitVec.getLsbD_zero, hi, decide_true, Bool.true_and] at this ⊢
    revert this; cases m.getLsbD i <;> cases k.getLsbD i <;> simp
  · intro h
    apply BitVec.eq_of_getLsbD_eq
    intro i hi
    have := congrArg (fun x => x.getLsbD i) h
    simp only [BitVec.getLsbD_and, BitVec.getLsbD_not, BitVec.getLsbD_zero, hi, decide_true, Bool.true_and] at this ⊢
    revert this; cases m.getLsbD i <;> cases k.getLsbD i <;> simp

theorem roi_cond (mb : Nat) (hm : mb < 31) (m : BitVec 32) : m &&& ~~~ roiMask mb = 0#32 ↔ m.toNat / 2 ^ (31 - mb) = 0 := by
  rw [and_not_zero, ← BitVec.toNat_inj, BitVec.toNat_and, roiMask_fin ⟨mb, hm⟩, Nat.and_two_pow_sub_one_eq_mod]
  have hp : 0 < 2 ^ (31 - mb) := Nat.pow_pos (by decide)
  simp only
  generalize 2 ^ (31 - mb) = p at hp
  rw [Nat.div_eq_zero_iff]
  constructor
  · intro h; right; rw [← h]; exact Nat.mod_lt _ hp
  · rintro (h | h)
    · omega
    · exact Nat.mod_eq_of_lt h

theorem upL_ok {mb roi n u : Nat} (hm : mb < 31) (hn : n < 2 ^ 31) (m : BitVec 32) (e : m.toNat = n) (h : roiUp mb roi n = .ok u) :
    (upL mb roi m).toNat = u ∧ u < 2 ^ 31 := by
  unfold roiUp at h
  unfold upL
  by_cases hr : roi = 0
  · simp only [hr, ne_eq, not_true_eq_false, false_and, if_false, Except.ok.injEq] at h ⊢
    exact ⟨by omega, by omega⟩
  · simp only [hr, ne_eq, not_false_eq_true, true_and, if_true] at h ⊢
    by_cases hc : n / 2 ^ (31 - mb) = 0
    · rw [if_pos ((roi_cond mb hm m).2 (by rw [e]; exact hc))]
      rw [if_pos hc] at h
      split at h
      · rename_i g
        simp only [Except.ok.injEq] at h
        subst h
        refine ⟨?_, g.1⟩
        rw [BitVec.toNat_shiftLeft, e, Nat.shiftLeft_eq, Nat.mod_eq_of_lt (by omega)]
      · cases h
    · rw [if_neg (fun g => hc (by rw [← e]; exact (roi_cond mb hm m).1 g))]
      rw [if_neg hc] at h
      simp only [Except.ok.injEq] at h
      exact ⟨by omega, by omega⟩

theorem slt_zero (m : BitVec 32) (h : m.toNat < 2 ^ 31) : (0#32).slt m = decide (m.toNat ≠ 0) := by
  rw [BitVec.slt_eq_decide, BitVec.toInt_eq_toNat_of_lt (x := m) (by omega)]
  simp only [BitVec.toInt_zero]
  congr 1
  simp only [eq_iff_iff]
  omega

theorem or_pow (m : BitVec 32) (k : Nat) (hk : k < 31) (h : m.toNat < 2 ^ 31) :
    (m ||| 1#32 <<< k).toNat = m.toNat ||| 2 ^ k ∧ m.toNat ||| 2 ^ k < 2 ^ 31 := by
  have hp : 2 ^ k < 2 ^ 31 := Nat.pow_lt_pow_right (by decide) hk
  refine ⟨?_, Nat.or_lt_two_pow h hp⟩
  rw [BitVec.toNat_or, BitVec.toNat_shiftLeft, Nat.shiftLeft_eq]
  simp only [BitVec.toNat_ofNat]
  rw [show (1 % 2 ^ 32) * 2 ^ k = 2 ^ k by simp, Nat.mod_eq_of_lt (by omega)]

theorem sign_lane (v : BitVec 32) : v.sshiftRight 31 = if v.msb then BitVec.allOnes 32 else 0#32 := by
  cases h : v.msb
  · rw [BitVec.sshiftRight_eq_of_msb_false h]
    apply BitVec.eq_of_toNat_eq
    rw [BitVec.toNat_ushiftRight, Nat.shiftRight_eq_div_pow]
    have := BitVec.msb_eq_decide v
    rw [h] at this
    simp at this
    simp
    omega
  · rw [BitVec.sshiftRight_eq_of_msb_true h]
    apply BitVec.eq_of_toNat_eq
    have := BitVec.msb_eq_decide v
    rw [h] at this
    simp at this
    simp [Nat.shiftRight_eq_div_pow]
    omega

theorem msb_ofNat (val : Nat) : (BitVec.ofNat 32 val).msb = decide (val / 2 ^ 31 % 2 = 1) := by
  rw [BitVec.msb_eq_decide]
  congr 1
  simp only [BitVec.toNat_ofNat, eq_iff_iff]
  omega

/-- The sign is applied. -/
theorem apply_sign (val : Nat) (q : BitVec 32) (hq : -2 ^ 31 < q.toInt) :
    ((q ^^^ (BitVec.ofNat 32 val).sshiftRight 31) - (BitVec.ofNat 32 val).sshiftRight 31).toInt = if val / 2 ^ 31 % 2 = 1 then -q.toInt else q.toInt := by
  rw [sign_lane, msb_ofNat]
  by_cases h : val / 2 ^ 31 % 2 = 1
  · simp only [h, decide_true, if_true]
    have e : (q ^^^ BitVec.allOnes 32) - BitVec.allOnes 32 = -q := by
      rw [BitVec.xor_allOnes, BitVec.neg_eq_not_add, BitVec.sub_eq_add_neg]
      congr 1
    rw [e, BitVec.toInt_neg_of_ne_intMin]
    intro g
    rw [g] at hq
    revert hq
    decide
  · simp only [h, decide_false, if_false]
    simp

theorem revL_ok {mb roi val st : Nat} {q : Int} (h : dequantRev mb roi val st = .ok q) :
    (revL mb roi (BitVec.ofNat 32 val) (BitVec.ofNat 8 st)).toInt = q := by
  unfold dequantRev at h
  split at h
  · cases h
  rename_i hm
  replace hm : mb < 31 := by omega
  cases hu : roiUp mb roi (val % 2 ^ 31) with
  | error e => rw [hu] at h; cases h
  | ok u =>
    rw [hu] at h
    simp only [Except.bind] at h
    obtain ⟨e1, l1⟩ := upL_ok hm (Nat.mod_lt _ (by decide)) _ (mag_toNat val) hu
    cases hw : midBit mb roi st u with
    | error e => rw [hw] at h; cases h
    | ok w =>
      rw [hw] at h
      simp only [Except.ok.injEq] at h
      obtain ⟨f1, f2, -⟩ := nbL_facts mb roi st hm
      unfold revL
      simp only [f1, f2]
      generalize upL mb roi (BitVec.ofNat 32 val &&& 0x7FFFFFFF#32) = m at e1
      have key : (if ((0#32).slt m && decide (31 < mb + zbL mb roi st)) = true then m ||| 1#32 <<< max (zbL mb roi st - 1) (30 - mb) else m).toNat = w ∧ w < 2 ^ 31 := by
        rw [slt_zero m (by omega), e1]
        unfold midBit at hw
        by_cases hu0 : u = 0
        · subst hu0
          simp only [ne_eq, not_true_eq_false, false_and, if_false, Except.ok.injEq] at hw
          simp only [ne_eq, not_true_eq_false, decide_false, Bool.false_and, Bool.false_eq_true, if_false]
          omega
        · by_cases hr : roi = 0
          · simp only [hr, hu0, ne_eq, not_true_eq_false, not_false_eq_true, true_and, if_false] at hw
            simp only [zbL, hr, hu0, ne_eq, not_true_eq_false, not_false_eq_true, decide_true, Bool.true_and, if_false, decide_eq_true_eq]
            by_cases hc : (30 : Int) - (st / 8 : Nat) + 1 < mb
            · rw [if_pos hc] at hw
              split at hw
              · rename_i g
                simp only [Except.ok.injEq] at hw
                have g2 := g.2
                have g1 := g.1
                have hs : st % 256 = st := by omega
                have ex : ((31 : Int) - mb - 1 + mb - (30 - (st / 8 : Nat) + 1)).toNat = max (st / 8 - 1) (30 - mb) := by omega
                rw [ex] at hw
                rw [hs, if_pos (by omega)]
                have := or_pow m (max (st / 8 - 1) (30 - mb)) (by omega) (by omega)
                rw [e1, hw] at this
                exact this
              · cases hw
            · rw [if_neg hc] at hw
              simp only [Except.ok.injEq] at hw
              rw [if_neg (by omega)]
              omega
          · have hc : ¬ ((30 : Int) - (31 - mb) + 1 < mb) := by omega
            simp only [hr, hu0, ne_eq, not_false_eq_true, true_and, if_true, if_neg hc, Except.ok.injEq] at hw
            have hz : ¬ (31 < mb + (31 - mb)) := by omega
            simp only [zbL, hr, ne_eq, not_false_eq_true, if_true, hz, decide_false, Bool.and_false, Bool.false_eq_true, if_false]
            omega
      generalize (if ((0#32).slt m && decide (31 < mb + zbL mb roi st)) = true then m ||| 1#32 <<< max (zbL mb roi st - 1) (30 - mb) else m) = m' at key
      obtain ⟨k1, k2⟩ := key
      have ti : m'.toInt = (w : Int) := by rw [BitVec.toInt_eq_toNat_of_lt (by omega), k1]
      rw [BitVec.toInt_sshiftRight, apply_sign val m' (by rw [ti]; omega), ti, Int.shiftRight_eq_div_pow, ← h]
      norm_cast

theorem toInt_of_range {z : Int} (h1 : -2 ^ 31 ≤ z) (h2 : z < 2 ^ 31) : z.bmod (2 ^ 32) = z := by
  rw [Int.bmod_def]
  have : (((2 ^ 32 : Nat) : Int) + 1) / 2 = 2147483648 := by decide
  rw [this]
  push_cast
  split <;> omega

theorem int32_ok {z r : Int} (h : int32 z = .ok r) : r = z ∧ -2 ^ 31 ≤ z ∧ z < 2 ^ 31 := by
  unfold int32 at h
  split at h
  · rename_i g; simp only [Except.ok.injEq] at h; exact ⟨h.symm, g.1, g.2⟩
  · cases h

theorem sshift_toInt (x : BitVec 32) (n : Nat) : (x.sshiftRight n).toInt = x.toInt / 2 ^ n := by
  rw [BitVec.toInt_sshiftRight, Int.shiftRight_eq_div_pow]
  norm_cast

theorem c15 : (0x8000#32).toInt = 2 ^ 15 := by decide
theorem c14 : (0x4000#32).toInt = 2 ^ 14 := by decide

theorem mul_lane {scale q : Int} {w : Nat} (m : BitVec 32) (ti : m.toInt = (w : Int)) (hs1 : -2 ^ 31 ≤ scale) (hs2 : scale < 2 ^ 31) (hq : mulIrr scale w = .ok q) :
    (((m + 0x8000#32).sshiftRight 16 * BitVec.ofInt 32 scale + 0x4000#32).sshiftRight 15).toInt = q ∧
    (∃ p : Int, p = ((w : Int) + 2 ^ 15) / 2 ^ 16 * scale ∧ -2 ^ 31 ≤ p ∧ p < 2 ^ 31 ∧ q = (p + 2 ^ 14) / 2 ^ 15) ∧ -2 ^ 31 < q := by
  unfold mulIrr at hq
  cases h1 : int32 ((w : Int) + 2 ^ 15) with
  | error e => rw [h1] at hq; cases hq
  | ok a =>
    rw [h1] at hq
    simp only [Except.bind] at hq
    cases h2 : int32 (a / 2 ^ 16 * scale) with
    | error e => rw [h2] at hq; cases hq
    | ok p =>
      rw [h2] at hq
      simp only at hq
      cases h3 : int32 (p + 2 ^ 14) with
      | error e => rw [h3] at hq; cases hq
      | ok s =>
        rw [h3] at hq
        simp only [Except.ok.injEq] at hq
        obtain ⟨a0, a1, a2⟩ := int32_ok h1
        obtain ⟨b0, b1, b2⟩ := int32_ok h2
        obtain ⟨c0, c1, c2⟩ := int32_ok h3
        have t1 : (m + 0x8000#32).toInt = a := by rw [BitVec.toInt_add, ti, c15, toInt_of_range a1 a2, a0]
        have t2 : ((m + 0x8000#32).sshiftRight 16).toInt = a / 2 ^ 16 := by rw [sshift_toInt, t1]
        have t3 : ((m + 0x8000#32).sshiftRight 16 * BitVec.ofInt 32 scale).toInt = p := by
          rw [BitVec.toInt_mul, t2, BitVec.toInt_ofInt, toInt_of_range hs1 hs2, toInt_of_range b1 b2, b0]
        have t4 : ((m + 0x8000#32).sshiftRight 16 * BitVec.ofInt 32 scale + 0x4000#32).toInt = s := by
          rw [BitVec.toInt_add, t3, c14, toInt_of_range c1 c2, c0]
        refine ⟨by rw [sshift_toInt, t4, hq], ⟨p, by rw [b0, a0], by rw [b0]; exact b1, by rw [b0]; exact b2, by rw [← hq, c0]⟩, ?_⟩
        rw [← hq]
        omega

theorem midIrr_lane {mb roi st u w : Nat} (m : BitVec 32) (hm : mb < 31) (e1 : m.toNat = u) (l1 : u < 2 ^ 31) (hw : midIrr mb roi st u = .ok w) :
    (if (0#32).slt m = true then m ||| 1#32 <<< (shL mb (nbL mb roi (BitVec.ofNat 8 st))).toNat else m).toNat = w ∧ w < 2 ^ 31 := by
  obtain ⟨f1, f2, -⟩ := nbL_facts mb roi st hm
  rw [f2]
  rw [slt_zero m (by omega), e1]
  unfold midIrr at hw
  simp only at hw
  have ex : ∀ sh : Int, 0 ≤ sh ∧ sh < 31 → sh.toNat = max (zbL mb roi st - 1) (30 - mb) →
      (if u ≠ 0 then u ||| 2 ^ sh.toNat else u) = w → ((if (decide (u ≠ 0)) = true then m ||| 1#32 <<< max (zbL mb roi st - 1) (30 - mb) else m).toNat = w ∧ w < 2 ^ 31) := by
    intro sh hsh he hw
    rw [he] at hw
    by_cases hu0 : u = 0
    · simp only [hu0, ne_eq, not_true_eq_false, if_false] at hw
      simp only [hu0, ne_eq, not_true_eq_false, decide_false, Bool.false_eq_true, if_false]
      omega
    · simp only [hu0, ne_eq, not_false_eq_true, if_true] at hw
      simp only [hu0, ne_eq, not_false_eq_true, decide_true, if_true]
      have := or_pow m (max (zbL mb roi st - 1) (30 - mb)) (by omega) (by omega)
      rw [e1, hw] at this
      exact this
  by_cases hr : roi = 0
  · simp only [hr, ne_eq, not_true_eq_false, if_false] at hw
    generalize hS : (31 : Int) - mb - 1 + (if (30 : Int) - (st / 8 : Nat) + 1 < mb then mb - ((30 : Int) - (st / 8 : Nat) + 1) else 0) = S at hw
    by_cases g : 0 ≤ S ∧ S < 31
    · rw [if_pos g, Except.ok.injEq] at hw
      refine ex _ g ?_ hw
      have hz : zbL mb roi st = st % 256 / 8 := by simp [zbL, hr]
      rw [hz]
      by_cases hc : (30 : Int) - (st / 8 : Nat) + 1 < mb
      · rw [if_pos hc] at hS; omega
      · rw [if_neg hc] at hS; omega
    · rw [if_neg g] at hw; cases hw
  · have hc : ¬ ((30 : Int) - (31 - mb) + 1 < mb) := by omega
    simp only [hr, ne_eq, not_false_eq_true, if_true, if_neg hc] at hw
    generalize hS : (31 : Int) - mb - 1 + 0 = S at hw
    by_cases g : 0 ≤ S ∧ S < 31
    · rw [if_pos g, Except.ok.injEq] at hw
      refine ex _ g ?_ hw
      have hz : zbL mb roi st = 31 - mb := by simp [zbL, hr]
      rw [hz]; omega
    · rw [if_neg g] at hw; cases hw

theorem irrL_def (mb roi : Nat) (scale : Int) (v : BitVec 32) (s : BitVec 8) : irrL mb roi scale v s =
    (((((if (0#32).slt (upL mb roi (v &&& 0x7FFFFFFF#32)) then upL mb roi (v &&& 0x7FFFFFFF#32) ||| 1#32 <<< (shL mb (nbL mb roi s)).toNat else upL mb roi (v &&& 0x7FFFFFFF#32)) +
        0x8000#32).sshiftRight 16 * BitVec.ofInt 32 scale + 0x4000#32).sshiftRight 15) ^^^ v.sshiftRight 31) - v.sshiftRight 31 := rfl

theorem bind_ok {ε α β : Type} {x : Except ε α} {f : α → Except ε β} {b : β} (h : x.bind f = .ok b) : ∃ a, x = .ok a ∧ f a = .ok b := by
  cases x with
  | error e => cases h
  | ok a => exact ⟨a, rfl, h⟩

theorem mapError_ok {ε ε' α : Type} {x : Except ε α} {f : ε → ε'} {b : α} (h : x.mapError f = .ok b) : x = .ok b := by
  cases x with
  | error e => cases h
  | ok a => simpa [Except.mapError] using h

theorem irrL_ok {mb roi val st : Nat} {scale q : Int} (hs1 : -2 ^ 31 ≤ scale) (hs2 : scale < 2 ^ 31) (h : dequantIrr mb roi scale val st = .ok q) :
    (irrL mb roi scale (BitVec.ofNat 32 val) (BitVec.ofNat 8 st)).toInt = q := by
  unfold dequantIrr at h
  split at h
  · cases h
  rename_i hm
  replace hm : mb < 31 := by omega
  obtain ⟨u, hu, h⟩ := bind_ok h
  replace hu := mapError_ok hu
  obtain ⟨w, hw, h⟩ := bind_ok h
  obtain ⟨q', hq, h⟩ := bind_ok h
  rw [Except.ok.injEq] at h
  obtain ⟨e1, l1⟩ := upL_ok hm (Nat.mod_lt _ (by decide)) _ (mag_toNat val) hu
  obtain ⟨k1, k2⟩ := midIrr_lane _ hm e1 l1 hw
  rw [irrL_def]
  generalize (if (0#32).slt (upL mb roi (BitVec.ofNat 32 val &&& 2147483647#32)) = true then upL mb roi (BitVec.ofNat 32 val &&& 2147483647#32) ||| 1#32 <<< (shL mb (nbL mb roi (BitVec.ofNat 8 st))).toNat
    else upL mb roi (BitVec.ofNat 32 val &&& 2147483647#32)) = m' at k1 ⊢
  obtain ⟨t5, -, b1⟩ := mul_lane m' (by rw [BitVec.toInt_eq_toNat_of_lt (by omega), k1]) hs1 hs2 hq
  generalize (((m' + 0x8000#32).sshiftRight 16 * BitVec.ofInt 32 scale + 0x4000#32).sshiftRight 15) = r at t5 ⊢
  rw [apply_sign val r (by rw [t5]; exact b1), t5, h]

end Verif.Simd
