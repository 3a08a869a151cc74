import Verif.Simd.WidePlanar
import Verif.Simd.LiftWords
/-
Whole rows and vertical steps with the NEON and AVX-512 kernels.
-/
namespace Verif.Simd.Lift.Wide
open Verif.Dwt (Buf pseo fromLeft loopM ceilHalf Step Filter Agree Filled liftLoop liftStep liftAll Ext Lists Sym mirror join split weave)
open Verif.Simd

/-! ### Rows -/

theorem rowFromPlanarW_spec (isa : Isa) {u0 : Int} {lp hp : List (BitVec 32)} (hshape : (lp.length : Int) = ceilHalf (u0 + (lp.length + hp.length)) - ceilHalf u0)
    (hw : 2 ≤ lp.length + hp.length) {slot : Mem} {hi : Int} (hF : Filled slot (-8) hi) (hhi : (lp.length + hp.length : Int) + 18 ≤ hi) {s : Int → BitVec 32}
    (hs : Ext (join u0 lp hp) s) :
    ∃ slot', rowFromPlanarW isa u0 lp hp slot = some slot' ∧ Agree slot' (Dwt.synthesiseAll wInv (u0 % 2) s) 0 ((lp.length + hp.length : Nat) - 1) ∧ Filled slot' (-8) hi ∧
      ∀ k : Int, ¬ (-8 ≤ k ∧ k ≤ (lp.length + hp.length : Nat) + 18) → slot' k = slot k := by
  have hlen := join_length u0 lp hp
  have hsym := hs.sym (by omega)
  rw [hlen] at hsym
  have planar : ∀ {kernel : Int → Int → Mem → Mem → Mem → Option Mem},
      (∀ {u0 : Int} (_ : u0 % 2 = 0) {w : Nat} (_ : 2 ≤ w) {lp hp out : Mem} {s : Int → BitVec 32} (_ : Sym w s) (_ : ∀ i : Int, 0 ≤ i → 2 * i < w → lp i = some (s (2 * i)))
        (_ : ∀ i : Int, 0 ≤ i → 2 * i + 1 < w → hp i = some (s (2 * i + 1))) {lo hi : Int} (_ : lo ≤ 0) (_ : w ≤ hi) (_ : Filled out lo hi),
        ∃ out', kernel u0 (u0 + w) lp hp out = some out' ∧ Agree out' (Dwt.synthesiseAll wInv (u0 % 2) s) 0 (w - 1) ∧ Filled out' lo hi ∧
          ∀ k : Int, ¬ (0 ≤ k ∧ k ≤ w) → out' k = out k) → u0 % 2 = 0 →
      ∃ slot', kernel u0 (u0 + (lp.length + hp.length : Nat)) (Dwt.bufOf lp) (Dwt.bufOf hp) slot = some slot' ∧
        Agree slot' (Dwt.synthesiseAll wInv (u0 % 2) s) 0 ((lp.length + hp.length : Nat) - 1) ∧ Filled slot' (-8) hi ∧
        ∀ k : Int, ¬ (-8 ≤ k ∧ k ≤ (lp.length + hp.length : Nat) + 18) → slot' k = slot k := by
    intro kernel hk hu
    have hj : join u0 lp hp = weave lp hp := if_pos hu
    rw [hj] at hs hlen
    have hl1 : hp.length ≤ lp.length := by unfold ceilHalf at hshape; omega
    have hl2 : lp.length ≤ hp.length + 1 := by unfold ceilHalf at hshape; omega
    have hg := weave_get lp hp hl1 hl2
    obtain ⟨o, e, a, f, c⟩ := hk (u0 := u0) hu hw (lp := Dwt.bufOf lp) (hp := Dwt.bufOf hp) (out := slot) hsym
      (fun i i0 i1 => by
        have h := hs.get (k := 2 * i) (by omega) (by rw [hlen]; omega)
        rw [show (2 * i).toNat = 2 * i.toNat by omega, (hg _).1] at h
        simp only [Dwt.bufOf, if_pos i0]
        exact h)
      (fun i i0 i1 => by
        have h := hs.get (k := 2 * i + 1) (by omega) (by rw [hlen]; omega)
        rw [show (2 * i + 1).toNat = 2 * i.toNat + 1 by omega, (hg _).2] at h
        simp only [Dwt.bufOf, if_pos i0]
        exact h)
      (lo := -8) (hi := hi) (by omega) (by push_cast; omega) hF
    exact ⟨o, e, a, f, fun k hk => c k (by omega)⟩
  have inPlace : ∃ slot', ((blit (join u0 lp hp) slot).bind (rowInverseW isa u0 (lp.length + hp.length))) = some slot' ∧
        Agree slot' (Dwt.synthesiseAll wInv (u0 % 2) s) 0 ((lp.length + hp.length : Nat) - 1) ∧ Filled slot' (-8) hi ∧
        ∀ k : Int, ¬ (-8 ≤ k ∧ k ≤ (lp.length + hp.length : Nat) + 18) → slot' k = slot k := by
    obtain ⟨b0, e0, a0, f0, c0⟩ := blit_spec hs hF (by omega) (by omega)
    rw [hlen] at a0 c0
    obtain ⟨b1, e1, a1, f1, c1⟩ := rowInverseW_spec isa (u0 := u0) hw hsym a0 f0 (by push_cast; omega)
    exact ⟨b1, by rw [e0, Option.bind_some, e1], a1, f1, fun k hk => by rw [c1 k hk, c0 k (by omega)]⟩
  unfold rowFromPlanarW
  simp only
  cases isa with
  | neon =>
    simp only
    split_ifs with hc
    · exact planar (planarInverseW_spec .neon) hc.1
    · exact inPlace
  | avx512 =>
    simp only
    split_ifs with hc hc2
    · exact planar (planarInverseW_spec .avx512) hc.1
    · exact planar planarInverse_spec hc.1
    · exact inPlace

theorem rowToPlanarW_spec (isa : Isa) {u0 : Int} {x : List (BitVec 32)} (hw : 2 ≤ x.length) {tmp lpMem hpMem : Mem} (hF : Filled tmp (-(fwdLeft u0 : Nat)) (x.length + 18))
    (hL : Filled lpMem 0 (ceilHalf (u0 + x.length) - ceilHalf u0 - 1)) (hH : Filled hpMem 0 ((u0 + x.length) / 2 - u0 / 2 - 1)) {s : Int → BitVec 32} (hs : Ext x s) :
    ∃ y, rowToPlanarW isa u0 x tmp lpMem hpMem = some (split u0 y) ∧ Lists y x.length (Dwt.analyseAll wFwd (u0 % 2) s) := by
  have planar : ∀ {r : Option (Mem × Mem)} {l' h' : Mem}, u0 % 2 = 0 → r = some (l', h') →
      (∀ k : Int, 0 ≤ k → 2 * k < x.length → l' k = some (Dwt.analyseAll wFwd (u0 % 2) s (2 * k))) →
      (∀ k : Int, 0 ≤ k → 2 * k + 1 < x.length → h' k = some (Dwt.analyseAll wFwd (u0 % 2) s (2 * k + 1))) →
      ∃ y, (r.bind fun r => (Dwt.readBack 0 (ceilHalf (u0 + x.length) - u0 / 2).toNat r.1).bind fun l =>
        (Dwt.readBack 0 ((u0 + x.length) / 2 - u0 / 2).toNat r.2).map fun h => (l, h)) = some (split u0 y) ∧ Lists y x.length (Dwt.analyseAll wFwd (u0 % 2) s) := by
    intro r l' h' hu hr gl gh
    have hNL : (ceilHalf (u0 + x.length) - u0 / 2).toNat = (x.length + 1) / 2 := by unfold ceilHalf; omega
    have hNH : ((u0 + x.length) / 2 - u0 / 2).toNat = x.length / 2 := by omega
    obtain ⟨yl, el, ll⟩ := readBack_of (X := l') (s := fun k => Dwt.analyseAll wFwd (u0 % 2) s (2 * k)) (w := (x.length + 1) / 2)
      (fun k k0 k1 => gl k k0 (by omega))
    obtain ⟨yh, eh, lh⟩ := readBack_of (X := h') (s := fun k => Dwt.analyseAll wFwd (u0 % 2) s (2 * k + 1)) (w := x.length / 2)
      (fun k k0 k1 => gh k k0 (by omega))
    rw [hr, Option.bind_some, hNL, hNH, el, Option.bind_some, eh, Option.map_some]
    have hg := weave_get yl yh (by rw [ll.1, lh.1]; omega) (by rw [ll.1, lh.1]; omega)
    refine ⟨weave yl yh, ?_, by rw [Dwt.length_weave, ll.1, lh.1]; omega, fun k k0 k1 => ?_⟩
    · congr 1
      unfold split
      rw [if_pos hu]
      refine Prod.ext_iff.2 ⟨List.ext_getElem? fun i => ?_, List.ext_getElem? fun i => ?_⟩
      · rw [Dwt.Gain.everyOther_get, (hg i).1]
      · rw [Dwt.Gain.everyOther_get, List.getElem?_tail, (hg i).2]
    · by_cases hk : k % 2 = 0
      · have := ll.2 (k / 2) (by omega) (by omega)
        rw [show k.toNat = 2 * (k / 2).toNat by omega, (hg _).1, this]
        simp only [show 2 * (k / 2) = k by omega]
      · have := lh.2 (k / 2) (by omega) (by omega)
        rw [show k.toNat = 2 * (k / 2).toNat + 1 by omega, (hg _).2, this]
        simp only [show 2 * (k / 2) + 1 = k by omega]
  have inPlace : ∃ y, ((rowForwardW isa u0 x tmp).bind fun b => (Dwt.readBack 0 x.length b).map (split u0)) = some (split u0 y) ∧
      Lists y x.length (Dwt.analyseAll wFwd (u0 % 2) s) := by
    obtain ⟨b, e, a⟩ := rowForwardW_spec isa (u0 := u0) hw hs hF (le_refl _)
    obtain ⟨y, ey, ly⟩ := readBack_of a
    exact ⟨y, by rw [e, Option.bind_some, ey]; rfl, ly⟩
  have hinp : ∀ k : Int, 0 ≤ k → k < x.length → Dwt.bufOf x k = some (s k) := fun k k0 k1 => by simp only [Dwt.bufOf, if_pos k0]; exact hs.get k0 k1
  have hLL : u0 % 2 = 0 → ((x.length : Int) + 1) / 2 ≤ ceilHalf (u0 + x.length) - ceilHalf u0 - 1 + 1 := fun h => by unfold ceilHalf; omega
  unfold rowToPlanarW
  simp only
  cases isa with
  | neon =>
    simp only
    split_ifs with hc
    · obtain ⟨l', h', e, gl, gh, -, -⟩ := planarForwardW_spec .neon hc.1 (by simp only [Isa.lanes]; omega) (hs.sym hw) hinp (hLL hc.1) (by omega) hL hH
      exact planar hc.1 e gl gh
    · exact inPlace
  | avx512 =>
    simp only
    split_ifs with hc hc2
    · obtain ⟨l', h', e, gl, gh, -, -⟩ := planarForwardW_spec .avx512 hc.1 (by simp only [Isa.lanes]; omega) (hs.sym hw) hinp (hLL hc.1) (by omega) hL hH
      exact planar hc.1 e gl gh
    · obtain ⟨l', h', e, gl, gh, -, -⟩ := planarForward_spec hc.1 (by omega) (hs.sym hw) hinp (hLL hc.1) (by omega) hL hH
      exact planar hc.1 e gl gh
    · exact inPlace

/-! ### Vertical steps -/

/-- The lanes of a step. -/
def Ver.Lanes (s : Ver) : Prop := ∀ {L : Nat} (a b t : V L) (i : Fin L), s.vec a b t i = s.word (a i) (b i) (t i)

/-- Columns before `i` are done, the others are as before. -/
def Done (res : Int → BitVec 32) (tgt0 : Mem) (i : Int) (tgt : Mem) : Prop :=
  0 ≤ i ∧ Agree tgt res 0 (i - 1) ∧ ∀ k : Int, ¬ (0 ≤ k ∧ k < i) → tgt k = tgt0 k

section
variable {v : Ver} {p q t : Int → BitVec 32} {prev next tgt0 : Mem} {hi : Int}

theorem colsL_spec (hv : v.Lanes) (hp : Agree prev p 0 hi) (hq : Agree next q 0 hi) (ht : Agree tgt0 t 0 hi) {L : Nat} {i : Int} {tgt : Mem}
    (hD : Done (fun k => v.word (p k) (q k) (t k)) tgt0 i tgt) (h1 : i + L ≤ hi + 1) :
    ∃ tgt', colsL L v prev next i tgt = some tgt' ∧ Done (fun k => v.word (p k) (q k) (t k)) tgt0 (i + L) tgt' := by
  obtain ⟨i0, hA, hU⟩ := hD
  have a1 : Agree tgt t i hi := fun k k1 k2 => by rw [hU k (by omega), ht k (by omega) k2]
  obtain ⟨b', e, s1, s2, -⟩ := storeL_filled (b := tgt) (m := i) (lo := i) (hi := hi) (fun k k1 k2 => by rw [a1 k k1 k2]; rfl) (le_refl _) h1
    (v.vec (fun l : Fin L => p (i + (l.val : Int))) (fun l => q (i + (l.val : Int))) fun l => t (i + (l.val : Int)))
  refine ⟨b', by simp only [colsL, loadL_agree hp i0 h1, loadL_agree hq i0 h1, loadL_agree a1 (le_refl _) h1, Option.bind_some, e], by omega, fun k k1 k2 => ?_, fun k hk => ?_⟩
  · by_cases hk : k < i
    · rw [s2 k (by omega), hA k k1 (by omega)]
    · rw [s1 k (by omega), hv]
      simp only [show i + (((k - i).toNat : Nat) : Int) = k by omega]
  · rw [s2 k (by omega), hU k (by omega)]

theorem cols44_spec (hv : v.Lanes) (hp : Agree prev p 0 hi) (hq : Agree next q 0 hi) (ht : Agree tgt0 t 0 hi) {i : Int} {tgt : Mem}
    (hD : Done (fun k => v.word (p k) (q k) (t k)) tgt0 i tgt) (h1 : i + 8 ≤ hi + 1) :
    ∃ tgt', cols44 v prev next i tgt = some tgt' ∧ Done (fun k => v.word (p k) (q k) (t k)) tgt0 (i + 8) tgt' := by
  obtain ⟨t1, e1, d1⟩ := colsL_spec hv hp hq ht hD (L := 4) (by push_cast; omega)
  obtain ⟨t2, e2, d2⟩ := colsL_spec hv hp hq ht d1 (L := 4) (by push_cast; omega)
  refine ⟨t2, ?_, by rw [show i + 8 = i + ((4 : Nat) : Int) + ((4 : Nat) : Int) by push_cast; omega]; exact d2⟩
  obtain ⟨i0, hA, hU⟩ := hD
  have a1 : Agree tgt t i hi := fun k k1 k2 => by rw [hU k (by omega), ht k (by omega) k2]
  have a2 : Agree t1 t (i + 4) hi := fun k k1 k2 => by rw [d1.2.2 k (by push_cast; omega), ht k (by omega) k2]
  have l1 := loadL_agree hp i0 (L := 4) (by push_cast; omega)
  have l2 := loadL_agree hq i0 (L := 4) (by push_cast; omega)
  have l3 := loadL_agree a1 (le_refl _) (L := 4) (by push_cast; omega)
  have l4 := loadL_agree hp (m := i + 4) (by omega) (L := 4) (by push_cast; omega)
  have l5 := loadL_agree hq (m := i + 4) (by omega) (L := 4) (by push_cast; omega)
  have l6 := loadL_agree a1 (m := i + 4) (by omega) (L := 4) (by push_cast; omega)
  have l7 := loadL_agree a2 (le_refl _) (L := 4) (by push_cast; omega)
  simp only [colsL, l1, l2, l3, Option.bind_some] at e1
  rw [show i + ((4 : Nat) : Int) = i + 4 by push_cast; rfl] at e2
  simp only [colsL, l4, l5, l7, Option.bind_some] at e2
  simp only [cols44, l1, l2, l3, l4, l5, l6, Option.bind_some]
  rw [e1, Option.bind_some, e2]

theorem col1_spec (hp : Agree prev p 0 hi) (hq : Agree next q 0 hi) (ht : Agree tgt0 t 0 hi) {i : Int} {tgt : Mem}
    (hD : Done (fun k => v.word (p k) (q k) (t k)) tgt0 i tgt) (h1 : i ≤ hi) :
    ∃ tgt', col1 v prev next i tgt = some tgt' ∧ Done (fun k => v.word (p k) (q k) (t k)) tgt0 (i + 1) tgt' := by
  obtain ⟨i0, hA, hU⟩ := hD
  have e : tgt i = some (t i) := by rw [hU i (by omega), ht i i0 h1]
  refine ⟨Function.update tgt i (some (v.word (p i) (q i) (t i))), by
    rw [col1, hp i i0 h1, hq i i0 h1, e, Option.bind_some, Option.bind_some, Option.bind_some, put_filled (by rw [e]; rfl)], by omega, fun k k1 k2 => ?_, fun k hk => ?_⟩
  · by_cases hk : k = i
    · rw [hk, Function.update_self]
    · rw [Function.update_of_ne hk, hA k k1 (by omega)]
  · rw [Function.update_of_ne (by omega), hU k (by omega)]

theorem done_start {res : Int → BitVec 32} : Done res tgt0 0 tgt0 := ⟨le_refl _, fun k k1 k2 => by omega, fun _ _ => rfl⟩

/-- What the single registers and columns do after the pairs. -/
theorem verEnd_spec (hv : v.Lanes) (hp : Agree prev p 0 hi) (hq : Agree next q 0 hi) (ht : Agree tgt0 t 0 hi) {n : Int} (hn : n ≤ hi + 1) {i : Int} {tgt : Mem}
    (hD : Done (fun k => v.word (p k) (q k) (t k)) tgt0 i tgt) :
    ∃ i' tgt', ((sweep 4 3 n (colsL 4 v prev next) i tgt).bind fun r => (sweep 1 0 n (col1 v prev next) r.1 r.2).map fun r => r.2) = some tgt' ∧ n ≤ i' ∧ i' ≤ max i n ∧
      Done (fun k => v.word (p k) (q k) (t k)) tgt0 i' tgt' := by
  obtain ⟨j, t1, e1, ⟨d1, j1⟩, -⟩ := sweep_run (d := 4) (e := 3) (n := n) (body := colsL 4 v prev next) (i := i) (x := tgt)
    (P := fun j x => Done (fun k => v.word (p k) (q k) (t k)) tgt0 j x ∧ j ≤ max i n) (by decide) ⟨hD, le_max_left _ _⟩ (by
      rintro j x ⟨dj, hj⟩ hc
      obtain ⟨x', e, d⟩ := colsL_spec hv hp hq ht dj (L := 4) (by push_cast; omega)
      exact ⟨x', e, d, by push_cast; omega⟩)
  obtain ⟨z, t2, e2, ⟨d2, z1⟩, hz⟩ := sweep_run (d := 1) (e := 0) (n := n) (body := col1 v prev next) (i := j) (x := t1)
    (P := fun j x => Done (fun k => v.word (p k) (q k) (t k)) tgt0 j x ∧ j ≤ max i n) (by decide) ⟨d1, j1⟩ (by
      rintro j x ⟨dj, hj⟩ hc
      obtain ⟨x', e, d⟩ := col1_spec hp hq ht dj (by push_cast at hc; omega)
      exact ⟨x', e, d, by push_cast; omega⟩)
  exact ⟨z, t2, by rw [e1, Option.bind_some, e2, Option.map_some], by push_cast at hz; omega, z1, d2⟩

theorem verInvNeon_spec (hv : v.Lanes) {n : Int} (hn : 0 ≤ n) (hp : Agree prev p 0 (n - 1)) (hq : Agree next q 0 (n - 1)) (ht : Agree tgt0 t 0 (n - 1)) :
    ∃ tgt', verInvNeon v n prev next tgt0 = some tgt' ∧ Done (fun k => v.word (p k) (q k) (t k)) tgt0 n tgt' := by
  obtain ⟨j, t1, e1, ⟨d1, j1⟩, -⟩ := sweep_run (d := 8) (e := 7) (n := n) (body := cols44 v prev next) (i := 0) (x := tgt0)
    (P := fun j x => Done (fun k => v.word (p k) (q k) (t k)) tgt0 j x ∧ j ≤ n) (by decide) ⟨done_start, hn⟩ (by
      rintro j x ⟨dj, hj⟩ hc
      obtain ⟨x', e, d⟩ := cols44_spec hv hp hq ht dj (by push_cast at hc; omega)
      exact ⟨x', e, d, by push_cast at hc ⊢; omega⟩)
  obtain ⟨i', t2, e2, h1, h2, d2⟩ := verEnd_spec hv hp hq ht (n := n) (by omega) d1
  obtain rfl : i' = n := by omega
  exact ⟨t2, by rw [verInvNeon, e1, Option.bind_some, e2], d2⟩

/-- The steps of the analysis reach into the last group of eight columns. -/
theorem verFwdNeon_spec (hv : v.Lanes) {n : Int} (hn : 0 ≤ n) (hp : Agree prev p 0 (8 * ((n + 7) / 8) - 1)) (hq : Agree next q 0 (8 * ((n + 7) / 8) - 1))
    (ht : Agree tgt0 t 0 (8 * ((n + 7) / 8) - 1)) :
    ∃ i' tgt', verFwdNeon v n prev next tgt0 = some tgt' ∧ n ≤ i' ∧ i' ≤ 8 * ((n + 7) / 8) ∧ Done (fun k => v.word (p k) (q k) (t k)) tgt0 i' tgt' := by
  obtain ⟨j, t1, e1, ⟨d1, j1, j2⟩, -⟩ := sweep_run (d := 8) (e := 4) (n := n) (body := cols44 v prev next) (i := 0) (x := tgt0)
    (P := fun j x => Done (fun k => v.word (p k) (q k) (t k)) tgt0 j x ∧ j % 8 = 0 ∧ j ≤ 8 * ((n + 7) / 8)) (by decide) ⟨done_start, by decide, by omega⟩ (by
      rintro j x ⟨dj, hj, hj2⟩ hc
      push_cast at hc ⊢
      obtain ⟨x', e, d⟩ := cols44_spec hv hp hq ht dj (by omega)
      exact ⟨x', e, d, by omega, by omega⟩)
  obtain ⟨i', t2, e2, h1, h2, d2⟩ := verEnd_spec hv hp hq ht (n := n) (by omega) d1
  exact ⟨i', t2, by rw [verFwdNeon, e1, Option.bind_some, e2], h1, by omega, d2⟩

theorem maskLoad_agree {b : Mem} {s : Int → BitVec 32} {lo hi m : Int} {c : Nat} (h : Agree b s lo hi) (h1 : lo ≤ m) (h2 : m + c ≤ hi + 1) :
    maskLoad c b m = some fun i => if i.val < c then s (m + (i.val : Int)) else 0#32 := by
  unfold maskLoad
  rw [if_pos (fun i hi' => by rw [h _ (by omega) (by omega)]; rfl)]
  congr 1
  funext i
  split_ifs with hi'
  · rw [h _ (by omega) (by omega)]; rfl
  · rfl

theorem ver512_spec (hv : v.Lanes) {n : Int} (hn : 0 ≤ n) (hp : Agree prev p 0 (n - 1)) (hq : Agree next q 0 (n - 1)) (ht : Agree tgt0 t 0 (n - 1)) :
    ∃ tgt', ver512 v n prev next tgt0 = some tgt' ∧ Done (fun k => v.word (p k) (q k) (t k)) tgt0 n tgt' := by
  obtain ⟨j, t1, e1, ⟨⟨j0, dA, dU⟩, j1⟩, hj⟩ := sweep_run (d := 16) (e := 15) (n := n) (body := colsL 16 v prev next) (i := 0) (x := tgt0)
    (P := fun j x => Done (fun k => v.word (p k) (q k) (t k)) tgt0 j x ∧ j ≤ n) (by decide) ⟨done_start, hn⟩ (by
      rintro j x ⟨dj, hj⟩ hc
      obtain ⟨x', e, d⟩ := colsL_spec hv hp hq ht dj (L := 16) (by push_cast at hc ⊢; omega)
      exact ⟨x', e, d, by push_cast at hc ⊢; omega⟩)
  push_cast at hj
  rw [ver512, e1, Option.bind_some]
  simp only
  by_cases hlt : j < n
  · rw [if_pos hlt]
    have a1 : Agree t1 t j (n - 1) := fun k k1 k2 => by rw [dU k (by omega), ht k (by omega) k2]
    obtain ⟨c, hc⟩ : ∃ c, c = (n - j).toNat := ⟨_, rfl⟩
    rw [← hc, maskLoad_agree hp j0 (by omega), Option.bind_some, maskLoad_agree hq j0 (by omega), Option.bind_some, maskLoad_agree a1 (le_refl _) (by omega), Option.bind_some]
    unfold maskStore
    rw [if_pos (fun i hi' => by rw [a1 _ (by omega) (by omega)]; rfl)]
    refine ⟨_, rfl, hn, fun k k1 k2 => ?_, fun k hk => ?_⟩ <;> beta_reduce
    · by_cases hk : k < j
      · rw [dif_neg (by omega), dA k k1 (by omega)]
      · rw [dif_pos (by omega), hv]
        simp only [if_pos (show (k - j).toNat < c by omega), show j + (((k - j).toNat : Nat) : Int) = k by omega]
    · rw [dif_neg (by omega), dU k (by omega)]
  · rw [if_neg hlt]
    obtain rfl : j = n := by omega
    exact ⟨t1, rfl, j0, dA, dU⟩

end

theorem vInvHp_lanes : vInvHp.Lanes := fun _ _ _ _ => rfl
theorem vInvLp_lanes : vInvLp.Lanes := fun _ _ _ _ => rfl
theorem vFwdHp_lanes : vFwdHp.Lanes := fun _ _ _ _ => rfl
theorem vFwdLp_lanes : vFwdLp.Lanes := fun _ _ _ _ => rfl

/-- The row that a vertical step leaves. -/
theorem done_rows {v : Ver} {fm : Step Int} (hf : ∀ a b t, (v.word a b t).toInt = fm a.toInt b.toInt t.toInt) {p q t : List (BitVec 32)} (hp : p.length = t.length)
    (hq : q.length = t.length) {tgt0 tgt' : Mem} {i : Int} (hi : t.length ≤ i) {fp fq ft : Int → BitVec 32}
    (ep : ∀ i (h : i < p.length), fp (i : Int) = p[i]) (eq : ∀ i (h : i < q.length), fq (i : Int) = q[i]) (et : ∀ i (h : i < t.length), ft (i : Int) = t[i])
    (hD : Done (fun k => v.word (fp k) (fq k) (ft k)) tgt0 i tgt') :
    ∃ y, Dwt.readBack 0 t.length tgt' = some y ∧ y.map BitVec.toInt = Dwt.rowStep fm (p.map BitVec.toInt) (q.map BitVec.toInt) (t.map BitVec.toInt) := by
  obtain ⟨y, ey, ly⟩ := readBack_of (X := tgt') (w := t.length) (hD.2.1.mono (le_refl _) (by omega))
  refine ⟨y, ey, ?_⟩
  apply List.ext_getElem
  · simp [Dwt.rowStep, ly.1, hp, hq]
  · intro i h1 h2
    have hi : i < t.length := by simpa [ly.1] using h1
    have := ly.2 i (by omega) (by omega)
    simp only [Int.toNat_natCast] at this
    rw [List.getElem?_eq_getElem (show i < y.length by rw [ly.1]; omega), ep i (by omega), eq i (by omega), et i hi, Option.some.injEq] at this
    simp [Dwt.rowStep, this, hf]

end Verif.Simd.Lift.Wide
