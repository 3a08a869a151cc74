import Verif.Simd.WideFused
import Verif.Simd.LiftPlanar
/-
The NEON and AVX-512 kernels from planes and to planes, and rows.
-/
namespace Verif.Simd.Lift.Wide
open Verif.Dwt (Buf pseo fromLeft loopM ceilHalf Step Filter Agree Filled liftLoop liftStep liftAll Ext Lists Sym mirror)
open Verif.Simd

theorem lanes_pos (isa : Isa) : 4 ≤ isa.lanes := by cases isa <;> decide

/-! ### From planes -/

theorem permute2_lo (a b : V 16) (i : Fin 16) : permute2 a idxLo b i = if i.val % 2 = 0 then a ⟨i.val / 2, by omega⟩ else b ⟨i.val / 2, by omega⟩ := by
  fin_cases i <;> rfl
theorem permute2_hi (a b : V 16) (i : Fin 16) : permute2 a idxHi b i = if i.val % 2 = 0 then a ⟨i.val / 2 + 8, by omega⟩ else b ⟨i.val / 2 + 8, by omega⟩ := by
  fin_cases i <;> rfl
theorem permute2_e (a b : V 16) (i : Fin 16) : permute2 a idxE b i = if h : i.val < 8 then a ⟨2 * i.val, by omega⟩ else b ⟨2 * i.val - 16, by omega⟩ := by
  fin_cases i <;> rfl
theorem permute2_o (a b : V 16) (i : Fin 16) : permute2 a idxO b i = if h : i.val < 8 then a ⟨2 * i.val + 1, by omega⟩ else b ⟨2 * i.val - 15, by omega⟩ := by
  fin_cases i <;> rfl

theorem weave16_spec {b : Mem} {s : Int → BitVec 32} {lo hi j : Int} (hF : Filled b lo hi) (h1 : lo ≤ 2 * j) (h2 : 2 * j + 32 ≤ hi + 1)
    {S1 S2 : V 16} (e1 : ∀ i : Fin 16, S1 i = sEven s (j + (i.val : Int))) (e2 : ∀ i : Fin 16, S2 i = sOdd s (j + (i.val : Int))) :
    ∃ b', ((storeL b (2 * j) (permute2 S1 idxLo S2)).bind fun out => storeL out (2 * j + 16) (permute2 S1 idxHi S2)) = some b' ∧ Filled b' lo hi ∧
      Agree b' (Dwt.synthesiseAll wInv 0 s) (2 * j) (2 * j + 31) ∧ ∀ k : Int, ¬ (2 * j ≤ k ∧ k ≤ 2 * j + 31) → b' k = b k := by
  obtain ⟨b1, g1, s1, s2, s3⟩ := storeL_filled hF h1 (by push_cast; omega) (permute2 S1 idxLo S2)
  obtain ⟨b2, g2, t1, t2, t3⟩ := storeL_filled s3 (m := 2 * j + 16) (by omega) (by push_cast; omega) (permute2 S1 idxHi S2)
  refine ⟨b2, by rw [g1, Option.bind_some, g2], t3, fun k k1 k2 => ?_, fun k hk => by rw [t2 k (by push_cast; omega), s2 k (by push_cast; omega)]⟩
  by_cases hk : k < 2 * j + 16
  · rw [t2 k (by push_cast; omega), s1 k (by push_cast; omega), permute2_lo]
    simp only []
    by_cases hp : (k - 2 * j).toNat % 2 = 0
    · rw [if_pos hp, e1, ← synth_even]
      congr 2; push_cast; omega
    · rw [if_neg hp, e2, ← synth_odd]
      congr 2; push_cast; omega
  · rw [t1 k (by push_cast; omega), permute2_hi]
    simp only []
    by_cases hp : (k - (2 * j + 16)).toNat % 2 = 0
    · rw [if_pos hp, e1, ← synth_even]
      congr 2; push_cast; omega
    · rw [if_neg hp, e2, ← synth_odd]
      congr 2; push_cast; omega

theorem weaveStore_spec (isa : Isa) {b : Mem} {s : Int → BitVec 32} {lo hi j : Int} (hF : Filled b lo hi) (h1 : lo ≤ 2 * j) (h2 : 2 * j + 2 * (isa.lanes : Int) ≤ hi + 1)
    {S1 S2 : V isa.lanes} (e1 : ∀ i : Fin isa.lanes, S1 i = sEven s (j + (i.val : Int))) (e2 : ∀ i : Fin isa.lanes, S2 i = sOdd s (j + (i.val : Int))) :
    ∃ b', weaveStore isa b (2 * j) S1 S2 = some b' ∧ Filled b' lo hi ∧ Agree b' (Dwt.synthesiseAll wInv 0 s) (2 * j) (2 * j + 2 * (isa.lanes : Int) - 1) ∧
      ∀ k : Int, ¬ (2 * j ≤ k ∧ k ≤ 2 * j + 2 * (isa.lanes : Int) - 1) → b' k = b k := by
  cases isa with
  | neon =>
    simp only [Isa.lanes] at h2 ⊢
    obtain ⟨b', e, f, a, u⟩ := vst2_spec hF h1 (by push_cast at h2; omega) e1 e2
    exact ⟨b', e, f, a.mono (by omega) (by push_cast; omega), fun k hk => u k (by push_cast at hk; omega)⟩
  | avx512 =>
    simp only [Isa.lanes] at h2 ⊢
    obtain ⟨b', e, f, a, u⟩ := weave16_spec hF h1 (by push_cast at h2; omega) e1 e2
    exact ⟨b', e, f, a.mono (by omega) (by push_cast; omega), fun k hk => u k (by push_cast at hk; omega)⟩

theorem before_spec (isa : Isa) {hp : Mem} {s : Int → BitVec 32} {N j : Int} (hhp : ∀ i, 0 ≤ i → i < N → hp i = some (s (2 * i + 1))) (j0 : 0 ≤ j)
    (jN : j + isa.lanes < N) {Ob : V isa.lanes} (hO : ∀ i : Fin isa.lanes, Ob i = s (2 * (j + (i.val : Int)) + 1)) {c : BitVec 32} (hc : c = s (2 * j - 1)) :
    ∃ Om, before isa hp j c Ob = some Om ∧ ∀ i : Fin isa.lanes, Om i = s (2 * (j + (i.val : Int)) - 1) := by
  have key : ∀ i : Fin isa.lanes, ext (vset c) Ob (isa.lanes - 1) i = s (2 * (j + (i.val : Int)) - 1) := by
    intro i
    rw [ext_up]
    split_ifs with h
    · simp only [vset, hc]; congr 1; omega
    · rw [hO]; congr 1; simp only []; omega
  cases isa with
  | neon => exact ⟨_, rfl, key⟩
  | avx512 =>
    by_cases h0 : j = 0
    · exact ⟨_, if_pos h0, key⟩
    · simp only [Isa.lanes] at jN
      refine ⟨_, (if_neg h0).trans ?_, fun i => rfl⟩
      exact loadL_some (L := 16) (v := fun i => s (2 * (j + (i.val : Int)) - 1)) fun i => by
        rw [hhp _ (by omega) (by push_cast at jN; omega)]; congr 2; omega

theorem lastOdd_spec (isa : Isa) {hp : Mem} {s : Int → BitVec 32} {N j : Int} (hhp : ∀ i, 0 ≤ i → i < N → hp i = some (s (2 * i + 1))) (j0 : 0 ≤ j)
    (jN : j + isa.lanes < N) {Ob : V isa.lanes} (hO : ∀ i : Fin isa.lanes, Ob i = s (2 * (j + (i.val : Int)) + 1)) :
    lastOdd isa hp j Ob = some (s (2 * (j + isa.lanes) - 1)) := by
  cases isa with
  | neon =>
    refine congrArg some ((hO _).trans ?_)
    congr 1; show 2 * (j + ((3 : Nat) : Int)) + 1 = 2 * (j + ((4 : Nat) : Int)) - 1; push_cast; omega
  | avx512 =>
    simp only [Isa.lanes] at jN
    simp only [lastOdd, Isa.lanes]
    push_cast at jN ⊢
    rw [hhp _ (by omega) (by omega)]
    congr 2; omega

theorem planarTurn_spec (isa : Isa) {lp hp : Mem} {s : Int → BitVec 32} {N : Int} (hlp : ∀ i, 0 ≤ i → i < N → lp i = some (s (2 * i)))
    (hhp : ∀ i, 0 ≤ i → i < N → hp i = some (s (2 * i + 1))) {lo hi : Int} (hlo : lo ≤ 0) (hhi : 2 * N ≤ hi) {j : Int} {out : Mem} {c : BitVec 32} (j0 : 0 ≤ j)
    (jN : j + isa.lanes < N) (hc : c = s (2 * j - 1)) (hF : Filled out lo hi) (hA : Agree out (Dwt.synthesiseAll wInv 0 s) 0 (2 * j - 1)) :
    ∃ out', planarTurn isa lp hp j (out, c) = some (out', s (2 * (j + isa.lanes) - 1)) ∧ Filled out' lo hi ∧
      Agree out' (Dwt.synthesiseAll wInv 0 s) 0 (2 * (j + isa.lanes) - 1) ∧ ∀ k : Int, ¬ (0 ≤ k ∧ k ≤ 2 * N) → out' k = out k := by
  have hl := lanes_pos isa
  have lO : loadL isa.lanes hp j = some fun i => s (2 * (j + (i.val : Int)) + 1) := loadL_some fun i => hhp _ (by omega) (by have := i.isLt; omega)
  have lE : loadL isa.lanes lp j = some fun i => s (2 * (j + (i.val : Int))) := loadL_some fun i => hlp _ (by omega) (by have := i.isLt; omega)
  obtain ⟨Om, eM, hM⟩ := before_spec isa hhp j0 jN (Ob := fun i => s (2 * (j + (i.val : Int)) + 1)) (fun _ => rfl) hc
  have eL := lastOdd_spec isa hhp j0 jN (Ob := fun i => s (2 * (j + (i.val : Int)) + 1)) (fun _ => rfl)
  unfold planarTurn
  simp only [lO, lE, eM, eL, hlp (j + isa.lanes) (by omega) (by omega), hhp (j + isa.lanes) (by omega) (by omega), Option.bind_some]
  obtain ⟨q1, q2⟩ := block_lanes (s := s) (j := j) (E := fun i : Fin isa.lanes => s (2 * (j + (i.val : Int)))) (O := fun i => s (2 * (j + (i.val : Int)) + 1)) (Om := Om)
    (nx := s (2 * (j + isa.lanes)) - (s (2 * (j + isa.lanes) - 1) + s (2 * (j + isa.lanes) + 1) + 2#32).sshiftRight 2) (fun _ => rfl) (fun _ => rfl) hM rfl rfl
  obtain ⟨b', e, f, a, u⟩ := weaveStore_spec isa hF (by omega) (by omega) q1 q2
  refine ⟨b', by unfold shiftIn; rw [e]; rfl, f, fun k k1 k2 => ?_, fun k hk => u k (by omega)⟩
  by_cases hk : k < 2 * j
  · rw [u k (by omega), hA k k1 (by omega)]
  · exact a k (by omega) (by omega)

theorem planarTailW_spec (isa : Isa) {E O : Int → Option (BitVec 32)} {s : Int → BitVec 32} (hE : ∀ j, E j = some (s (2 * j))) (hO : ∀ j, O j = some (s (2 * j + 1)))
    {N j : Int} (j0 : 0 ≤ j) (jN : j ≤ N) (hj : N ≤ j + isa.lanes) {lo hi : Int} (hlo : lo ≤ 0) (hhi : 2 * N ≤ hi) {out : Mem} {c : BitVec 32} (hc : c = s (2 * j - 1))
    (hF : Filled out lo hi) (hA : Agree out (Dwt.synthesiseAll wInv 0 s) 0 (2 * j - 1)) :
    ∃ out', planarTailW isa E O N j c out = some out' ∧ Filled out' lo hi ∧ Agree out' (Dwt.synthesiseAll wInv 0 s) 0 (2 * N) ∧
      ∀ k : Int, ¬ (0 ≤ k ∧ k ≤ 2 * N) → out' k = out k := by
  obtain ⟨l, el, hl⟩ := tailS1_spec hE hO (N - j + 1).toNat j
  obtain ⟨o1, e1, f1, a1, c1⟩ := putLoop (n := (N - j + 1).toNat) (body := fun i out => l[i]?.bind fun v => put out (2 * (j + i)) v)
    (d := fun i => 2 * (j + i)) (v := fun i => sEven s (j + i)) (fun i hi b => by simp [hl i hi]) (lo := lo) (hi := hi) (fun i hi => by omega)
    (fun i _ k _ h => by omega) hF
  obtain ⟨o2, e2, f2, a2, c2⟩ := putLoop (n := (N - j).toNat) (body := fun i out => (O (j + i)).bind fun o => l[i]?.bind fun a => l[i + 1]?.bind fun b =>
      put out (2 * (j + i) + 1) (o + (a + b).sshiftRight 1))
    (d := fun i => 2 * (j + i) + 1) (v := fun i => sOdd s (j + i)) (fun i hi b => by
      have h1 := hl i (by omega)
      have h2 := hl (i + 1) (by omega)
      push_cast at h2
      simp only [hO, h1, h2, Option.bind_some, sOdd]
      rw [show j + ((i : Int) + 1) = j + i + 1 by omega]) (lo := lo) (hi := hi) (fun i hi => by omega)
    (fun i _ k _ h => by omega) f1
  refine ⟨o2, ?_, f2, ?_, ?_⟩
  · unfold planarTailW
    cases isa with
    | neon =>
      simp only [Isa.lanes] at hj ⊢
      push_cast at hj
      rw [if_neg (by omega), Option.bind_some, hc, el, Option.bind_some, e1, Option.bind_some, e2]
    | avx512 =>
      simp only [Isa.lanes] at hj ⊢
      push_cast at hj
      rw [if_neg (by omega), hO, Option.bind_some, show 2 * (j - 1) + 1 = 2 * j - 1 by omega, el, Option.bind_some, e1, Option.bind_some, e2]
  · intro k k1 k2
    by_cases hk : k < 2 * j
    · rw [c2 k (fun i hi => by omega), c1 k (fun i hi => by omega), hA k k1 (by omega)]
    · by_cases hp : k % 2 = 0
      · rw [c2 k (fun i hi => by omega)]
        have := a1 (k / 2 - j).toNat (by omega)
        rw [show j + (((k / 2 - j).toNat : Nat) : Int) = k / 2 by omega, show 2 * (k / 2) = k by omega] at this
        rw [this, ← synth_even, show 2 * (k / 2) = k by omega]
      · have := a2 (k / 2 - j).toNat (by omega)
        rw [show j + (((k / 2 - j).toNat : Nat) : Int) = k / 2 by omega, show 2 * (k / 2) + 1 = k by omega] at this
        rw [this, ← synth_odd, show 2 * (k / 2) + 1 = k by omega]
  · intro k hk
    rw [c2 k (fun i hi => by omega), c1 k (fun i hi => by omega)]

/-- The kernel that reads planes gives the synthesis of the interleaved row; nothing but the row and one word after it changes. -/
theorem planarInverseW_spec (isa : Isa) {u0 : Int} (hu : u0 % 2 = 0) {w : Nat} (hw : 2 ≤ w) {lp hp out : Mem} {s : Int → BitVec 32} (hs : Sym w s)
    (hlp : ∀ i : Int, 0 ≤ i → 2 * i < w → lp i = some (s (2 * i))) (hhp : ∀ i : Int, 0 ≤ i → 2 * i + 1 < w → hp i = some (s (2 * i + 1))) {lo hi : Int} (hlo : lo ≤ 0)
    (hhi : w ≤ hi) (hF : Filled out lo hi) :
    ∃ out', planarInverseW isa u0 (u0 + w) lp hp out = some out' ∧ Agree out' (Dwt.synthesiseAll wInv (u0 % 2) s) 0 (w - 1) ∧ Filled out' lo hi ∧
      ∀ k : Int, ¬ (0 ≤ k ∧ k ≤ w) → out' k = out k := by
  have hE : ∀ j : Int, planeAt lp u0 (u0 + w) (u0 + 2 * j) = some (s (2 * j)) := by
    intro j
    unfold planeAt
    rw [Dwt.pseo_eq (by omega), Option.bind_some, show u0 + (w : Int) - u0 = w by ring, show u0 + 2 * j - u0 = 2 * j by ring]
    have h1 := Dwt.mirror_range (w := (w : Int)) (by omega) (2 * j)
    have h2 := mirror_parity w (2 * j)
    rw [hlp _ (by omega) (by omega), show 2 * (mirror w (2 * j) / 2) = mirror w (2 * j) by omega, hs.at_mirror]
  have hO : ∀ j : Int, planeAt hp u0 (u0 + w) (u0 + 2 * j + 1) = some (s (2 * j + 1)) := by
    intro j
    unfold planeAt
    rw [Dwt.pseo_eq (by omega), Option.bind_some, show u0 + (w : Int) - u0 = w by ring, show u0 + 2 * j + 1 - u0 = 2 * j + 1 by ring]
    have h1 := Dwt.mirror_range (w := (w : Int)) (by omega) (2 * j + 1)
    have h2 := mirror_parity w (2 * j + 1)
    rw [hhp _ (by omega) (by omega), show 2 * (mirror w (2 * j + 1) / 2) + 1 = mirror w (2 * j + 1) by omega, hs.at_mirror]
  have hN : (u0 + w) / 2 - u0 / 2 = (w : Int) / 2 := by omega
  have hl := lanes_pos isa
  obtain ⟨j, ⟨o1, c1⟩, e1, ⟨g1, g2, g3, g4, g5, g6⟩, hj⟩ := sweep_run (d := isa.lanes) (e := isa.lanes) (n := (w : Int) / 2) (body := planarTurn isa lp hp) (i := 0)
    (x := (out, s (-1))) (P := fun j (x : Mem × BitVec 32) => 0 ≤ j ∧ j ≤ (w : Int) / 2 ∧ x.2 = s (2 * j - 1) ∧ Filled x.1 lo hi ∧
      Agree x.1 (Dwt.synthesiseAll wInv 0 s) 0 (2 * j - 1) ∧ ∀ k : Int, ¬ (0 ≤ k ∧ k ≤ 2 * ((w : Int) / 2)) → x.1 k = out k) (by omega)
    ⟨le_refl _, by omega, rfl, hF, fun k k1 k2 => by omega, fun _ _ => rfl⟩ (by
      rintro j ⟨b, c⟩ ⟨p1, p2, p3, p4, p5, p6⟩ hc
      obtain ⟨b', e, f, a, u⟩ := planarTurn_spec isa (N := (w : Int) / 2) (fun i h1 h2 => hlp i h1 (by omega)) (fun i h1 h2 => hhp i h1 (by omega)) hlo
        (by omega) p1 hc p3 p4 p5
      exact ⟨_, e, by omega, by omega, rfl, f, a, fun k hk => (u k hk).trans (p6 k hk)⟩)
  simp only at g3 g4 g5 g6
  obtain ⟨o2, e2, f2, a2, c2⟩ := planarTailW_spec isa (E := fun j => planeAt lp u0 (u0 + w) (u0 + 2 * j)) (O := fun j => planeAt hp u0 (u0 + w) (u0 + 2 * j + 1))
    hE hO g1 g2 hj hlo (by omega) g3 g4 g5
  refine ⟨o2, ?_, ?_, f2, fun k hk => ?_⟩
  · unfold planarInverseW
    simp only [hN]
    rw [hO (-1), Option.bind_some, show 2 * (-1 : Int) + 1 = -1 by norm_num, e1, Option.bind_some, e2]
  · rw [hu]
    exact a2.mono (le_refl _) (by omega)
  · rw [c2 k (by omega), g6 k (by omega)]

/-! ### To planes -/

theorem deint16_spec {b : Mem} {m : Int} {s : Int → BitVec 32} (h : Agree b s m (m + 31)) :
    ∃ e o, ((loadL 16 b m).bind fun x => (loadL 16 b (m + 16)).map fun y => (permute2 x idxE y, permute2 x idxO y)) = some (e, o) ∧
      (∀ i : Fin 16, e i = s (m + 2 * (i.val : Int))) ∧ ∀ i : Fin 16, o i = s (m + 2 * (i.val : Int) + 1) := by
  have l1 := loadL_agree (L := 16) (m := m) h (le_refl _) (by push_cast; omega)
  have l2 := loadL_agree (L := 16) (m := m + 16) h (by omega) (by push_cast; omega)
  refine ⟨permute2 (fun i => s (m + (i.val : Int))) idxE fun i => s (m + 16 + (i.val : Int)), permute2 (fun i => s (m + (i.val : Int))) idxO fun i => s (m + 16 + (i.val : Int)),
    by rw [l1, Option.bind_some, l2, Option.map_some], ?_, ?_⟩
  · intro i
    rw [permute2_e]
    split_ifs with hi
    · congr 1
    · congr 1; simp only []; push_cast; omega
  · intro i
    rw [permute2_o]
    split_ifs with hi <;> (congr 1; simp only []; push_cast; omega)

theorem loadDeintW_spec (isa : Isa) {b : Mem} {m : Int} {s : Int → BitVec 32} (h : Agree b s m (m + 2 * (isa.lanes : Int) - 1)) :
    ∃ e o, loadDeintW isa b m = some (e, o) ∧ (∀ i : Fin isa.lanes, e i = s (m + 2 * (i.val : Int))) ∧ ∀ i : Fin isa.lanes, o i = s (m + 2 * (i.val : Int) + 1) := by
  cases isa with
  | neon =>
    simp only [Isa.lanes] at h
    exact ⟨_, _, vld2_agree h (le_refl _) (by push_cast; omega), fun i => rfl, fun i => rfl⟩
  | avx512 =>
    simp only [Isa.lanes] at h
    push_cast at h
    exact deint16_spec (h.mono (le_refl _) (by omega))

theorem topLane_spec (isa : Isa) (a : V isa.lanes) : topLane isa a = a ⟨isa.lanes - 1, by have := lanes_pos isa; omega⟩ := by
  cases isa <;> rfl

theorem planarFwdTurn_spec (isa : Isa) {inp : Mem} {s : Int → BitVec 32} {NH : Int} (hinp : ∀ k : Int, 0 ≤ k → k < 2 * NH → inp k = some (s k)) {lp0 hp0 : Mem} {hiL hiH : Int}
    (hL : NH ≤ hiL + 1) (hH : NH ≤ hiH + 1) {P : Int} {x : FwdState isa.lanes} (h1 : 0 ≤ P) (h2 : P + 2 * isa.lanes ≤ NH)
    (hE : ∀ i : Fin isa.lanes, x.Em i = s (2 * (P + (i.val : Int)))) (hO : ∀ i : Fin isa.lanes, x.Om i = s (2 * (P + (i.val : Int)) + 1))
    (hT : topLane isa x.Tm = dOdd s (P - 1)) (hP : PlanesTo s P x.lp x.hp lp0 hp0 hiL hiH) :
    ∃ y, planarFwdTurn isa inp P x = some y ∧ (∀ i : Fin isa.lanes, y.Em i = s (2 * (P + isa.lanes + (i.val : Int)))) ∧
      (∀ i : Fin isa.lanes, y.Om i = s (2 * (P + isa.lanes + (i.val : Int)) + 1)) ∧ topLane isa y.Tm = dOdd s (P + isa.lanes - 1) ∧
      PlanesTo s (P + isa.lanes) y.lp y.hp lp0 hp0 hiL hiH := by
  have hl := lanes_pos isa
  obtain ⟨e, o, el, he, ho⟩ := loadDeintW_spec isa (b := inp) (m := 2 * (P + isa.lanes)) (s := s) (fun k k1 k2 => hinp k (by omega) (by omega))
  unfold planarFwdTurn
  simp only [el, Option.bind_some]
  rw [topLane_spec] at hT
  generalize hT1 : (vsub x.Om (vsrai (vadd x.Em (shl1W x.Em e)) 1)) = T1
  have eT1 : ∀ i : Fin isa.lanes, T1 i = dOdd s (P + (i.val : Int)) := by
    intro i
    have := i.isLt
    subst hT1
    simp only [vsub, vsrai, vadd, shl1W, ext_down, dOdd, hO, hE, he, show min 1 31 = 1 from rfl]
    split_ifs with hi'
    · rw [show 2 * (P + ((i.val + 1 : Nat) : Int)) = 2 * (P + (i.val : Int)) + 2 by omega]
    · rw [show 2 * (P + (isa.lanes : Int)) + 2 * ((0 : Nat) : Int) = 2 * (P + (i.val : Int)) + 2 by omega]
  generalize hT2 : (vadd x.Em (vsrai (vadd (vadd (shr1W x.Tm T1) T1) (vset 2#32)) 2)) = T2
  have eT2 : ∀ i : Fin isa.lanes, T2 i = dEven s (P + (i.val : Int)) := by
    intro i
    subst hT2
    simp only [vsrai, vadd, vset, shr1W, ext_up, dEven, hE, eT1, hT, show min 2 31 = 2 from rfl]
    split_ifs with hi'
    · rw [show P + (i.val : Int) - 1 = P - 1 by omega]
    · rw [show P + ((i.val - 1 : Nat) : Int) = P + (i.val : Int) - 1 by omega]
  obtain ⟨hp1, e1, s1, s2, f1⟩ := storeL_filled hP.hpF (m := P) h1 (by omega) T1
  obtain ⟨lp1, e2, s3, s4, f2⟩ := storeL_filled hP.lpF (m := P) h1 (by omega) T2
  refine ⟨⟨e, o, T1, lp1, hp1⟩, by rw [e1, Option.bind_some, e2]; rfl, fun i => (he i).trans (by congr 1; omega), fun i => (ho i).trans (by congr 1; omega), ?_, ?_⟩
  · rw [topLane_spec]
    refine (eT1 _).trans ?_
    congr 1; simp only []; omega
  · refine ⟨f2, f1, fun k k1 k2 => ?_, fun k k1 k2 => ?_, fun k hk => ?_, fun k hk => ?_⟩
    · show lp1 k = _
      by_cases hk : k < P
      · rw [s4 k (by omega), hP.lpA k k1 hk]
      · rw [s3 k (by omega), eT2]
        congr 2; simp only []; omega
    · show hp1 k = _
      by_cases hk : k < P
      · rw [s2 k (by omega), hP.hpA k k1 hk]
      · rw [s1 k (by omega), eT1]
        congr 2; simp only []; omega
    · exact (s4 k (by omega)).trans (hP.lpU k hk)
    · exact (s2 k (by omega)).trans (hP.hpU k hk)

theorem planarDrainW_spec (isa : Isa) {E O : Int → Option (BitVec 32)} {s : Int → BitVec 32} (hE : ∀ j, E j = some (s (2 * j))) (hO : ∀ j, O j = some (s (2 * j + 1)))
    {NL NH P : Int} (h0 : 0 ≤ P) (h1 : P ≤ NH) (h2 : NH ≤ NL) (h3 : NL ≤ P + 2 * isa.lanes) {t : BitVec 32} (ht : t = dOdd s (P - 1)) {lp hp lp0 hp0 : Mem} {hiL hiH : Int}
    (hL : NL ≤ hiL + 1) (hH : NH ≤ hiH + 1) (hP : PlanesTo s P lp hp lp0 hp0 hiL hiH) :
    ∃ lp' hp', planarDrainW isa E O NL NH P t lp hp = some (lp', hp') ∧ (∀ k : Int, 0 ≤ k → k < NL → lp' k = some (dEven s k)) ∧
      (∀ k : Int, 0 ≤ k → k < NH → hp' k = some (dOdd s k)) ∧ (∀ k : Int, ¬ (0 ≤ k ∧ k ≤ hiL) → lp' k = lp0 k) ∧ ∀ k : Int, ¬ (0 ≤ k ∧ k ≤ hiH) → hp' k = hp0 k := by
  have hm := mapM_range (f := fun (i : Nat) => (O (P + i)).bind fun o => (E (P + i)).bind fun a => (E (P + i + 1)).map fun b => o - (a + b).sshiftRight 1)
    (v := fun i => dOdd s (P + i)) (NL - P).toNat (fun i _ => by
      simp only [hE, hO, Option.bind_some, Option.map_some, dOdd]
      rw [show 2 * (P + (i : Int) + 1) = 2 * (P + i) + 2 by omega])
  have hg : ∀ i < (NL - P).toNat, ((List.range (NL - P).toNat).map fun (i : Nat) => dOdd s (P + (i : Int)))[i]? = some (dOdd s (P + i)) := by
    intro i hi
    rw [List.getElem?_map, List.getElem?_range hi, Option.map_some]
  generalize ((List.range (NL - P).toNat).map fun (i : Nat) => dOdd s (P + (i : Int))) = l at hm hg
  obtain ⟨hp1, e1, f1, a1, c1⟩ := putLoop (n := (NH - P).toNat) (body := fun i hp => l[i]?.bind fun v => put hp (P + i) v) (d := fun i => P + i)
    (v := fun i => dOdd s (P + i)) (fun i hi b => by simp [hg i (by omega)]) (lo := 0) (hi := hiH) (fun i hi => by omega) (fun i _ k _ h => by omega) hP.hpF
  obtain ⟨lp1, e2, f2, a2, c2⟩ := putLoop (n := (NL - P).toNat)
    (body := fun i lp => (if i = 0 then some t else l[i - 1]?).bind fun t1l => l[i]?.bind fun t => (E (P + i)).bind fun e =>
      put lp (P + i) (e + (t1l + t + 2#32).sshiftRight 2)) (d := fun i => P + i)
    (v := fun i => dEven s (P + i)) (fun i hi b => by
      have q : (if i = 0 then some t else l[i - 1]?) = some (dOdd s (P + i - 1)) := by
        split_ifs with hi0
        · rw [ht, hi0]; simp
        · rw [hg (i - 1) (by omega)]; congr 2; omega
      simp only [q, hg i hi, hE, Option.bind_some, dEven]) (lo := 0) (hi := hiL) (fun i hi => by omega) (fun i _ k _ h => by omega) hP.lpF
  refine ⟨lp1, hp1, ?_, ?_, ?_, ?_, ?_⟩
  · unfold planarDrainW
    simp only []
    rw [if_neg (by omega), hm, Option.bind_some, e1, Option.bind_some, e2, Option.map_some]
  · intro k k1 k2
    by_cases hk : k < P
    · rw [c2 k (fun i hi => by omega), hP.lpA k k1 hk]
    · have := a2 (k - P).toNat (by omega)
      rwa [show P + (((k - P).toNat : Nat) : Int) = k by omega] at this
  · intro k k1 k2
    by_cases hk : k < P
    · rw [c1 k (fun i hi => by omega), hP.hpA k k1 hk]
    · have := a1 (k - P).toNat (by omega)
      rwa [show P + (((k - P).toNat : Nat) : Int) = k by omega] at this
  · intro k hk
    rw [c2 k (fun i hi => by omega), hP.lpU k hk]
  · intro k hk
    rw [c1 k (fun i hi => by omega), hP.hpU k hk]

/-- The kernel that writes planes gives the analysis of the row; nothing but the planes changes. -/
theorem planarForwardW_spec (isa : Isa) {u0 : Int} (hu : u0 % 2 = 0) {w : Nat} (hw : 2 * isa.lanes ≤ w) {inp lp hp : Mem} {s : Int → BitVec 32} (hs : Sym w s)
    (hinp : ∀ k : Int, 0 ≤ k → k < w → inp k = some (s k)) {hiL hiH : Int} (hL : ((w : Int) + 1) / 2 ≤ hiL + 1) (hH : (w : Int) / 2 ≤ hiH + 1) (hlF : Filled lp 0 hiL)
    (hhF : Filled hp 0 hiH) :
    ∃ lp' hp', planarForwardW isa u0 (u0 + w) inp lp hp = some (lp', hp') ∧ (∀ k : Int, 0 ≤ k → 2 * k < w → lp' k = some (Dwt.analyseAll wFwd (u0 % 2) s (2 * k))) ∧
      (∀ k : Int, 0 ≤ k → 2 * k + 1 < w → hp' k = some (Dwt.analyseAll wFwd (u0 % 2) s (2 * k + 1))) ∧ (∀ k : Int, ¬ (0 ≤ k ∧ k ≤ hiL) → lp' k = lp k) ∧
      ∀ k : Int, ¬ (0 ≤ k ∧ k ≤ hiH) → hp' k = hp k := by
  have hl := lanes_pos isa
  have hR : ∀ k : Int, (pseo (u0 + k) u0 (u0 + w)).bind inp = some (s k) := by
    intro k
    rw [Dwt.pseo_eq (by omega), Option.bind_some, show u0 + (w : Int) - u0 = w by ring, show u0 + k - u0 = k by ring]
    have h1 := Dwt.mirror_range (w := (w : Int)) (by omega) k
    rw [hinp _ h1.1 h1.2, hs.at_mirror]
  have hE : ∀ j : Int, (pseo (u0 + 2 * j) u0 (u0 + w)).bind inp = some (s (2 * j)) := fun j => hR _
  have hO : ∀ j : Int, (pseo (u0 + 2 * j + 1) u0 (u0 + w)).bind inp = some (s (2 * j + 1)) := fun j => by rw [add_assoc]; exact hR _
  have hNH : (u0 + w) / 2 - u0 / 2 = (w : Int) / 2 := by omega
  have hNL : ceilHalf (u0 + w) - u0 / 2 = ((w : Int) + 1) / 2 := by unfold ceilHalf; omega
  obtain ⟨e, o, el, he, ho⟩ := loadDeintW_spec isa (b := inp) (m := 0) (s := s) (fun k k1 k2 => hinp k (by omega) (by omega))
  obtain ⟨P, x, e1, ⟨g1, g2, g3, g4, g5, g6⟩, hP⟩ := sweep_run (d := isa.lanes) (e := 2 * isa.lanes - 1) (n := (w : Int) / 2) (body := planarFwdTurn isa inp) (i := 0)
    (x := (⟨e, o, vset (s (2 * (-1) + 1) - (s (2 * (-1)) + s (2 * 0)).sshiftRight 1), lp, hp⟩ : FwdState isa.lanes))
    (P := fun P (x : FwdState isa.lanes) => 0 ≤ P ∧ P + isa.lanes ≤ (w : Int) / 2 ∧ (∀ i : Fin isa.lanes, x.Em i = s (2 * (P + (i.val : Int)))) ∧
      (∀ i : Fin isa.lanes, x.Om i = s (2 * (P + (i.val : Int)) + 1)) ∧ topLane isa x.Tm = dOdd s (P - 1) ∧ PlanesTo s P x.lp x.hp lp hp hiL hiH) (by omega)
    ⟨le_refl _, by omega, fun i => (he i).trans (by congr 1; omega), fun i => (ho i).trans (by congr 1; omega), by rw [topLane_spec]; simp [vset, dOdd],
      ⟨hlF, hhF, fun k k1 k2 => by omega, fun k k1 k2 => by omega, fun _ _ => rfl, fun _ _ => rfl⟩⟩ (by
      rintro P x ⟨p1, p2, p3, p4, p5, p6⟩ hc
      obtain ⟨y, ey, q1, q2, q3, q4⟩ := planarFwdTurn_spec isa (NH := (w : Int) / 2) (fun k k1 k2 => hinp k k1 (by omega)) (by omega) hH p1 (by omega) p3 p4 p5 p6
      exact ⟨y, ey, by omega, by omega, q1, q2, q3, q4⟩)
  obtain ⟨lp2, hp2, e2, a1, a2, u1, u2⟩ := planarDrainW_spec isa (E := fun j => (pseo (u0 + 2 * j) u0 (u0 + w)).bind inp)
    (O := fun j => (pseo (u0 + 2 * j + 1) u0 (u0 + w)).bind inp) hE hO (NL := ((w : Int) + 1) / 2) (NH := (w : Int) / 2) (P := P) (by omega) (by omega)
    (by omega) (by omega) g5 (by omega) (by omega) g6
  refine ⟨lp2, hp2, ?_, ?_, ?_, u1, u2⟩
  · unfold planarForwardW
    simp only [hNH, hNL]
    rw [hO (-1), Option.bind_some, hE (-1), Option.bind_some, hE 0, Option.bind_some, el, Option.bind_some]
    simp only []
    rw [e1, Option.bind_some]
    exact e2
  · intro k k1 k2
    rw [a1 k k1 (by omega), hu, anal_even]
  · intro k k1 k2
    rw [a2 k k1 (by omega), hu, anal_odd]

end Verif.Simd.Lift.Wide
