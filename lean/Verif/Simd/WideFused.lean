import Verif.Simd.WideLemmas
/-
The fused NEON kernel of the synthesis in place, and rows filtered in place.
-/
namespace Verif.Simd.Lift.Wide
open Verif.Dwt (Buf pseo fromLeft loopM ceilHalf Step Filter Agree Filled liftLoop liftStep liftAll Ext Lists Sym mirror)
open Verif.Simd

/-! ### Lanes -/

theorem ext_down {L : Nat} (a b : V L) (i : Fin L) : ext a b 1 i = if h : i.val + 1 < L then a ⟨i.val + 1, h⟩ else b ⟨0, i.pos⟩ := by
  have := i.isLt
  unfold ext
  split_ifs with h
  · rfl
  · congr 1
    apply Fin.ext
    show (i.val + 1 - L) % L = 0
    rw [show i.val + 1 - L = 0 by omega, Nat.zero_mod]

theorem ext_up {L : Nat} (p a : V L) (i : Fin L) : ext p a (L - 1) i = if h : i.val = 0 then p ⟨L - 1, by have := i.isLt; omega⟩ else a ⟨i.val - 1, by omega⟩ := by
  have := i.isLt
  unfold ext
  by_cases h : i.val = 0
  · rw [dif_pos (show i.val + (L - 1) < L by omega), dif_pos h]
    congr 1
    apply Fin.ext
    show i.val + (L - 1) = L - 1
    omega
  · rw [dif_neg (show ¬ i.val + (L - 1) < L by omega), dif_neg h]
    congr 1
    apply Fin.ext
    show (i.val + (L - 1) - L) % L = i.val - 1
    rw [Nat.mod_eq_of_lt (by omega)]
    omega

/-- The lanes of `S1` and `S2` of a block of `L` pairs at `j`, from the lanes of the planes. -/
theorem block_lanes {L : Nat} {s : Int → BitVec 32} {j : Int} {E O Om S1n : V L} {nx : BitVec 32} (hE : ∀ i : Fin L, E i = s (2 * (j + (i.val : Int))))
    (hO : ∀ i : Fin L, O i = s (2 * (j + (i.val : Int)) + 1)) (hOm : ∀ i : Fin L, Om i = s (2 * (j + (i.val : Int)) - 1)) (hn : nx = sEven s (j + L))
    (hS : S1n = ext (vsub E (vsrai (vadd (vadd Om O) (vset 2#32)) 2)) (vset nx) 1) :
    (∀ i : Fin L, vsub E (vsrai (vadd (vadd Om O) (vset 2#32)) 2) i = sEven s (j + (i.val : Int))) ∧
      ∀ i : Fin L, vadd O (vsrai (vadd (vsub E (vsrai (vadd (vadd Om O) (vset 2#32)) 2)) S1n) 1) i = sOdd s (j + (i.val : Int)) := by
  have h1 : ∀ i : Fin L, vsub E (vsrai (vadd (vadd Om O) (vset 2#32)) 2) i = sEven s (j + (i.val : Int)) := by
    intro i
    simp only [vsub, vsrai, vadd, vset, hE, hO, hOm, sEven]
    rfl
  refine ⟨h1, fun i => ?_⟩
  generalize vsub E (vsrai (vadd (vadd Om O) (vset 2#32)) 2) = S1 at h1 hS
  subst hS
  have := i.isLt
  simp only [vadd, vsrai, ext_down, sOdd, h1, hO, vset, show min 1 31 = 1 from rfl]
  split_ifs with h
  · rw [show j + ((i.val + 1 : Nat) : Int) = j + (i.val : Int) + 1 by omega]
  · rw [hn, show j + (i.val : Int) + 1 = j + L by omega]

theorem vld2_agree {b : Mem} {s : Int → BitVec 32} {lo hi m : Int} (h : Agree b s lo hi) (h1 : lo ≤ m) (h2 : m + 7 ≤ hi) :
    vld2 b m = some (fun i => s (m + 2 * (i.val : Int)), fun i => s (m + 2 * (i.val : Int) + 1)) := by
  rw [vld2, loadL_agree h h1 (by push_cast; omega), Option.map_some]
  refine congrArg some (Prod.ext_iff.2 ⟨funext fun i => ?_, funext fun i => ?_⟩)
  · show s _ = s _; congr 1
  · show s _ = s _; congr 1; push_cast; omega

/-- An interleaved store. -/
theorem vst2_spec {b : Mem} {s : Int → BitVec 32} {lo hi j : Int} (hF : Filled b lo hi) (h1 : lo ≤ 2 * j) (h2 : 2 * j + 7 ≤ hi) {S1 S2 : V 4}
    (e1 : ∀ i : Fin 4, S1 i = sEven s (j + (i.val : Int))) (e2 : ∀ i : Fin 4, S2 i = sOdd s (j + (i.val : Int))) :
    ∃ b', vst2 b (2 * j) (S1, S2) = some b' ∧ Filled b' lo hi ∧ Agree b' (Dwt.synthesiseAll wInv 0 s) (2 * j) (2 * j + 7) ∧
      ∀ k : Int, ¬ (2 * j ≤ k ∧ k ≤ 2 * j + 7) → b' k = b k := by
  obtain ⟨b', e, s1, s2, s3⟩ := storeL_filled hF h1 (by push_cast; omega) (zip2 (S1, S2))
  refine ⟨b', e, s3, fun k k1 k2 => ?_, fun k hk => s2 k (by push_cast; omega)⟩
  rw [s1 k (by push_cast; omega)]
  simp only [zip2]
  by_cases hp : (k - 2 * j).toNat % 2 = 0
  · rw [if_pos hp, e1, ← synth_even]
    congr 2; push_cast; omega
  · rw [if_neg hp, e2, ← synth_odd]
    congr 2; push_cast; omega

/-! ### The fused kernel -/

theorem fusedTurn_spec {N : Int} {s : Int → BitVec 32} {B : Mem} {lo hi : Int} (hlo : lo ≤ -1) (hhi : 2 * N + 1 ≤ hi) {j : Int} {b : Mem} {c : BitVec 32}
    (j0 : 0 ≤ j) (jN : j + 4 ≤ N) (hc : c = s (2 * j - 1)) (hA : Agree b (Dwt.synthesiseAll wInv 0 s) 0 (2 * j - 1)) (hR : Agree b s (2 * j) (2 * N + 1))
    (hF : Filled b lo hi) (hU : ∀ k : Int, ¬ (0 ≤ k ∧ k ≤ 2 * N) → b k = B k) :
    ∃ b' c', fusedTurn j (b, c) = some (b', c') ∧ c' = s (2 * (j + 4) - 1) ∧ Agree b' (Dwt.synthesiseAll wInv 0 s) 0 (2 * (j + 4) - 1) ∧
      Agree b' s (2 * (j + 4)) (2 * N + 1) ∧ Filled b' lo hi ∧ ∀ k : Int, ¬ (0 ≤ k ∧ k ≤ 2 * N) → b' k = B k := by
  have l := vld2_agree hR (le_refl _) (by omega)
  unfold fusedTurn
  simp only [l, Option.bind_some, hR (2 * (j + 4)) (by omega) (by omega), hR (2 * (j + 4) + 1) (by omega) (by omega)]
  obtain ⟨q1, q2⟩ := block_lanes (L := 4) (s := s) (j := j) (E := fun i => s (2 * j + 2 * (i.val : Int))) (O := fun i => s (2 * j + 2 * (i.val : Int) + 1))
    (Om := ext (vset c) (fun i : Fin 4 => s (2 * j + 2 * (i.val : Int) + 1)) 3)
    (nx := s (2 * (j + 4)) - (s (2 * j + 2 * (((3 : Fin 4).val : Nat) : Int) + 1) + s (2 * (j + 4) + 1) + 2#32).sshiftRight 2)
    (fun i => by show s _ = s _; congr 1; omega) (fun i => by show s _ = s _; congr 1; omega)
    (fun i => by
      rw [show (3 : Nat) = 4 - 1 from rfl, ext_up]
      split_ifs with h
      · simp only [vset, hc]; congr 1; omega
      · show s _ = s _; congr 1; show 2 * j + 2 * ((i.val - 1 : Nat) : Int) + 1 = _; omega)
    (by unfold sEven; rw [show 2 * j + 2 * (((3 : Fin 4).val : Nat) : Int) + 1 = 2 * (j + (4 : Nat)) - 1 by simp; omega]; rfl) rfl
  obtain ⟨b', e, f, a, u⟩ := vst2_spec hF (by omega) (by omega) q1 q2
  refine ⟨b', _, by rw [e]; rfl, by show s _ = s _; congr 1; simp; omega, ?_, ?_, f, fun k hk => by rw [u k (by omega), hU k hk]⟩
  · intro k k1 k2
    by_cases hk : 2 * j ≤ k
    · exact a k hk (by omega)
    · rw [u k (by omega), hA k k1 (by omega)]
  · intro k k1 k2
    rw [u k (by omega), hR k (by omega) k2]

theorem fused_spec {N : Int} (hN : 0 ≤ N) {s : Int → BitVec 32} {B : Mem} {lo hi : Int} (hlo : lo ≤ -1) (hhi : 2 * N + 1 ≤ hi) (hB : Agree B s (-1) (2 * N + 1))
    (hF : Filled B lo hi) :
    ∃ b', fused N B = some b' ∧ Filled b' lo hi ∧ Agree b' (Dwt.synthesiseAll wInv 0 s) 0 (2 * N) ∧ ∀ k : Int, ¬ (0 ≤ k ∧ k ≤ 2 * N) → b' k = B k := by
  unfold fused
  rw [hB (-1) (le_refl _) (by omega), Option.bind_some]
  obtain ⟨j, ⟨b1, c1⟩, e1, ⟨j0, jN, hc, hA, hR, f1, u1⟩, hj⟩ := sweep_run (d := 4) (e := 3) (n := N) (body := fusedTurn) (i := 0) (x := (B, s (-1)))
    (P := fun j (x : Mem × BitVec 32) => 0 ≤ j ∧ j ≤ N ∧ x.2 = s (2 * j - 1) ∧ Agree x.1 (Dwt.synthesiseAll wInv 0 s) 0 (2 * j - 1) ∧ Agree x.1 s (2 * j) (2 * N + 1) ∧
      Filled x.1 lo hi ∧ ∀ k : Int, ¬ (0 ≤ k ∧ k ≤ 2 * N) → x.1 k = B k) (by decide)
    ⟨le_refl _, hN, rfl, fun k k1 k2 => by omega, fun k k1 k2 => hB k (by omega) k2, hF, fun _ _ => rfl⟩ (by
      rintro j ⟨b, c⟩ ⟨p1, p2, p3, p4, p5, p6, p7⟩ hc
      obtain ⟨b', c', e, q⟩ := fusedTurn_spec hlo hhi p1 (by omega) p3 p4 p5 p6 p7
      exact ⟨(b', c'), e, by omega, by push_cast; omega, q⟩)
  rw [e1, Option.bind_some]
  simp only at hc hA hR f1 u1
  obtain ⟨t, ⟨b2, c2⟩, e2, ⟨t0, tN, -, tA, tE, tR, f2, u2⟩, ht⟩ := sweep_run (d := 1) (e := 0) (n := N + 1) (body := fusedTailLp) (i := j) (x := (b1, c1))
    (P := fun t (x : Mem × BitVec 32) => j ≤ t ∧ t ≤ N + 1 ∧ x.2 = s (2 * t - 1) ∧ Agree x.1 (Dwt.synthesiseAll wInv 0 s) 0 (2 * j - 1) ∧
      (∀ i : Int, j ≤ i → i < t → x.1 (2 * i) = some (sEven s i)) ∧ (∀ k : Int, 2 * j ≤ k → k ≤ 2 * N + 1 → (2 * t ≤ k ∨ k % 2 = 1) → x.1 k = some (s k)) ∧
      Filled x.1 lo hi ∧ ∀ k : Int, ¬ (0 ≤ k ∧ k ≤ 2 * N) → x.1 k = B k) (by decide)
    ⟨le_refl _, by omega, hc, hA, fun i h1 h2 => by omega, fun k h1 h2 _ => hR k h1 h2, f1, u1⟩ (by
      rintro t ⟨b, c⟩ ⟨p1, p2, p3, p4, p5, p6, p7, p8⟩ hc
      simp only at p3 p4 p5 p6 p7 p8
      refine ⟨(Function.update b (2 * t) (some (sEven s t)), s (2 * t + 1)), ?_, by omega, by push_cast; omega, by show s _ = s _; congr 1; push_cast; omega, ?_, ?_, ?_, ?_, ?_⟩
      · unfold fusedTailLp
        simp only [p6 (2 * t + 1) (by omega) (by omega) (by omega), p6 (2 * t) (by omega) (by omega) (by omega), Option.bind_some]
        rw [put_filled (p7 _ (by omega) (by omega)), Option.map_some, p3]
        rfl
      · intro k k1 k2
        rw [show (Function.update b (2 * t) (some (sEven s t)), s (2 * t + 1)).1 k = b k from Function.update_of_ne (by omega) _ _]
        exact p4 k k1 k2
      · intro i i1 i2
        push_cast at i2
        by_cases h : i = t
        · subst h; exact Function.update_self ..
        · exact (Function.update_of_ne (by omega) _ _).trans (p5 i i1 (by omega))
      · intro k k1 k2 k3
        push_cast at k3
        exact (Function.update_of_ne (by omega) _ _).trans (p6 k k1 k2 (by omega))
      · intro k k1 k2
        show (Function.update b (2 * t) (some (sEven s t)) k).isSome
        by_cases h : k = 2 * t
        · rw [h, Function.update_self]; rfl
        · rw [Function.update_of_ne h]; exact p7 k k1 k2
      · intro k hk
        exact (Function.update_of_ne (by omega) _ _).trans (p8 k hk))
  rw [e2, Option.bind_some]
  simp only at tA tE tR f2 u2
  obtain ⟨z, b3, e3, ⟨z0, zN, zA, zE, zO, zR, f3, u3⟩, hz⟩ := sweep_run (d := 1) (e := 0) (n := N) (body := fusedTailHp) (i := j) (x := b2)
    (P := fun z (b : Mem) => j ≤ z ∧ z ≤ N ∧ Agree b (Dwt.synthesiseAll wInv 0 s) 0 (2 * j - 1) ∧ (∀ i : Int, j ≤ i → i ≤ N → b (2 * i) = some (sEven s i)) ∧
      (∀ i : Int, j ≤ i → i < z → b (2 * i + 1) = some (sOdd s i)) ∧ (∀ i : Int, z ≤ i → i < N → b (2 * i + 1) = some (s (2 * i + 1))) ∧
      Filled b lo hi ∧ ∀ k : Int, ¬ (0 ≤ k ∧ k ≤ 2 * N) → b k = B k) (by decide)
    ⟨le_refl _, by omega, tA, fun i h1 h2 => tE i h1 (by omega), fun i h1 h2 => by omega, fun i h1 h2 => tR _ (by omega) (by omega) (by omega), f2, u2⟩ (by
      rintro z b ⟨p1, p2, p3, p4, p5, p6, p7, p8⟩ hc
      refine ⟨Function.update b (2 * z + 1) (some (sOdd s z)), ?_, by omega, by push_cast; omega, ?_, ?_, ?_, ?_, ?_, ?_⟩
      · unfold fusedTailHp
        rw [p4 z (by omega) (by omega), Option.bind_some, show 2 * z + 2 = 2 * (z + 1) by ring, p4 (z + 1) (by omega) (by omega), Option.bind_some,
          p6 z (le_refl _) (by omega), Option.bind_some, put_filled (p7 _ (by omega) (by omega))]
        rfl
      · intro k k1 k2
        exact (Function.update_of_ne (by omega) _ _).trans (p3 k k1 k2)
      · intro i i1 i2
        exact (Function.update_of_ne (by omega) _ _).trans (p4 i i1 i2)
      · intro i i1 i2
        push_cast at i2
        by_cases h : i = z
        · subst h; exact Function.update_self ..
        · exact (Function.update_of_ne (by omega) _ _).trans (p5 i i1 (by omega))
      · intro i i1 i2
        push_cast at i1
        exact (Function.update_of_ne (by omega) _ _).trans (p6 i (by omega) i2)
      · intro k k1 k2
        by_cases h : k = 2 * z + 1
        · rw [h, Function.update_self]; rfl
        · rw [Function.update_of_ne h]; exact p7 k k1 k2
      · intro k hk
        exact (Function.update_of_ne (by omega) _ _).trans (p8 k hk))
  refine ⟨b3, by rw [e3]; rfl, f3, fun k k1 k2 => ?_, u3⟩
  by_cases hk : k < 2 * j
  · exact zA k k1 (by omega)
  · by_cases hp : k % 2 = 0
    · have := zE (k / 2) (by omega) (by omega)
      rw [← synth_even, show 2 * (k / 2) = k by omega] at this
      exact this
    · have := zO (k / 2) (by omega) (by omega)
      rw [← synth_odd, show 2 * (k / 2) + 1 = k by omega] at this
      exact this

theorem inverseW_spec (isa : Isa) {i0 : Int} {w : Nat} (hw : 2 ≤ w) {X : Mem} {s : Int → BitVec 32} {L : Int} (hL : L = (invLeft i0 : Nat)) {p : Int}
    (hp : p = (L + i0) % 2) (hX : Agree X s 0 (L + w - 1 + (invRight (i0 + w) : Nat))) {hi : Int} (hF : Filled X 0 hi) (hhi : L + w + 18 ≤ hi) :
    ∃ X', inverseW isa L i0 (i0 + w) X = some X' ∧ Filled X' 0 hi ∧ Agree X' (Dwt.synthesiseAll wInv p s) L (L + w - 1) ∧
      ∀ k, ¬ (0 ≤ k ∧ k ≤ L + w + 18) → X' k = X k := by
  cases isa with
  | avx512 => exact inverseSteps hw hL hp hX hF hhi
  | neon =>
    simp only [inverseW]
    simp only [invLeft, invRight] at hL hX
    obtain ⟨o, ho⟩ : ∃ o, o = L - i0 % 2 := ⟨_, rfl⟩
    rw [← ho]
    have o1 : o = 1 := by split_ifs at hL <;> omega
    have p1 : p = 1 := by split_ifs at hL <;> omega
    have hB : Agree (fromLeft (-o) X) (Dwt.shift (-o) s) (-1) (2 * ((i0 + w) / 2 - i0 / 2) + 1) :=
      (Dwt.fromLeft_agree hX (-o)).mono (by omega) (by split_ifs at hL ⊢ <;> omega)
    obtain ⟨b', e, f, a, u⟩ := fused_spec (N := (i0 + w) / 2 - i0 / 2) (by omega) (s := Dwt.shift (-o) s) (B := fromLeft (-o) X) (lo := -1) (hi := hi - 1) (le_refl _)
      (by split_ifs at hL <;> omega) hB (fun k k1 k2 => hF _ (by omega) (by omega))
    rw [Dwt.synthesiseAll_shift s (q := p) (by omega) (by omega)] at a
    refine ⟨_, by rw [e]; rfl, ?_, ?_, ?_⟩
    · intro k k1 k2
      exact f _ (by omega) (by omega)
    · intro k k1 k2
      show b' (k - o) = _
      rw [a _ (by split_ifs at hL <;> omega) (by split_ifs at hL <;> omega)]
      simp [Dwt.shift]
    · intro k hk
      show b' (k - o) = _
      rw [u _ (by split_ifs at hL <;> omega)]
      simp [fromLeft]

/-! ### Extension with NEON -/

theorem rev4_lane (a : V 4) (i : Fin 4) : rev4 a i = a ⟨3 - i.val, by omega⟩ := by
  fin_cases i <;> rfl

theorem fillWide4_spec {b : Mem} {s : Int → BitVec 32} {w : Nat} (hw : 9 ≤ w) (hs : Sym w s) (hb : Agree b s 0 (w - 1)) {hi : Int} (hF : Filled b (-8) hi)
    (hhi : w + 7 ≤ hi) :
    ∃ b', fillWide4 w b = some b' ∧ Agree b' s (-8) (w + 7) ∧ Filled b' (-8) hi ∧ ∀ k : Int, ¬ (-8 ≤ k ∧ k ≤ w + 7) → b' k = b k := by
  have l1 := loadL_agree (L := 4) (m := 1) hb (by omega) (by push_cast; omega)
  have l2 := loadL_agree (L := 4) (m := 5) hb (by omega) (by push_cast; omega)
  obtain ⟨b1, e1, s1, u1, f1⟩ := storeL_filled hF (m := -4) (by omega) (by push_cast; omega) (rev4 fun i => s (1 + (i.val : Int)))
  obtain ⟨b2, e2, s2, u2, f2⟩ := storeL_filled f1 (m := -8) (by omega) (by push_cast; omega) (rev4 fun i => s (5 + (i.val : Int)))
  have a2 : Agree b2 s 0 (w - 1) := fun k k1 k2 => by rw [u2 k (by push_cast; omega), u1 k (by push_cast; omega), hb k k1 k2]
  have l3 := loadL_agree (L := 4) (m := (w : Int) - 9) a2 (by omega) (by push_cast; omega)
  have l4 := loadL_agree (L := 4) (m := (w : Int) - 5) a2 (by omega) (by push_cast; omega)
  obtain ⟨b3, e3, s3, u3, f3⟩ := storeL_filled f2 (m := w) (by omega) (by push_cast; omega) (rev4 fun i => s (w - 5 + (i.val : Int)))
  obtain ⟨b4, e4, s4, u4, f4⟩ := storeL_filled f3 (m := w + 4) (by omega) (by push_cast; omega) (rev4 fun i => s (w - 9 + (i.val : Int)))
  refine ⟨b4, by simp only [fillWide4, l1, l2, e1, e2, l3, l4, e3, e4, Option.bind_some], ?_, f4, fun k hk => by
    rw [u4 k (by push_cast; omega), u3 k (by push_cast; omega), u2 k (by push_cast; omega), u1 k (by push_cast; omega)]⟩
  intro k k1 k2
  by_cases h1 : k < -4
  · rw [u4 k (by push_cast; omega), u3 k (by push_cast; omega), s2 k (by push_cast; omega), rev4_lane, ← hs.1 k]
    congr 2; simp; omega
  by_cases h2 : k < 0
  · rw [u4 k (by push_cast; omega), u3 k (by push_cast; omega), u2 k (by push_cast; omega), s1 k (by push_cast; omega), rev4_lane, ← hs.1 k]
    congr 2; simp; omega
  by_cases h3 : k < w
  · rw [u4 k (by push_cast; omega), u3 k (by push_cast; omega), a2 k (by omega) (by omega)]
  by_cases h4 : k < w + 4
  · rw [u4 k (by push_cast; omega), s3 k (by push_cast; omega), rev4_lane, ← hs.2 k]
    congr 2; simp; omega
  · rw [s4 k (by push_cast; omega), rev4_lane, ← hs.2 k]
    congr 2; simp; omega

/-! ### Rows in place -/

theorem rowInverseW_spec (isa : Isa) {u0 : Int} {w : Nat} (hw : 2 ≤ w) {b : Mem} {s : Int → BitVec 32} (hs : Sym w s) (hb : Agree b s 0 (w - 1)) {hi : Int}
    (hF : Filled b (-8) hi) (hhi : w + 18 ≤ hi) :
    ∃ b', rowInverseW isa u0 w b = some b' ∧ Agree b' (Dwt.synthesiseAll wInv (u0 % 2) s) 0 (w - 1) ∧ Filled b' (-8) hi ∧
      ∀ k : Int, ¬ (-8 ≤ k ∧ k ≤ w + 18) → b' k = b k := by
  have hl := invLeft_le u0
  have hr := invRight_le (u0 + w)
  obtain ⟨b1, e1, a1, f1, c1⟩ : ∃ b1, (if 9 ≤ w then (match isa with | .neon => fillWide4 w b | .avx512 => fillWide w b)
        else fillNarrow (invLeft u0) (invRight (u0 + w)) u0 w b) = some b1 ∧
      Agree b1 s (-(invLeft u0 : Nat)) (w - 1 + (invRight (u0 + w) : Nat)) ∧ Filled b1 (-8) hi ∧ ∀ k : Int, ¬ (-8 ≤ k ∧ k ≤ w + 18) → b1 k = b k := by
    by_cases h9 : 9 ≤ w
    · rw [if_pos h9]
      cases isa with
      | neon =>
        obtain ⟨b1, e, a, f, c⟩ := fillWide4_spec h9 hs hb hF (by omega)
        exact ⟨b1, e, a.mono (by omega) (by omega), f, fun k hk => c k (by omega)⟩
      | avx512 =>
        obtain ⟨b1, e, a, f, c⟩ := fillWide_spec h9 hs hb hF (by omega)
        exact ⟨b1, e, a.mono (by omega) (by omega), f, fun k hk => c k (by omega)⟩
    · rw [if_neg h9]
      obtain ⟨b1, e, a, f, c⟩ := fillNarrow_spec hw hs hb hF (left := invLeft u0) (right := invRight (u0 + w)) (by omega) (by omega) u0
      exact ⟨b1, e, a, f, fun k hk => c k (by omega)⟩
  have e2 : rowInverseW isa u0 w b = (inverseW isa (invLeft u0 : Nat) u0 (u0 + w) (fromLeft (invLeft u0 : Nat) b1)).map (fromLeft (-(invLeft u0 : Nat))) := by
    unfold rowInverseW
    cases isa <;> simp only at e1 ⊢ <;> rw [e1, Option.bind_some]
  rw [e2]
  clear e1 e2
  generalize hL : invLeft u0 = L at a1 hl ⊢
  have hX := Dwt.fromLeft_agree a1 L
  obtain ⟨X', e, f, a, c⟩ := inverseW_spec isa (i0 := u0) (w := w) hw (X := fromLeft L b1) (s := Dwt.shift L s) (L := L) (by rw [hL]) (p := ((L : Int) + u0) % 2) rfl
    (hX.mono (by omega) (by omega)) (hi := hi + L) (fun k k1 k2 => f1 _ (by omega) (by omega)) (by omega)
  rw [Dwt.synthesiseAll_shift s (q := u0 % 2) (by omega) (by omega)] at a
  refine ⟨_, by rw [e]; rfl, ?_, ?_, ?_⟩
  · intro k k1 k2
    simp only [fromLeft]
    rw [a _ (by omega) (by omega)]
    simp [Dwt.shift]
  · intro k k1 k2
    simp only [fromLeft, sub_neg_eq_add]
    by_cases hk : 0 ≤ k + L
    · exact f _ hk (by omega)
    · rw [c _ (by omega)]
      simp only [fromLeft]
      exact f1 _ (by omega) (by omega)
  · intro k hk
    simp only [fromLeft, sub_neg_eq_add]
    rw [c _ (by omega)]
    simp only [fromLeft]
    rw [show k + (L : Int) - L = k by omega]
    exact c1 k hk

theorem rowForwardW_spec (isa : Isa) {u0 : Int} {x : List (BitVec 32)} (hw : 2 ≤ x.length) {tmp : Mem} {s : Int → BitVec 32} (hs : Ext x s) {hi : Int}
    (hF : Filled tmp (-(fwdLeft u0 : Nat)) hi) (hhi : x.length + 18 ≤ hi) :
    ∃ b', rowForwardW isa u0 x tmp = some b' ∧ Agree b' (Dwt.analyseAll wFwd (u0 % 2) s) 0 (x.length - 1) := by
  have hl := fwdLeft_le u0
  have hr := fwdRight_le (u0 + x.length)
  obtain ⟨b0, e0, a0, f0, c0⟩ := blit_spec hs hF (by omega) (by omega)
  obtain ⟨b1, e1, a1, f1, c1⟩ := fillNarrow_spec hw (hs.sym hw) a0 f0 (left := fwdLeft u0) (right := fwdRight (u0 + x.length)) (le_refl _) (by omega) u0
  unfold rowForwardW
  simp only [e0, e1, Option.bind_some]
  generalize hL : fwdLeft u0 = L at a1 hl f1 c1 ⊢
  have hX := Dwt.fromLeft_agree a1 L
  obtain ⟨X', e, f, a, c⟩ := forwardW_spec isa (i0 := u0) (w := x.length) hw (X := fromLeft L b1) (s := Dwt.shift L s) (L := L) (by rw [hL]) (p := ((L : Int) + u0) % 2)
    rfl (hX.mono (by omega) (by omega)) (hi := hi + L) (fun k k1 k2 => f1 _ (by omega) (by omega)) (by omega)
  rw [Dwt.analyseAll_shift s (q := u0 % 2) (by omega) (by omega)] at a
  refine ⟨_, by rw [e]; rfl, ?_⟩
  intro k k1 k2
  simp only [fromLeft]
  rw [a _ (by omega) (by omega)]
  simp [Dwt.shift]

end Verif.Simd.Lift.Wide
