import Verif.Simd.Lift
import Verif.Dwt.FilterLemmas
/-
Lemmas about the AVX2 lifting kernels: every group of eight lanes is four turns of the scalar loop.
-/
namespace Verif.Simd.Lift
open Verif.Dwt (Buf pseo fromLeft loopM ceilHalf copyTo Step Filter Agree Filled liftLoop liftStep liftAll Ext Lists)
open Verif.Simd

theorem load_some {b : Mem} {m : Int} {v : V 8} (h : ∀ i : Fin 8, b (m + (i.val : Int)) = some (v i)) : load b m = some v := by
  unfold load
  rw [dif_pos (fun i => by rw [h i]; rfl)]
  congr 1
  funext i
  simp [h i]

theorem load_filled {b : Mem} {m : Int} (h : Filled b m (m + 7)) : ∃ v, load b m = some v ∧ ∀ i : Fin 8, b (m + (i.val : Int)) = some (v i) := by
  have h' : ∀ i : Fin 8, (b (m + (i.val : Int))).isSome := fun i => h _ (by omega) (by omega)
  refine ⟨fun i => (b (m + (i.val : Int))).get (h' i), ?_, fun i => by simp⟩
  exact load_some fun i => by simp

theorem store_filled {b : Mem} {m : Int} (h : Filled b m (m + 7)) (v : V 8) :
    ∃ b', store b m v = some b' ∧ (∀ i : Fin 8, b' (m + (i.val : Int)) = some (v i)) ∧ ∀ k, ¬ (m ≤ k ∧ k < m + 8) → b' k = b k := by
  unfold store
  rw [if_pos (fun i => h _ (by omega) (by omega))]
  refine ⟨_, rfl, fun i => ?_, fun k hk => by simp [hk]⟩
  have : m ≤ m + (i.val : Int) ∧ m + (i.val : Int) < m + 8 := by omega
  simp only [this, and_self, dif_pos]
  congr 2
  apply Fin.ext
  simp

theorem put_filled {b : Mem} {k : Int} (h : (b k).isSome) (v : BitVec 32) : put b k v = some (Function.update b k (some v)) := if_pos h

theorem filled_of_eq {b b' : Mem} {m lo hi : Int} (hf : Filled b lo hi) (h1 : Filled b' m (m + 7)) (h2 : ∀ k, ¬ (m ≤ k ∧ k < m + 8) → b' k = b k) :
    Filled b' lo hi := by
  intro k k1 k2
  by_cases hk : m ≤ k ∧ k < m + 8
  · exact h1 k hk.1 (by omega)
  · rw [h2 k hk]; exact hf k k1 k2

/-- The lanes of a group: even ones are kept, odd ones are lifted. -/
def Lanes (g : V 8 → V 8 → V 8) (f : Step (BitVec 32)) : Prop :=
  ∀ x0 x2 : V 8, ∀ i : Fin 8, g x0 x2 i = if h : i.val % 2 = 0 then x0 i else f (x0 ⟨i.val - 1, by omega⟩) (x2 ⟨i.val - 1, by omega⟩) (x0 i)

theorem group_eq {g : V 8 → V 8 → V 8} {f : Step (BitVec 32)} (hg : Lanes g f) {m : Int} {b : Mem} (hb : Filled b m (m + 9)) :
    ∃ b', group g m b = some b' ∧ liftLoop f 4 (m + 1) b = some b' := by
  obtain ⟨x0, e0, h0⟩ := load_filled (b := b) (m := m) (fun k k1 k2 => hb k k1 (by omega))
  obtain ⟨x2, e2, h2⟩ := load_filled (b := b) (m := m + 2) (fun k k1 k2 => hb k (by omega) (by omega))
  obtain ⟨b1, e1, s1, s2⟩ := store_filled (b := b) (m := m) (fun k k1 k2 => hb k k1 (by omega)) (g x0 x2)
  obtain ⟨b', e, -, c1, c2⟩ := Dwt.liftLoop_spec f 4 (m + 1) b m (m + 9) hb (Or.inr ⟨by omega, by omega⟩)
  refine ⟨b1, by simp [group, e0, e2, e1], ?_⟩
  rw [e]
  congr 1
  funext k
  by_cases hk : m ≤ k ∧ k < m + 8
  · obtain ⟨i, hi⟩ : ∃ i : Fin 8, k = m + (i.val : Int) := ⟨⟨(k - m).toNat, by omega⟩, by simp; omega⟩
    subst hi
    rw [s1 i, hg]
    by_cases hi2 : i.val % 2 = 0
    · rw [dif_pos hi2, c1 _ (by omega), h0 i]
    · rw [dif_neg hi2]
      have g1 := h0 ⟨i.val - 1, by omega⟩
      have g2 := h2 ⟨i.val - 1, by omega⟩
      simp only at g1 g2
      apply c2 _ _ _ _ (by omega) (by omega) (by omega)
      · rw [← g1]; congr 1; omega
      · rw [← g2]; congr 1; omega
      · exact h0 i
  · rw [s2 k hk, c1 k (by omega)]

theorem pair_eq {g : V 8 → V 8 → V 8} {m : Int} {b : Mem} (hb : Filled b m (m + 17)) :
    pair g m b = (group g m b).bind (group g (m + 8)) := by
  obtain ⟨x0, e0, h0⟩ := load_filled (b := b) (m := m) (fun k k1 k2 => hb k k1 (by omega))
  obtain ⟨x2, e2, h2⟩ := load_filled (b := b) (m := m + 2) (fun k k1 k2 => hb k (by omega) (by omega))
  obtain ⟨y0, e3, h3⟩ := load_filled (b := b) (m := m + 8) (fun k k1 k2 => hb k (by omega) (by omega))
  obtain ⟨y2, e4, h4⟩ := load_filled (b := b) (m := m + 10) (fun k k1 k2 => hb k (by omega) (by omega))
  obtain ⟨b1, e1, s1, s2⟩ := store_filled (b := b) (m := m) (fun k k1 k2 => hb k k1 (by omega)) (g x0 x2)
  have l1 : load b1 (m + 8) = some y0 := load_some fun i => by rw [s2 _ (by omega), h3 i]
  have l2 : load b1 (m + 8 + 2) = some y2 := load_some fun i => by
    rw [s2 _ (by omega), ← h4 i]; congr 1; omega
  simp [pair, group, e0, e2, e3, e4, e1, l1, l2]

theorem liftLoop_add (f : Step (BitVec 32)) (a c : Nat) : ∀ (n : Int) (b : Mem),
    liftLoop f (a + c) n b = (liftLoop f a n b).bind (liftLoop f c (n + 2 * a)) := by
  induction a with
  | zero => intro n b; simp [liftLoop]
  | succ a ih =>
    intro n b
    rw [show a + 1 + c = (a + c) + 1 by omega, liftLoop, liftLoop]
    cases liftStep f n b with
    | none => rfl
    | some b1 =>
      simp only [Option.bind_some]
      rw [ih]
      congr 2
      push_cast; omega

theorem singles_eq {g : V 8 → V 8 → V 8} {f : Step (BitVec 32)} (hg : Lanes g f) (c : Nat) : ∀ (r m : Int) (b : Mem),
    r.toNat ≤ c → Filled b m (m + 8 * ((r.toNat + 3) / 4 : Nat) + 1) → singles g r m b = liftLoop f (4 * ((r.toNat + 3) / 4)) (m + 1) b := by
  induction c with
  | zero =>
    intro r m b hc _
    rw [singles, if_neg (by omega), show r.toNat = 0 by omega]
    rfl
  | succ c ih =>
    intro r m b hc hb
    rw [singles]
    by_cases hr : 0 < r
    · rw [if_pos hr]
      obtain ⟨b1, e1, e2⟩ := group_eq hg (m := m) (b := b) (fun k k1 k2 => hb k k1 (by omega))
      obtain ⟨b1', e2', f1, -⟩ := Dwt.liftLoop_spec f 4 (m + 1) b _ _ hb (Or.inr ⟨by omega, by omega⟩)
      rw [e2] at e2'; obtain rfl := Option.some.inj e2'
      rw [e1, Option.bind_some, ih (r - 4) (m + 8) b1 (by omega) (fun k k1 k2 => f1 k (by omega) (by omega)),
        show 4 * ((r.toNat + 3) / 4) = 4 + 4 * (((r - 4).toNat + 3) / 4) by omega, liftLoop_add, e2, Option.bind_some]
      congr 1
      push_cast; omega
    · rw [if_neg hr, show r.toNat = 0 by omega]
      rfl

/-- A step of the vector kernel is the scalar loop with the number of targets rounded up to a multiple of four. -/
theorem pairs_eq {g : V 8 → V 8 → V 8} {f : Step (BitVec 32)} (hg : Lanes g f) (c : Nat) : ∀ (r m : Int) (b : Mem),
    r.toNat ≤ c → Filled b m (m + 8 * ((r.toNat + 3) / 4 : Nat) + 1) → pairs g r m b = liftLoop f (4 * ((r.toNat + 3) / 4)) (m + 1) b := by
  induction c with
  | zero =>
    intro r m b hc hb
    rw [pairs, if_neg (by omega)]
    exact singles_eq hg _ r m b (le_refl _) hb
  | succ c ih =>
    intro r m b hc hb
    rw [pairs]
    by_cases hr : 4 < r
    · rw [if_pos hr, pair_eq (fun k k1 k2 => hb k k1 (by omega))]
      obtain ⟨b1, e1, e2⟩ := group_eq hg (m := m) (b := b) (fun k k1 k2 => hb k k1 (by omega))
      obtain ⟨b1', e2', f1, -⟩ := Dwt.liftLoop_spec f 4 (m + 1) b _ _ hb (Or.inr ⟨by omega, by omega⟩)
      rw [e2] at e2'; obtain rfl := Option.some.inj e2'
      obtain ⟨b2, e3, e4⟩ := group_eq hg (m := m + 8) (b := b1) (fun k k1 k2 => f1 k (by omega) (by omega))
      obtain ⟨b2', e4', f2, -⟩ := Dwt.liftLoop_spec f 4 (m + 8 + 1) b1 _ _ f1 (Or.inr ⟨by omega, by omega⟩)
      rw [e4] at e4'; obtain rfl := Option.some.inj e4'
      rw [e1, Option.bind_some, e3, Option.bind_some, ih (r - 8) (m + 16) b2 (by omega) (fun k k1 k2 => f2 k (by omega) (by omega)),
        show 4 * ((r.toNat + 3) / 4) = 4 + (4 + 4 * (((r - 8).toNat + 3) / 4)) by omega, liftLoop_add, e2, Option.bind_some, liftLoop_add]
      rw [show m + 1 + 2 * ((4 : Nat) : Int) = m + 8 + 1 by push_cast; omega, e4, Option.bind_some]
      congr 1
      push_cast; omega
    · rw [if_neg hr]
      exact singles_eq hg _ r m b (le_refl _) hb

/-! ### Steps on 32-bit words -/

/-- The steps of the synthesis on words. -/
def wInv : Filter (BitVec 32) := .two (fun a b t => t + (a + b).sshiftRight 1) (fun a b t => t - (a + b + 2#32).sshiftRight 2)
/-- The steps of the analysis on words. -/
def wFwd : Filter (BitVec 32) := .two (fun a b t => t - (a + b).sshiftRight 1) (fun a b t => t + (a + b + 2#32).sshiftRight 2)

theorem lpInv_lanes : Lanes lpInv (fun a b t => t - (a + b + 2#32).sshiftRight 2) := by
  intro x0 x2 i
  simp only [lpInv, vsub, sumQuarter, vsrai, slli64, vadd, vset]
  by_cases h : i.val % 2 = 0
  · simp [h]
  · simp [h]

theorem hpInv_lanes : Lanes hpInv (fun a b t => t + (a + b).sshiftRight 1) := by
  intro x0 x2 i
  simp only [hpInv, sumHalf, vsrai, slli64, vadd]
  by_cases h : i.val % 2 = 0
  · simp [h]
  · simp [h]

theorem hpFwd_lanes : Lanes hpFwd (fun a b t => t - (a + b).sshiftRight 1) := by
  intro x0 x2 i
  simp only [hpFwd, vsub, sumHalf, vsrai, slli64, vadd]
  by_cases h : i.val % 2 = 0
  · simp [h]
  · simp [h]

theorem lpFwd_lanes : Lanes lpFwd (fun a b t => t + (a + b + 2#32).sshiftRight 2) := by
  intro x0 x2 i
  simp only [lpFwd, sumQuarter, vsrai, slli64, vadd, vset]
  by_cases h : i.val % 2 = 0
  · simp [h]
  · simp [h]

/-! ### The kernels in place -/

theorem inverse_spec {i0 : Int} {w : Nat} (hw : 2 ≤ w) {X : Mem} {s : Int → BitVec 32} {L : Int} (hL : L = (invLeft i0 : Nat)) {p : Int}
    (hp : p = (L + i0) % 2) (hX : Agree X s 0 (L + w - 1 + (invRight (i0 + w) : Nat))) {hi : Int} (hF : Filled X 0 hi) (hhi : L + w + 8 ≤ hi) :
    ∃ X', inverse L i0 (i0 + w) X = some X' ∧ Filled X' 0 hi ∧ Agree X' (Dwt.synthesiseAll wInv p s) L (L + w - 1) ∧ ∀ k, ¬ (0 ≤ k ∧ k ≤ L + w + 8) → X' k = X k := by
  simp only [inverse, Dwt.synthesiseAll, wInv]
  simp only [invLeft, invRight] at hL hX
  have q1 : Filled X (L - i0 % 2 - 1) (L - i0 % 2 - 1 + 8 * ((((i0 + w) / 2 + 1 - i0 / 2).toNat + 3) / 4 : Nat) + 1) :=
    fun k k1 k2 => hF k (by split_ifs at hL <;> omega) (by split_ifs at hL <;> omega)
  rw [pairs_eq lpInv_lanes _ _ _ _ (le_refl _) q1]
  obtain ⟨X1, e1, f1, a1⟩ := Dwt.lift_agree (f := fun a b t => t - (a + b + 2#32).sshiftRight 2) (c := 4 * ((((i0 + w) / 2 + 1 - i0 / 2).toNat + 3) / 4))
      (n := L - i0 % 2 - 1 + 1) (p := p) (a' := L - i0 % 2) (z' := L + w - (i0 + w) % 2) hF hX
      (by split_ifs at hL <;> omega) (by split_ifs at hL ⊢ <;> omega) (by split_ifs at hL ⊢ <;> omega)
      (by split_ifs at hL ⊢ <;> omega) (by intro k k1 k2 k3; split_ifs at hL ⊢ <;> omega)
  obtain ⟨X1', e1', -, u1, -⟩ := Dwt.liftLoop_spec (fun a b t => t - (a + b + 2#32).sshiftRight 2) (4 * ((((i0 + w) / 2 + 1 - i0 / 2).toNat + 3) / 4))
      (L - i0 % 2 - 1 + 1) X 0 hi hF (by split_ifs at hL ⊢ <;> omega)
  rw [e1] at e1'; obtain rfl := Option.some.inj e1'
  have q2 : Filled X1 (L - i0 % 2) (L - i0 % 2 + 8 * ((((i0 + w) / 2 - i0 / 2).toNat + 3) / 4 : Nat) + 1) :=
    fun k k1 k2 => f1 k (by split_ifs at hL <;> omega) (by split_ifs at hL <;> omega)
  rw [e1, Option.bind_some, pairs_eq hpInv_lanes _ _ _ _ (le_refl _) q2]
  obtain ⟨X2, e2, f2, a2⟩ := Dwt.lift_agree (f := fun a b t => t + (a + b).sshiftRight 1) (c := 4 * ((((i0 + w) / 2 - i0 / 2).toNat + 3) / 4))
      (n := L - i0 % 2 + 1) (p := 1 - p) (a' := L) (z' := L + w - 1) f1 a1
      (by split_ifs at hL <;> omega) (by split_ifs at hL ⊢ <;> omega) (by split_ifs at hL ⊢ <;> omega)
      (by split_ifs at hL ⊢ <;> omega) (by intro k k1 k2 k3; split_ifs at hL ⊢ <;> omega)
  obtain ⟨X2', e2', -, u2, -⟩ := Dwt.liftLoop_spec (fun a b t => t + (a + b).sshiftRight 1) (4 * ((((i0 + w) / 2 - i0 / 2).toNat + 3) / 4))
      (L - i0 % 2 + 1) X1 0 hi f1 (by split_ifs at hL ⊢ <;> omega)
  rw [e2] at e2'; obtain rfl := Option.some.inj e2'
  refine ⟨X2, e2, f2, a2, fun k hk => ?_⟩
  rw [u2 k (by split_ifs at hL <;> omega), u1 k (by split_ifs at hL <;> omega)]

theorem forward_spec {i0 : Int} {w : Nat} (hw : 2 ≤ w) {X : Mem} {s : Int → BitVec 32} {L : Int} (hL : L = (fwdLeft i0 : Nat)) {p : Int}
    (hp : p = (L + i0) % 2) (hX : Agree X s 0 (L + w - 1 + (fwdRight (i0 + w) : Nat))) {hi : Int} (hF : Filled X 0 hi) (hhi : L + w + 8 ≤ hi) :
    ∃ X', forward L i0 (i0 + w) X = some X' ∧ Filled X' 0 hi ∧ Agree X' (Dwt.analyseAll wFwd p s) L (L + w - 1) ∧ ∀ k, ¬ (0 ≤ k ∧ k ≤ L + w + 8) → X' k = X k := by
  simp only [forward, Dwt.analyseAll, wFwd, ceilHalf]
  simp only [fwdLeft, fwdRight] at hL hX
  have q1 : Filled X (-2 + (L + i0 % 2)) (-2 + (L + i0 % 2) + 8 * ((((i0 + w + 1) / 2 - ((i0 + 1) / 2 - 1)).toNat + 3) / 4 : Nat) + 1) :=
    fun k k1 k2 => hF k (by split_ifs at hL <;> omega) (by split_ifs at hL <;> omega)
  rw [pairs_eq hpFwd_lanes _ _ _ _ (le_refl _) q1]
  obtain ⟨X1, e1, f1, a1⟩ := Dwt.lift_agree (f := fun a b t => t - (a + b).sshiftRight 1) (c := 4 * ((((i0 + w + 1) / 2 - ((i0 + 1) / 2 - 1)).toNat + 3) / 4))
      (n := -2 + (L + i0 % 2) + 1) (p := 1 - p) (a' := L - 1 + i0 % 2) (z' := L + w - (i0 + w + 1) % 2) hF hX
      (by split_ifs at hL <;> omega) (by split_ifs at hL ⊢ <;> omega) (by split_ifs at hL ⊢ <;> omega)
      (by split_ifs at hL ⊢ <;> omega) (by intro k k1 k2 k3; split_ifs at hL ⊢ <;> omega)
  obtain ⟨X1', e1', -, u1, -⟩ := Dwt.liftLoop_spec (fun a b t => t - (a + b).sshiftRight 1) (4 * ((((i0 + w + 1) / 2 - ((i0 + 1) / 2 - 1)).toNat + 3) / 4))
      (-2 + (L + i0 % 2) + 1) X 0 hi hF (by split_ifs at hL ⊢ <;> omega)
  rw [e1] at e1'; obtain rfl := Option.some.inj e1'
  have q2 : Filled X1 (0 + (L + i0 % 2) - 1) (0 + (L + i0 % 2) - 1 + 8 * ((((i0 + w + 1) / 2 - (i0 + 1) / 2).toNat + 3) / 4 : Nat) + 1) :=
    fun k k1 k2 => f1 k (by split_ifs at hL <;> omega) (by split_ifs at hL <;> omega)
  rw [e1, Option.bind_some, pairs_eq lpFwd_lanes _ _ _ _ (le_refl _) q2]
  obtain ⟨X2, e2, f2, a2⟩ := Dwt.lift_agree (f := fun a b t => t + (a + b + 2#32).sshiftRight 2) (c := 4 * ((((i0 + w + 1) / 2 - (i0 + 1) / 2).toNat + 3) / 4))
      (n := 0 + (L + i0 % 2) - 1 + 1) (p := p) (a' := L) (z' := L + w - 1) f1 a1
      (by split_ifs at hL <;> omega) (by split_ifs at hL ⊢ <;> omega) (by split_ifs at hL ⊢ <;> omega)
      (by split_ifs at hL ⊢ <;> omega) (by intro k k1 k2 k3; split_ifs at hL ⊢ <;> omega)
  obtain ⟨X2', e2', -, u2, -⟩ := Dwt.liftLoop_spec (fun a b t => t + (a + b + 2#32).sshiftRight 2) (4 * ((((i0 + w + 1) / 2 - (i0 + 1) / 2).toNat + 3) / 4))
      (0 + (L + i0 % 2) - 1 + 1) X1 0 hi f1 (by split_ifs at hL ⊢ <;> omega)
  rw [e2] at e2'; obtain rfl := Option.some.inj e2'
  refine ⟨X2, e2, f2, a2, fun k hk => ?_⟩
  rw [u2 k (by split_ifs at hL <;> omega), u1 k (by split_ifs at hL <;> omega)]

end Verif.Simd.Lift
