import Verif.Simd.Wide
import Verif.Simd.LiftWords
/-
Lemmas about the NEON and AVX-512 lifting kernels: loops, loads and stores of any width, and the kernels in place.
-/
namespace Verif.Simd.Lift.Wide
open Verif.Dwt (Buf pseo fromLeft loopM ceilHalf Step Filter Agree Filled liftLoop liftStep liftAll Ext Lists Sym mirror)
open Verif.Simd

/-! ### Loops -/

/-- What every turn keeps holds at the end, when the condition of the loop is false. -/
theorem sweep_inv {σ : Type} {d e : Nat} (hd : 0 < d) {n : Int} {body : Int → σ → Option σ} {P : Int → σ → Prop}
    (hstep : ∀ i x, P i x → i + e < n → ∃ x', body i x = some x' ∧ P (i + d) x') (c : Nat) :
    ∀ i x, (n - i).toNat ≤ c → P i x → ∃ i' x', sweep d e n body i x = some (i', x') ∧ P i' x' ∧ n ≤ i' + e := by
  induction c with
  | zero =>
    intro i x hc hP
    rw [sweep, if_neg (by omega)]
    exact ⟨i, x, rfl, hP, by omega⟩
  | succ c ih =>
    intro i x hc hP
    rw [sweep]
    by_cases h : i + e < n
    · rw [if_pos ⟨h, hd⟩]
      obtain ⟨x', e', hP'⟩ := hstep i x hP h
      rw [e', Option.bind_some]
      exact ih _ _ (by omega) hP'
    · rw [if_neg (by omega)]
      exact ⟨i, x, rfl, hP, by omega⟩

theorem sweep_run {σ : Type} {d e : Nat} (hd : 0 < d) {n : Int} {body : Int → σ → Option σ} {P : Int → σ → Prop} {i : Int} {x : σ} (h0 : P i x)
    (hstep : ∀ i x, P i x → i + e < n → ∃ x', body i x = some x' ∧ P (i + d) x') :
    ∃ i' x', sweep d e n body i x = some (i', x') ∧ P i' x' ∧ n ≤ i' + e := sweep_inv hd hstep _ i x (le_refl _) h0

/-! ### Loads and stores -/

theorem loadL_some {L : Nat} {b : Mem} {m : Int} {v : V L} (h : ∀ i : Fin L, b (m + (i.val : Int)) = some (v i)) : loadL L b m = some v := by
  unfold loadL
  rw [dif_pos (fun i => by rw [h i]; rfl)]
  congr 1
  funext i
  simp [h i]

theorem loadL_filled {L : Nat} {b : Mem} {m : Int} (h : Filled b m (m + L - 1)) : ∃ v, loadL L b m = some v ∧ ∀ i : Fin L, b (m + (i.val : Int)) = some (v i) := by
  have h' : ∀ i : Fin L, (b (m + (i.val : Int))).isSome := fun i => h _ (by omega) (by have := i.isLt; omega)
  exact ⟨fun i => (b (m + (i.val : Int))).get (h' i), loadL_some fun i => by simp, fun i => by simp⟩

theorem loadL_agree {L : Nat} {b : Mem} {s : Int → BitVec 32} {lo hi m : Int} (h : Agree b s lo hi) (h1 : lo ≤ m) (h2 : m + L ≤ hi + 1) :
    loadL L b m = some fun i => s (m + (i.val : Int)) := loadL_some fun i => h _ (by omega) (by have := i.isLt; omega)

theorem storeL_filled {L : Nat} {b : Mem} {m lo hi : Int} (h : Filled b lo hi) (h1 : lo ≤ m) (h2 : m + L ≤ hi + 1) (v : V L) :
    ∃ b', storeL b m v = some b' ∧ (∀ k (h : m ≤ k ∧ k < m + L), b' k = some (v ⟨(k - m).toNat, by omega⟩)) ∧ (∀ k, ¬ (m ≤ k ∧ k < m + L) → b' k = b k) ∧ Filled b' lo hi := by
  unfold storeL
  rw [if_pos (fun i => h _ (by omega) (by have := i.isLt; omega))]
  refine ⟨_, rfl, fun k hk => by simp [hk], fun k hk => by simp [hk], fun k k1 k2 => ?_⟩
  by_cases hk : m ≤ k ∧ k < m + L
  · simp [hk]
  · simp only [hk, dif_neg, not_false_eq_true]; exact h k k1 k2

/-! ### Kernels in place -/

/-- The lanes of a group: even ones are kept, odd ones are lifted. -/
def LanesW {W : Nat} (g : V W → V W → V W) (f : Step (BitVec 32)) : Prop :=
  ∀ x0 x2 : V W, ∀ i : Fin W, g x0 x2 i = if h : i.val % 2 = 0 then x0 i else f (x0 ⟨i.val - 1, by omega⟩) (x2 ⟨i.val - 1, by omega⟩) (x0 i)

theorem groupW_eq {W H : Nat} (hW : W = 2 * H) {g : V W → V W → V W} {f : Step (BitVec 32)} (hg : LanesW g f) {m : Int} {b : Mem} {lo hi : Int} (hb : Filled b lo hi)
    (h1 : lo ≤ m) (h2 : m + W + 1 ≤ hi) :
    ∃ b', groupW g m b = some b' ∧ liftLoop f H (m + 1) b = some b' ∧ Filled b' lo hi := by
  obtain ⟨x0, e0, h0⟩ := loadL_filled (L := W) (b := b) (m := m) (fun k k1 k2 => hb k (by omega) (by omega))
  obtain ⟨x2, e2, h3⟩ := loadL_filled (L := W) (b := b) (m := m + 2) (fun k k1 k2 => hb k (by omega) (by omega))
  obtain ⟨b1, e1, s1, s2, s3⟩ := storeL_filled hb h1 (by omega) (g x0 x2)
  obtain ⟨b', e, -, c1, c2⟩ := Dwt.liftLoop_spec f H (m + 1) b lo hi hb (Or.inr ⟨by omega, by omega⟩)
  refine ⟨b1, by simp [groupW, e0, e2, e1], ?_, s3⟩
  rw [e]
  congr 1
  funext k
  by_cases hk : m ≤ k ∧ k < m + W
  · rw [s1 k hk, hg]
    have g0 := h0 ⟨(k - m).toNat, by omega⟩
    simp only [show m + (((k - m).toNat : Nat) : Int) = k by omega] at g0
    by_cases hi2 : (k - m).toNat % 2 = 0
    · rw [dif_pos hi2, c1 _ (by omega), g0]
    · rw [dif_neg hi2]
      have g1 := h0 ⟨(k - m).toNat - 1, by omega⟩
      have g2 := h3 ⟨(k - m).toNat - 1, by omega⟩
      simp only [show m + (((k - m).toNat - 1 : Nat) : Int) = k - 1 by omega, show m + 2 + (((k - m).toNat - 1 : Nat) : Int) = k + 1 by omega] at g1 g2
      exact c2 k _ _ _ (by omega) (by omega) (by omega) g1 g2 g0
  · rw [s2 k hk, c1 k (by omega)]

theorem pairW_eq {W : Nat} (hW : 2 ≤ W) {g : V W → V W → V W} {m : Int} {b : Mem} {lo hi : Int} (hb : Filled b lo hi) (h1 : lo ≤ m) (h2 : m + 2 * W + 1 ≤ hi) :
    pairW g m b = (groupW g m b).bind (groupW g (m + W)) := by
  obtain ⟨x0, e0, h0⟩ := loadL_filled (L := W) (b := b) (m := m) (fun k k1 k2 => hb k (by omega) (by omega))
  obtain ⟨x2, e2, h3⟩ := loadL_filled (L := W) (b := b) (m := m + 2) (fun k k1 k2 => hb k (by omega) (by omega))
  obtain ⟨y0, e3, h4⟩ := loadL_filled (L := W) (b := b) (m := m + W) (fun k k1 k2 => hb k (by omega) (by omega))
  obtain ⟨y2, e4, h5⟩ := loadL_filled (L := W) (b := b) (m := m + W + 2) (fun k k1 k2 => hb k (by omega) (by omega))
  obtain ⟨b1, e1, s1, s2, s3⟩ := storeL_filled hb h1 (by omega) (g x0 x2)
  have l1 : loadL W b1 (m + W) = some y0 := loadL_some fun i => by rw [s2 _ (by omega), h4 i]
  have l2 : loadL W b1 (m + W + 2) = some y2 := loadL_some fun i => by rw [s2 _ (by omega), h5 i]
  simp [pairW, groupW, e0, e2, e3, e4, e1, l1, l2]

/-- A step of the vector kernel is the scalar loop with at most `H - 1` targets more. -/
theorem stepW_eq {W H : Nat} (hH : 0 < H) (hW : W = 2 * H) {g : V W → V W → V W} {f : Step (BitVec 32)} (hg : LanesW g f) {r m : Int} (hr : 0 ≤ r) {b : Mem} {lo hi : Int}
    (hb : Filled b lo hi) (h1 : lo ≤ m) (h2 : m + 2 * (r + H - 1) + 1 ≤ hi) :
    ∃ (b' : Mem) (c : Nat), stepW H g r m b = some b' ∧ liftLoop f c (m + 1) b = some b' ∧ r ≤ c ∧ (c : Int) ≤ r + H - 1 ∧ Filled b' lo hi := by
  have one : ∀ (i : Int) (x : Mem), 0 ≤ i → i < r → liftLoop f i.toNat (m + 1) b = some x → Filled x lo hi →
      ∃ x', groupW g (m + 2 * i) x = some x' ∧ liftLoop f (i + H).toNat (m + 1) b = some x' ∧ Filled x' lo hi := by
    intro i x i0 i1 hx hF
    obtain ⟨x', e1, e2, f2⟩ := groupW_eq hW hg hF (m := m + 2 * i) (by omega) (by omega)
    refine ⟨x', e1, ?_, f2⟩
    rw [show (i + (H : Int)).toNat = i.toNat + H by omega, liftLoop_add, hx, Option.bind_some, ← e2]
    congr 1; omega
  obtain ⟨i1, x1, e1, ⟨q1, q2, q3, q4⟩, -⟩ := sweep_run (d := 2 * H) (e := H) (n := r) (body := fun i b => pairW g (m + 2 * i) b)
    (P := fun (i : Int) (x : Mem) => 0 ≤ i ∧ i ≤ r + H - 1 ∧ liftLoop f i.toNat (m + 1) b = some x ∧ Filled x lo hi) (by omega) (i := 0) (x := b)
    ⟨le_refl _, by omega, rfl, hb⟩ (by
    rintro i x ⟨i0, i1, hx, hF⟩ hc
    obtain ⟨x1, a1, a2, a3⟩ := one i x i0 (by omega) hx hF
    obtain ⟨x2, b1, b2, b3⟩ := one (i + H) x1 (by omega) (by omega) a2 a3
    refine ⟨x2, ?_, by omega, by push_cast; omega, ?_, b3⟩
    · show pairW g (m + 2 * i) x = some x2
      rw [pairW_eq (by omega) hF (by omega) (by omega), a1, Option.bind_some, show m + 2 * i + (W : Int) = m + 2 * (i + H) by omega, b1]
    · rw [← b2]; congr 1; push_cast; omega)
  obtain ⟨i2, x2, e2, ⟨r1, r2, r3, r4⟩, r5⟩ := sweep_run (d := H) (e := 0) (n := r) (body := fun i b => groupW g (m + 2 * i) b)
    (P := fun (i : Int) (x : Mem) => 0 ≤ i ∧ i ≤ r + H - 1 ∧ liftLoop f i.toNat (m + 1) b = some x ∧ Filled x lo hi) hH (i := i1) (x := x1) ⟨q1, q2, q3, q4⟩ (by
    rintro i x ⟨i0, i1, hx, hF⟩ hc
    obtain ⟨x1, a1, a2, a3⟩ := one i x i0 (by omega) hx hF
    exact ⟨x1, a1, by omega, by omega, a2, a3⟩)
  exact ⟨x2, i2.toNat, by rw [stepW, e1, Option.bind_some, e2, Option.map_some], r3, by omega, by omega, r4⟩

theorem lpInv16_lanes : LanesW lpInv16 (fun a b t => t - (a + b + 2#32).sshiftRight 2) := by
  intro x0 x2 i
  simp only [lpInv16, vsub, vsrai, slli64, vadd, vset]
  by_cases h : i.val % 2 = 0 <;> simp [h]
theorem hpInv16_lanes : LanesW hpInv16 (fun a b t => t + (a + b).sshiftRight 1) := by
  intro x0 x2 i
  simp only [hpInv16, vsrai, slli64, vadd]
  by_cases h : i.val % 2 = 0 <;> simp [h]
theorem hpFwd16_lanes : LanesW hpFwd16 (fun a b t => t - (a + b).sshiftRight 1) := by
  intro x0 x2 i
  simp only [hpFwd16, vsub, vsrai, slli64, vadd]
  by_cases h : i.val % 2 = 0 <;> simp [h]
theorem lpFwd16_lanes : LanesW lpFwd16 (fun a b t => t + (a + b + 2#32).sshiftRight 2) := by
  intro x0 x2 i
  simp only [lpFwd16, vsrai, slli64, vadd, vset]
  by_cases h : i.val % 2 = 0 <;> simp [h]
theorem hpFwd4_lanes : LanesW hpFwd4 (fun a b t => t - (a + b).sshiftRight 1) := by
  intro x0 x2 i
  fin_cases i <;> rfl
theorem lpFwd4_lanes : LanesW lpFwd4 (fun a b t => t + (a + b + 2#32).sshiftRight 2) := by
  intro x0 x2 i
  fin_cases i <;> rfl

/-- Two steps of the analysis in place. -/
theorem forwardSteps {W H : Nat} (hH : 0 < H) (hW : W = 2 * H) {g1 g2 : V W → V W → V W} (hg1 : LanesW g1 (fun a b t => t - (a + b).sshiftRight 1))
    (hg2 : LanesW g2 (fun a b t => t + (a + b + 2#32).sshiftRight 2)) {i0 : Int} {w : Nat} (hw : 2 ≤ w) {X : Mem} {s : Int → BitVec 32} {L : Int}
    (hL : L = (fwdLeft i0 : Nat)) {p : Int} (hp : p = (L + i0) % 2) (hX : Agree X s 0 (L + w - 1 + (fwdRight (i0 + w) : Nat))) {hi : Int} (hF : Filled X 0 hi)
    (hhi : L + w + 2 * H + 2 ≤ hi) :
    ∃ X', ((stepW H g1 (ceilHalf (i0 + w) - (ceilHalf i0 - 1)) (-2 + (L + i0 % 2)) X).bind fun X => stepW H g2 (ceilHalf (i0 + w) - ceilHalf i0) (0 + (L + i0 % 2) - 1) X) =
        some X' ∧ Filled X' 0 hi ∧ Agree X' (Dwt.analyseAll wFwd p s) L (L + w - 1) ∧ ∀ k, ¬ (0 ≤ k ∧ k ≤ L + w + 2 * H + 2) → X' k = X k := by
  simp only [Dwt.analyseAll, wFwd, ceilHalf]
  simp only [fwdLeft, fwdRight] at hL hX
  obtain ⟨X1, c1, e1, l1, b1, b1', -⟩ := stepW_eq hH hW hg1 (r := (i0 + w + 1) / 2 - ((i0 + 1) / 2 - 1)) (m := -2 + (L + i0 % 2)) (by omega) hF
    (by split_ifs at hL <;> omega) (by split_ifs at hL <;> omega)
  rw [e1, Option.bind_some]
  obtain ⟨X1', e1', f1, a1⟩ := Dwt.lift_agree (f := fun a b t => t - (a + b).sshiftRight 1) (c := c1)
      (n := -2 + (L + i0 % 2) + 1) (p := 1 - p) (a' := L - 1 + i0 % 2) (z' := L + w - (i0 + w + 1) % 2) hF hX
      (by split_ifs at hL <;> omega) (by split_ifs at hL ⊢ <;> omega) (by split_ifs at hL ⊢ <;> omega)
      (by split_ifs at hL ⊢ <;> omega) (by intro k k1 k2 k3; split_ifs at hL ⊢ <;> omega)
  rw [l1] at e1'; obtain rfl := Option.some.inj e1'
  obtain ⟨X1', e1', -, u1, -⟩ := Dwt.liftLoop_spec (fun a b t => t - (a + b).sshiftRight 1) c1 (-2 + (L + i0 % 2) + 1) X 0 hi hF (by split_ifs at hL ⊢ <;> omega)
  rw [l1] at e1'; obtain rfl := Option.some.inj e1'
  obtain ⟨X2, c2, e2, l2, b2, b2', -⟩ := stepW_eq hH hW hg2 (r := (i0 + w + 1) / 2 - (i0 + 1) / 2) (m := 0 + (L + i0 % 2) - 1) (by omega) f1
    (by split_ifs at hL <;> omega) (by split_ifs at hL <;> omega)
  obtain ⟨X2', e2', f2, a2⟩ := Dwt.lift_agree (f := fun a b t => t + (a + b + 2#32).sshiftRight 2) (c := c2)
      (n := 0 + (L + i0 % 2) - 1 + 1) (p := p) (a' := L) (z' := L + w - 1) f1 a1
      (by split_ifs at hL <;> omega) (by split_ifs at hL ⊢ <;> omega) (by split_ifs at hL ⊢ <;> omega)
      (by split_ifs at hL ⊢ <;> omega) (by intro k k1 k2 k3; split_ifs at hL ⊢ <;> omega)
  rw [l2] at e2'; obtain rfl := Option.some.inj e2'
  obtain ⟨X2', e2', -, u2, -⟩ := Dwt.liftLoop_spec (fun a b t => t + (a + b + 2#32).sshiftRight 2) c2 (0 + (L + i0 % 2) - 1 + 1) X1 0 hi f1 (by split_ifs at hL ⊢ <;> omega)
  rw [l2] at e2'; obtain rfl := Option.some.inj e2'
  refine ⟨X2, e2, f2, a2, fun k hk => ?_⟩
  rw [u2 k (by split_ifs at hL <;> omega), u1 k (by split_ifs at hL <;> omega)]

theorem forwardW_spec (isa : Isa) {i0 : Int} {w : Nat} (hw : 2 ≤ w) {X : Mem} {s : Int → BitVec 32} {L : Int} (hL : L = (fwdLeft i0 : Nat)) {p : Int}
    (hp : p = (L + i0) % 2) (hX : Agree X s 0 (L + w - 1 + (fwdRight (i0 + w) : Nat))) {hi : Int} (hF : Filled X 0 hi) (hhi : L + w + 18 ≤ hi) :
    ∃ X', forwardW isa L i0 (i0 + w) X = some X' ∧ Filled X' 0 hi ∧ Agree X' (Dwt.analyseAll wFwd p s) L (L + w - 1) ∧ ∀ k, ¬ (0 ≤ k ∧ k ≤ L + w + 18) → X' k = X k := by
  cases isa with
  | avx512 =>
    obtain ⟨X', e, f, a, c⟩ := forwardSteps (H := 8) (by decide) rfl hpFwd16_lanes lpFwd16_lanes hw hL hp hX hF (by omega)
    exact ⟨X', e, f, a, fun k hk => c k (by omega)⟩
  | neon =>
    obtain ⟨X', e, f, a, c⟩ := forwardSteps (H := 4) (by decide) rfl hpFwd4_lanes lpFwd4_lanes hw hL hp hX hF (by omega)
    exact ⟨X', e, f, a, fun k hk => c k (by omega)⟩

/-- Two steps of the synthesis in place. -/
theorem inverseSteps {i0 : Int} {w : Nat} (hw : 2 ≤ w) {X : Mem} {s : Int → BitVec 32} {L : Int} (hL : L = (invLeft i0 : Nat)) {p : Int}
    (hp : p = (L + i0) % 2) (hX : Agree X s 0 (L + w - 1 + (invRight (i0 + w) : Nat))) {hi : Int} (hF : Filled X 0 hi) (hhi : L + w + 18 ≤ hi) :
    ∃ X', inverseW .avx512 L i0 (i0 + w) X = some X' ∧ Filled X' 0 hi ∧ Agree X' (Dwt.synthesiseAll wInv p s) L (L + w - 1) ∧
      ∀ k, ¬ (0 ≤ k ∧ k ≤ L + w + 18) → X' k = X k := by
  simp only [inverseW, Dwt.synthesiseAll, wInv]
  simp only [invLeft, invRight] at hL hX
  obtain ⟨X1, c1, e1, l1, b1, b1', -⟩ := stepW_eq (H := 8) (by decide) rfl lpInv16_lanes (r := (i0 + w) / 2 + 1 - i0 / 2) (m := L - i0 % 2 - 1) (by omega) hF
    (by split_ifs at hL <;> omega) (by split_ifs at hL <;> omega)
  rw [e1, Option.bind_some]
  obtain ⟨X1', e1', f1, a1⟩ := Dwt.lift_agree (f := fun a b t => t - (a + b + 2#32).sshiftRight 2) (c := c1)
      (n := L - i0 % 2 - 1 + 1) (p := p) (a' := L - i0 % 2) (z' := L + w - (i0 + w) % 2) hF hX
      (by split_ifs at hL <;> omega) (by split_ifs at hL ⊢ <;> omega) (by split_ifs at hL ⊢ <;> omega)
      (by split_ifs at hL ⊢ <;> omega) (by intro k k1 k2 k3; split_ifs at hL ⊢ <;> omega)
  rw [l1] at e1'; obtain rfl := Option.some.inj e1'
  obtain ⟨X1', e1', -, u1, -⟩ := Dwt.liftLoop_spec (fun a b t => t - (a + b + 2#32).sshiftRight 2) c1 (L - i0 % 2 - 1 + 1) X 0 hi hF (by split_ifs at hL ⊢ <;> omega)
  rw [l1] at e1'; obtain rfl := Option.some.inj e1'
  obtain ⟨X2, c2, e2, l2, b2, b2', -⟩ := stepW_eq (H := 8) (by decide) rfl hpInv16_lanes (r := (i0 + w) / 2 - i0 / 2) (m := L - i0 % 2) (by omega) f1
    (by split_ifs at hL <;> omega) (by split_ifs at hL <;> omega)
  obtain ⟨X2', e2', f2, a2⟩ := Dwt.lift_agree (f := fun a b t => t + (a + b).sshiftRight 1) (c := c2)
      (n := L - i0 % 2 + 1) (p := 1 - p) (a' := L) (z' := L + w - 1) f1 a1
      (by split_ifs at hL <;> omega) (by split_ifs at hL ⊢ <;> omega) (by split_ifs at hL ⊢ <;> omega)
      (by split_ifs at hL ⊢ <;> omega) (by intro k k1 k2 k3; split_ifs at hL ⊢ <;> omega)
  rw [l2] at e2'; obtain rfl := Option.some.inj e2'
  obtain ⟨X2', e2', -, u2, -⟩ := Dwt.liftLoop_spec (fun a b t => t + (a + b).sshiftRight 1) c2 (L - i0 % 2 + 1) X1 0 hi f1 (by split_ifs at hL ⊢ <;> omega)
  rw [l2] at e2'; obtain rfl := Option.some.inj e2'
  refine ⟨X2, e2, f2, a2, fun k hk => ?_⟩
  rw [u2 k (by split_ifs at hL <;> omega), u1 k (by split_ifs at hL <;> omega)]

end Verif.Simd.Lift.Wide
