import Verif.Dwt.GainMain

/-!
# The gain bounds in two dimensions, with rounding errors
-/

namespace Verif.Dwt.Gain

/-- Vertical low-pass filtering. -/
def lowV (p h : ℤ) (X : ℤ → ℤ → ℚ) (i j : ℤ) : ℚ := lowExt p h (fun i => X i j) i

/-- Horizontal low-pass filtering. -/
def lowH (q w : ℤ) (X : ℤ → ℤ → ℚ) (i j : ℤ) : ℚ := lowExt q w (X i) j

def iterV (h : ℤ) (ps : List ℤ) (X : ℤ → ℤ → ℚ) (i j : ℤ) : ℚ := iter h ps (fun i => X i j) i

def iterH (w : ℤ) (qs : List ℤ) (X : ℤ → ℤ → ℚ) (i j : ℤ) : ℚ := iter w qs (X i) j

def highV (p h : ℤ) (X : ℤ → ℤ → ℚ) (i j : ℤ) : ℚ := highExt p h (fun i => X i j) i

def highH (q w : ℤ) (X : ℤ → ℤ → ℚ) (i j : ℤ) : ℚ := highExt q w (X i) j

theorem lowH_lowV (p q h w : ℤ) (X : ℤ → ℤ → ℚ) : lowH q w (lowV p h X) = lowV p h (lowH q w X) := by
  funext i j
  simp only [lowH, lowV, lowExt, low]
  ring

theorem highH_lowV (p q h w : ℤ) (X : ℤ → ℤ → ℚ) : highH q w (lowV p h X) = lowV p h (highH q w X) := by
  funext i j
  simp only [highH, lowV, lowExt, low, highExt, high]
  split_ifs <;> ring

theorem lowH_highV (p q h w : ℤ) (X : ℤ → ℤ → ℚ) : lowH q w (highV p h X) = highV p h (lowH q w X) := by
  funext i j
  simp only [highV, lowH, lowExt, low, highExt, high]
  split_ifs <;> ring

theorem highH_highV (p q h w : ℤ) (X : ℤ → ℤ → ℚ) : highH q w (highV p h X) = highV p h (highH q w X) := by
  funext i j
  simp only [highV, highH, highExt, high]
  split_ifs <;> ring

theorem iterH_lowV (qs : List ℤ) : ∀ (p h w : ℤ) (X : ℤ → ℤ → ℚ), iterH w qs (lowV p h X) = lowV p h (iterH w qs X) := by
  induction qs with
  | nil => intro p h w X; rfl
  | cons q qs ih =>
    intro p h w X
    show iterH (half q w) qs (lowH q w (lowV p h X)) = lowV p h (iterH (half q w) qs (lowH q w X))
    rw [lowH_lowV, ih]

theorem lowExt_add (p w : ℤ) (s t : ℤ → ℚ) : lowExt p w (fun k => s k + t k) = fun k => lowExt p w s k + lowExt p w t k := by
  funext k
  simp only [lowExt, low]; ring

theorem highExt_add (p w : ℤ) (s t : ℤ → ℚ) :
    highExt p w (fun k => s k + t k) = fun k => highExt p w s k + highExt p w t k := by
  funext k
  simp only [highExt, high]; split_ifs <;> ring

theorem iter_add (ps : List ℤ) : ∀ (w : ℤ) (s t : ℤ → ℚ),
    iter w ps (fun k => s k + t k) = fun k => iter w ps s k + iter w ps t k := by
  induction ps with
  | nil => intro w s t; rfl
  | cons p ps ih => intro w s t; simp only [iter]; rw [lowExt_add, ih]

/-- Symmetric extension in both directions. -/
def Per2 (h w : ℤ) (X : ℤ → ℤ → ℚ) : Prop := (∀ j, Per h fun i => X i j) ∧ ∀ i, Per w (X i)

theorem Per.rows {h : ℤ} {X : ℤ → ℤ → ℚ} (hX : ∀ j, Per h fun i => X i j) (G : (ℤ → ℚ) → ℚ) : Per h fun i => G (X i) := by
  refine ⟨fun hh => ⟨fun k => ?_, fun k => ?_⟩, fun hh k => ?_⟩
  · have : X (-k) = X k := funext fun j => ((hX j).1 hh).1 k
    simp only [this]
  · have : X (2 * (h - 1) - k) = X k := funext fun j => ((hX j).1 hh).2 k
    simp only [this]
  · have : X k = X 0 := funext fun j => (hX j).2 hh k
    simp only [this]

theorem Per.sub {w : ℤ} {s t : ℤ → ℚ} (hs : Per w s) (ht : Per w t) : Per w fun k => s k - t k := by
  refine ⟨fun hh => ⟨fun k => ?_, fun k => ?_⟩, fun hh k => ?_⟩
  · simp only [(hs.1 hh).1, (ht.1 hh).1]
  · simp only [(hs.1 hh).2, (ht.1 hh).2]
  · simp only; rw [hs.2 hh k, ht.2 hh k]

/-- What rounding adds on each level, amplified. -/
def slip : ℚ := 238 / 125 * (238 / 125) * (15 / 8)

/-- The low-pass plane after `m` levels: bounds on it and on all its further low-pass planes. -/
def Tame (m : ℕ) (A : ℚ) (h w : ℤ) (X : ℤ → ℤ → ℚ) : Prop :=
  Per2 h w X ∧ ∀ ps qs : List ℤ, (∀ p ∈ ps, p = 0 ∨ p = 1) → (∀ q ∈ qs, q = 0 ∨ q = 1) → ∀ i j,
    |iterV h ps (iterH w qs X) i j| ≤ gain (m + ps.length) * gain (m + qs.length) * A + slip * m

theorem plane_bound {B : ℚ} {h w : ℤ} {X : ℤ → ℤ → ℚ} (hX : Per2 h w X) (hB : ∀ i j, |X i j| ≤ B) {ps qs : List ℤ}
    (hps : ∀ p ∈ ps, p = 0 ∨ p = 1) (hqs : ∀ q ∈ qs, q = 0 ∨ q = 1) (i j : ℤ) :
    |iterV h ps (iterH w qs X) i j| ≤ gain ps.length * (gain qs.length * B) :=
  iter_bound (Per.rows hX.1 fun r => iter w qs r j) (fun i => iter_bound (hX.2 i) (hB i) hqs j) hps i

theorem tame_zero {A : ℚ} {h w : ℤ} {X : ℤ → ℤ → ℚ} (hX : Per2 h w X) (hB : ∀ i j, |X i j| ≤ A) : Tame 0 A h w X := by
  refine ⟨hX, fun ps qs hps hqs i j => ?_⟩
  have := plane_bound hX hB hps hqs i j
  rw [mul_assoc, Nat.zero_add, Nat.zero_add, Nat.cast_zero, mul_zero, add_zero]; exact this

theorem per2_low (p q h w : ℤ) (X : ℤ → ℤ → ℚ) : Per2 (half p h) (half q w) (lowV p h (lowH q w X)) := by
  refine ⟨fun j => lowExt_per p h _, fun i => ?_⟩
  rw [← lowH_lowV]
  exact lowExt_per q w _

theorem tame_step {m : ℕ} {A : ℚ} {h w p q : ℤ} (hp : p = 0 ∨ p = 1) (hq : q = 0 ∨ q = 1) {X X' : ℤ → ℤ → ℚ}
    (hX : Tame m A h w X) (hX' : Per2 (half p h) (half q w) X')
    (hr : ∀ i j, |X' i j - lowV p h (lowH q w X) i j| ≤ 15 / 8) : Tame (m + 1) A (half p h) (half q w) X' := by
  refine ⟨hX', fun ps qs hps hqs i j => ?_⟩
  have hP := per2_low p q h w X
  have hR : Per2 (half p h) (half q w) fun i j => X' i j - lowV p h (lowH q w X) i j :=
    ⟨fun j => (hX'.1 j).sub (hP.1 j), fun i => (hX'.2 i).sub (hP.2 i)⟩
  have e : X' = fun i j => lowV p h (lowH q w X) i j + (X' i j - lowV p h (lowH q w X) i j) := by
    funext i j; ring
  have b1 := plane_bound hR hr hps hqs i j
  have b2 := hX.2 (p :: ps) (q :: qs) (by simp only [List.mem_cons]; rintro r (rfl | hr); exacts [hp, hps r hr])
    (by simp only [List.mem_cons]; rintro r (rfl | hr); exacts [hq, hqs r hr]) i j
  have e2 : iterV h (p :: ps) (iterH w (q :: qs) X) = iterV (half p h) ps (iterH (half q w) qs (lowV p h (lowH q w X))) := by
    rw [iterH_lowV]; rfl
  have e3 : iterV (half p h) ps (iterH (half q w) qs X') i j =
      iterV (half p h) ps (iterH (half q w) qs (lowV p h (lowH q w X))) i j +
      iterV (half p h) ps (iterH (half q w) qs fun i j => X' i j - lowV p h (lowH q w X) i j) i j := by
    conv_lhs => rw [e]
    unfold iterV iterH
    simp only [iter_add]
  rw [e2] at b2
  rw [e3]
  refine le_trans (abs_add_le _ _) ?_
  have g1 := gain_le ps.length
  have g2 := gain_le qs.length
  have g3 : gain ps.length * (gain qs.length * (15 / 8)) ≤ slip := by
    unfold slip
    have : gain ps.length * gain qs.length ≤ 238 / 125 * (238 / 125) :=
      mul_le_mul g1.2 g2.2 g2.1 (by norm_num)
    linarith
  simp only [List.length_cons] at b2
  rw [show m + 1 + ps.length = m + (ps.length + 1) by ring, show m + 1 + qs.length = m + (qs.length + 1) by ring]
  push_cast
  linarith

theorem Tame.low {m : ℕ} {A : ℚ} {h w : ℤ} {X : ℤ → ℤ → ℚ} (hX : Tame m A h w X) (i j : ℤ) :
    |X i j| ≤ gain m * gain m * A + slip * m := by
  have := hX.2 [] [] (by simp) (by simp) i j
  simpa [iterV, iterH, iter] using this

/-- Low-pass one way, high-pass the other. -/
theorem Tame.mixed {m : ℕ} {A : ℚ} {h w p q : ℤ} (hp : p = 0 ∨ p = 1) (hq : q = 0 ∨ q = 1) {X : ℤ → ℤ → ℚ}
    (hX : Tame m A h w X) (i j : ℤ) :
    |lowV p h (highH q w X) i j| ≤ 2 * (gain (m + 1) * gain m * A + slip * m) ∧
      |highV p h (lowH q w X) i j| ≤ 2 * (gain (m + 1) * gain m * A + slip * m) := by
  constructor
  · rw [← highH_lowV]
    refine highExt_le (fun j => ?_) j
    have := hX.2 [p] [] (by simpa using hp) (by simp) i j
    simpa [iterV, iterH, iter, lowV] using this
  · refine highExt_le (s := fun i => lowH q w X i j) (fun i => ?_) i
    have := hX.2 [] [q] (by simp) (by simpa using hq) i j
    simp only [iterV, iterH, iter, List.length_nil, List.length_singleton, Nat.add_zero] at this
    rw [mul_comm (gain (m + 1))]; exact this

/-- Bounds on the high-pass coefficients in both directions, before rounding. -/
def highBound (A : ℚ) : ℕ → ℚ
  | 0 => 4 * A
  | 1 => 25 / 4 * A + 15 / 2
  | m + 2 => 4 * (238 / 125 * (238 / 125) * A + slip * (m + 2 : ℕ))

/-- Bounds on the band HH of the next level. -/
def TameHigh (m : ℕ) (A : ℚ) (h w : ℤ) (X : ℤ → ℤ → ℚ) : Prop :=
  ∀ p q i j, 0 ≤ 2 * i + (1 - p) → 2 * i + (1 - p) < h → 0 ≤ 2 * j + (1 - q) → 2 * j + (1 - q) < w →
    |highV p h (highH q w X) i j| ≤ highBound A m

theorem high_zero {A : ℚ} {h w : ℤ} {X : ℤ → ℤ → ℚ} (hB : ∀ i j, |X i j| ≤ A) : TameHigh 0 A h w X := by
  intro p q i j _ _ _ _
  have : |highV p h (highH q w X) i j| ≤ 2 * (2 * A) :=
    highExt_le (s := fun i => highH q w X i j) (fun i => highExt_le (hB i) j) i
  show _ ≤ 4 * A
  linarith

theorem high_step {m : ℕ} {A : ℚ} (hA : 0 ≤ A) {h w p q : ℤ} (hp : p = 0 ∨ p = 1) (hq : q = 0 ∨ q = 1) {X X' : ℤ → ℤ → ℚ}
    (hX : Tame m A h w X) (hX' : Per2 (half p h) (half q w) X')
    (hr : ∀ i j, |X' i j - lowV p h (lowH q w X) i j| ≤ 15 / 8) : TameHigh (m + 1) A (half p h) (half q w) X' := by
  intro p' q' i j hi hi' hj hj'
  match m with
  | 0 =>
    have hB : ∀ i j, |X i j| ≤ A := fun i j => by have := hX.low i j; simpa [gain] using this
    have e : X' = fun i j => lowV p h (lowH q w X) i j + (X' i j - lowV p h (lowH q w X) i j) := by
      funext i j; ring
    have e3 : highV p' (half p h) (highH q' (half q w) X') i j =
        highV p' (half p h) (highH q' (half q w) (lowV p h (lowH q w X))) i j +
        highV p' (half p h) (highH q' (half q w) fun i j => X' i j - lowV p h (lowH q w X) i j) i j := by
      conv_lhs => rw [e]
      unfold highV highH
      simp only [highExt_add]
    have b1 : |highV p' (half p h) (highH q' (half q w) fun i j => X' i j - lowV p h (lowH q w X) i j) i j| ≤
        2 * (2 * (15 / 8)) := highExt_le (s := fun i => highH q' (half q w) (fun i j => X' i j - lowV p h (lowH q w X) i j) i j)
          (fun i => highExt_le (hr i) j) i
    have b2 : |highV p' (half p h) (highH q' (half q w) (lowV p h (lowH q w X))) i j| ≤ 5 / 2 * (5 / 2 * A) := by
      rw [highH_lowV]
      refine highExt_second (x := fun i => highH q' (half q w) (lowH q w X) i j) hp ?_ (fun i => ?_) hi hi'
      · exact Per.rows hX.1.1 fun r => highExt q' (half q w) (lowExt q w r) j
      · exact highExt_second hq (hX.1.2 i) (hB i) hj hj'
    rw [e3]
    refine le_trans (abs_add_le _ _) ?_
    show _ ≤ 25 / 4 * A + 15 / 2
    linarith
  | m + 1 =>
    have hT := tame_step hp hq hX hX' hr
    have hB := hT.low
    have b : |highV p' (half p h) (highH q' (half q w) X') i j| ≤
        2 * (2 * (gain (m + 2) * gain (m + 2) * A + slip * (m + 2 : ℕ))) :=
      highExt_le (s := fun i => highH q' (half q w) X' i j) (fun i => highExt_le (hB i) j) i
    show _ ≤ 4 * (238 / 125 * (238 / 125) * A + slip * (m + 2 : ℕ))
    refine le_trans b ?_
    have g := gain_le (m + 2)
    have : gain (m + 2) * gain (m + 2) * A ≤ 238 / 125 * (238 / 125) * A :=
      mul_le_mul_of_nonneg_right (mul_le_mul g.2 g.2 g.1 (by norm_num)) hA
    linarith

end Verif.Dwt.Gain
