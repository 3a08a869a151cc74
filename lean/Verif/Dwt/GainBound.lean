import Verif.Dwt.GainStep

/-!
# The gain of the iterated low-pass filter is bounded, whatever the number of levels

The amplification of a signal of any length by any number of 5/3 low-pass filterings with symmetric extension and
decimation, at any parities, is at most 1.904.
-/

namespace Verif.Dwt.Gain

/-- Adjacent facets of a symmetric polygon. -/
def ring : List Facet → List (Facet × Facet)
  | [] => []
  | f :: l => (f :: l).zip (l ++ [f])

/-- `(y, z)` of the input of the first level: `|y| ≤ A`, `z = 0`. -/
def start : List (Facet × Facet) := [((1, 0, 48), (0, 1, 0))]

/-- `(y, z)` away from the borders, from the first level on. -/
def inner : List (Facet × Facet) :=
  ring [(1, -4, 89), (1, -2, 66), (1, 0, 48), (1, 1, 42), (3, 4, 126), (1, 2, 45), (1, 4, 63), (0, 1, 15)]

/-- `(y, z)` at the borders, from the first level on. -/
def border : List (Facet × Facet) := ring [(1, -4, 98), (1, -1, 64), (1, 0, 58), (3, 4, 188), (0, 1, 16)]

/-- Eight times the low-pass coefficient of the signal represented. -/
def lowTaps : List Tap := [(-3, 0, -1), (-2, -1, 4), (-1, 2, 1), (0, 6, -8), (1, 2, 1), (2, -1, 4), (3, 0, -1)]

/-- Twice the high-pass coefficient. -/
def highTaps : List Tap := [(-2, 0, -1), (-1, -1, 4), (0, 2, -6), (1, -1, 4), (2, 0, -1)]

def zones (m : ℕ) (P : ℤ → ℤ → Bool → Bool → Bool) : Bool :=
  (List.range 5).all fun a => (List.range 5).all fun t =>
    decide (a + t < m) || (P a t false false && P a t false true && P a t true false && P a t true true)

theorem zones_spec {m : ℕ} {P : ℤ → ℤ → Bool → Bool → Bool} (h : zones m P = true) {a t : ℤ} (ha0 : 0 ≤ a) (ha : a ≤ 4)
    (ht0 : 0 ≤ t) (ht : t ≤ 4) (hm : m ≤ a + t) (al be : Bool) : P a t al be = true := by
  obtain ⟨a, rfl⟩ := Int.eq_ofNat_of_zero_le ha0
  obtain ⟨t, rfl⟩ := Int.eq_ofNat_of_zero_le ht0
  have h1 := List.all_eq_true.1 h a (by simp; omega)
  have h2 := List.all_eq_true.1 h1 t (by simp; omega)
  rw [Bool.or_eq_true] at h2
  rcases h2 with h2 | h2
  · have := of_decide_eq_true h2; omega
  · simp only [Bool.and_eq_true] at h2
    obtain ⟨⟨⟨h3, h4⟩, h5⟩, h6⟩ := h2
    cases al <;> cases be <;> assumption

/-- All facets of the polygons on one level follow from those on the level before. -/
def closes (bi bb : List (Facet × Facet)) (a t : ℤ) (al be : Bool) : Bool :=
  (if a = 0 ∨ t = 0 then border else inner).all fun q =>
    check bi bb a t al be [(0, q.1.1, q.1.2.1)] (96 * q.1.2.2) &&
      check bi bb a t al be [(0, q.2.1, q.2.2.1)] (96 * q.2.2.2)

theorem wf_start : wellFormed start = true := by decide +kernel
theorem wf_inner : wellFormed inner = true := by decide +kernel
theorem wf_border : wellFormed border = true := by decide +kernel

theorem closes_start : zones 1 (closes start start) = true := by decide +kernel
theorem closes_step : zones 1 (closes inner border) = true := by decide +kernel
theorem low_step : zones 2 (fun a t al be => check inner border a t al be lowTaps 70189) = true := by decide +kernel
theorem low_start : zones 2 (fun a t al be => check start start a t al be lowTaps 59904) = true := by decide +kernel
theorem high_start : zones 1 (fun a t al be => check start start a t al be highTaps 23040) = true := by decide +kernel

end Verif.Dwt.Gain
