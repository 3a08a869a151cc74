import Verif.Dwt.GainTower
import Verif.Dwt.PropsMachine

/-!
# Growth of the coefficients that does not depend on the number of levels (C69)

The growth theorem of C64 multiplies the bound by 9/4 on each level.  In fact the low-pass planes stay below 3.63 times
the largest sample plus 6.8 for each level of rounding, whatever the number of levels, the size and the position.
-/

namespace Verif.Dwt

/-- C69: growth.  For samples of absolute value at most `A`, after any number `n` of levels on an image of any size at
any position, every LL coefficient has `|x| ≤ 3.63 A + 6.8 n`; at detail level `l` (0 is the finest) HL and LH
coefficients have `|x| ≤ 7.26 A + 13.6 l + 2` and HH coefficients `|x| ≤ 14.52 A + 27.2 l + 1.5`. -/
theorem C69_bounded_growth (n : Nat) (u0 v0 : Int) (hu : 0 ≤ u0) (hv : 0 ≤ v0) (w : Nat)
    (rows : List (List Int)) (hrows : ∀ r ∈ rows, r.length = w) (A : Int) (hA : 0 ≤ A)
    (hx : ∀ r ∈ rows, ∀ x ∈ r, |x| ≤ A)
    (hw : ∀ l < n, (u0 + 2 ^ l - 1) / 2 ^ l < (u0 + w + 2 ^ l - 1) / 2 ^ l) :
    ∃ ll ds, analyseLevels n u0 v0 rows = some (ll, ds) ∧ ds.length = n ∧
      (∀ r ∈ ll, ∀ x ∈ r, 100 * |x| ≤ 363 * A + 680 * n) ∧
      ∀ l (hl : l < ds.length), (∀ r ∈ ds[l].hl, ∀ x ∈ r, 100 * |x| ≤ 726 * A + 1360 * l + 200) ∧
        (∀ r ∈ ds[l].lh, ∀ x ∈ r, 100 * |x| ≤ 726 * A + 1360 * l + 200) ∧
        ∀ r ∈ ds[l].hh, ∀ x ∈ r, 100 * |x| ≤ 1452 * A + 2720 * l + 150 := by
  have hAQ : (0 : ℚ) ≤ A := by exact_mod_cast hA
  obtain ⟨ll, ds, e, ld, bl, bd⟩ := Gain.tower hAQ n hu hv hrows
    (Gain.calm_zero hrows fun r hr x hx' => by exact_mod_cast hx r hr x hx') hw
  have hsl : ∀ k : ℕ, Gain.slip * k ≤ 34 / 5 * k := fun k =>
    mul_le_mul_of_nonneg_right (by norm_num [Gain.slip]) (by positivity)
  have hsq : ∀ a b : ℕ, Gain.gain a * Gain.gain b * (A : ℚ) ≤ 363 / 100 * A := fun a b => by
    refine mul_le_mul_of_nonneg_right (le_trans (mul_le_mul (Gain.gain_le a).2 (Gain.gain_le b).2 (Gain.gain_le b).1
      (by norm_num)) (by norm_num)) hAQ
  refine ⟨ll, ds, e, ld, fun r hr x hx => ?_, fun l hl => ⟨fun r hr x hx => ?_, fun r hr x hx => ?_, fun r hr x hx => ?_⟩⟩
  · have h1 := bl r hr x hx
    have h2 := hsq (0 + n) (0 + n)
    have h3 := hsl (0 + n)
    rw [Nat.zero_add] at h1 h2 h3
    have : 100 * |(x : ℚ)| ≤ 363 * A + 680 * n := by linarith
    exact_mod_cast this
  · have h1 := (bd l hl).1 r hr x hx
    have h2 := hsq (0 + l + 1) (0 + l)
    have h3 := hsl (0 + l)
    rw [Nat.zero_add] at h1 h2 h3
    have : 100 * |(x : ℚ)| ≤ 726 * A + 1360 * l + 200 := by linarith
    exact_mod_cast this
  · have h1 := (bd l hl).2.1 r hr x hx
    have h2 := hsq (0 + l + 1) (0 + l)
    have h3 := hsl (0 + l)
    rw [Nat.zero_add] at h1 h2 h3
    have : 100 * |(x : ℚ)| ≤ 726 * A + 1360 * l + 200 := by linarith
    exact_mod_cast this
  · have h1 := (bd l hl).2.2 r hr x hx
    rw [Nat.zero_add] at h1
    have h2 : Gain.highBound A l ≤ 1452 / 100 * A + 2720 / 100 * l := by
      match l with
      | 0 => show 4 * (A : ℚ) ≤ _; push_cast; linarith
      | 1 => show 25 / 4 * (A : ℚ) + 15 / 2 ≤ _; push_cast; linarith
      | k + 2 =>
        show 4 * (238 / 125 * (238 / 125) * (A : ℚ) + Gain.slip * (k + 2 : ℕ)) ≤ _
        have := hsl (k + 2)
        linarith
    have : 100 * |(x : ℚ)| ≤ 1452 * A + 2720 * l + 150 := by linarith
    exact_mod_cast this

/-- Two levels of a 7x7 picture bring samples of 100 to 265. -/
example : (analyseLevels 2 0 0 ([1, 1, 1, 1, -1, -1, 1].map fun a : Int => [1, 1, 1, 1, -1, -1, 1].map fun b : Int =>
    100 * a * b)).map (·.1) = some [[265, -50], [-50, 10]] := by decide +kernel

/-- C69: exactness.  If the arithmetic is exact up to `M` and `8 (3.63 A + 6.8 n) + 2 ≤ M`, then `n` levels of
analysis in that arithmetic give the mathematical coefficients, and synthesis in that arithmetic gives the samples
back. -/
theorem C69_machine_exact (rnd : Int → Int) (M : Int) (hr : ∀ z, |z| ≤ M → rnd z = z) (n : Nat) (u0 v0 : Int)
    (hu : 0 ≤ u0) (hv : 0 ≤ v0) (w : Nat) (rows : List (List Int)) (hrows : ∀ r ∈ rows, r.length = w) (A : Int)
    (hA : 0 ≤ A) (hx : ∀ r ∈ rows, ∀ x ∈ r, |x| ≤ A)
    (hw : ∀ l < n, (u0 + 2 ^ l - 1) / 2 ^ l < (u0 + w + 2 ^ l - 1) / 2 ^ l)
    (hM : 8 * (363 * A + 680 * n) + 200 ≤ 100 * M) :
    ∃ ll ds, analyseLevels n u0 v0 rows = some (ll, ds) ∧ analyseLevelsM rnd n u0 v0 rows = some (ll, ds) ∧
      synthesiseLevelsM rnd u0 v0 ll ds = some rows := by
  have hAQ : (0 : ℚ) ≤ A := by exact_mod_cast hA
  refine Gain.tower_exact (fun z hz => hr z (abs_le.2 hz)) hAQ n hu hv hrows
    (Gain.calm_zero hrows fun r hr x hx' => by exact_mod_cast hx r hr x hx') hw ?_
  have h1 : (8 * (363 * A + 680 * n) + 200 : ℚ) ≤ 100 * M := by exact_mod_cast hM
  have h2 : Gain.slip * ((0 + n - 1 : ℕ) : ℚ) ≤ 34 / 5 * n := by
    refine mul_le_mul (by norm_num [Gain.slip]) (by exact_mod_cast (by omega)) (by positivity) (by norm_num)
  have h3 : (238 / 125 * (238 / 125) * A : ℚ) ≤ 363 / 100 * A := mul_le_mul_of_nonneg_right (by norm_num) hAQ
  linarith

/-- C69 for the code: for samples of at most `2^19` in absolute value and any number of levels the standard allows,
the analysis on `float` and the analysis on `int32_t` give the same, mathematical, coefficients, and synthesis on
either gives back the samples.  `C64_float_encoder_int_decoder` had this for 16 bits and five levels. -/
theorem C69_float_encoder_int_decoder (n : Nat) (hn : n ≤ 32) (u0 v0 : Int) (hu : 0 ≤ u0) (hv : 0 ≤ v0) (w : Nat)
    (rows : List (List Int)) (hrows : ∀ r ∈ rows, r.length = w) (hx : ∀ r ∈ rows, ∀ x ∈ r, |x| ≤ 2 ^ 19)
    (hw : ∀ l < n, (u0 + 2 ^ l - 1) / 2 ^ l < (u0 + w + 2 ^ l - 1) / 2 ^ l) :
    ∃ ll ds, analyseLevels n u0 v0 rows = some (ll, ds) ∧ analyseLevelsM toFloat n u0 v0 rows = some (ll, ds) ∧
      analyseLevelsM toInt32 n u0 v0 rows = some (ll, ds) ∧ synthesiseLevelsM toInt32 u0 v0 ll ds = some rows ∧
      synthesiseLevelsM toFloat u0 v0 ll ds = some rows := by
  obtain ⟨ll, ds, e, eF, sF⟩ := C69_machine_exact toFloat (2 ^ 24) (fun z hz => toFloat_exact z (abs_le.1 hz)) n u0 v0
    hu hv w rows hrows (2 ^ 19) (by norm_num) hx hw (by norm_num; omega)
  obtain ⟨ll', ds', e', eI, sI⟩ := C69_machine_exact toInt32 (2 ^ 31 - 1) (fun z hz => toInt32_exact z (abs_le.1 hz))
    n u0 v0 hu hv w rows hrows (2 ^ 19) (by norm_num) hx hw (by norm_num; omega)
  rw [e, Option.some.injEq, Prod.mk.injEq] at e'
  obtain ⟨rfl, rfl⟩ := e'
  exact ⟨ll, ds, e, eF, eI, sI, sF⟩

/-- The hypotheses are met, with the largest samples, by a row that becomes a single coefficient on the third level and
stays one up to the thirty-second. -/
example : (∀ l < 32, ((0 : Int) + 2 ^ l - 1) / 2 ^ l < (0 + (5 : Nat) + 2 ^ l - 1) / 2 ^ l) ∧
    (analyseLevelsM toFloat 32 0 0 [[524288, -524288, 524288, -524288, 524288]]).map (·.1) = some [[0]] := by
  decide +kernel

end Verif.Dwt
