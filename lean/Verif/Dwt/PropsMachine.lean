import Verif.Dwt.MachineLemmas

/-!
# The reversible transform in the arithmetic of the code (C64)

`analyseLevels` and `synthesiseLevels` compute on mathematical integers.  The code computes on `float` or on
`int32_t`.  The theorems say how large the coefficients can become, and that both machine versions therefore give
the mathematical result, for samples and numbers of levels within stated limits.  `rnd` is any arithmetic that is
exact on numbers of absolute value up to `M`.
-/

namespace Verif.Dwt

deriving instance DecidableEq, Repr for Detail

/-- C64: growth.  For samples of absolute value at most `A`, after `n` levels on an image of any size at any
position, every LL coefficient `x` has `|x| + 1 ≤ (9/4)^n (A + 1)`; at detail level `l` (0 is the finest), HL and LH
coefficients have `|x| + 2 ≤ 3 (9/4)^l (A + 1)` and HH coefficients `|x| + 4 ≤ 4 (9/4)^l (A + 1)`. -/
theorem C64_coefficient_growth (n : Nat) (u0 v0 : Int) (hu : 0 ≤ u0) (hv : 0 ≤ v0) (w : Nat)
    (rows : List (List Int)) (hrows : ∀ r ∈ rows, r.length = w) (A : Int) (hA : 0 ≤ A)
    (hx : ∀ r ∈ rows, ∀ x ∈ r, |x| ≤ A)
    (hw : ∀ l < n, (u0 + 2 ^ l - 1) / 2 ^ l < (u0 + w + 2 ^ l - 1) / 2 ^ l) :
    ∃ ll ds, analyseLevels n u0 v0 rows = some (ll, ds) ∧ ds.length = n ∧
      (∀ r ∈ ll, ∀ x ∈ r, 4 ^ n * (|x| + 1) ≤ 9 ^ n * (A + 1)) ∧
      ∀ l (hl : l < ds.length), (∀ r ∈ ds[l].hl, ∀ x ∈ r, 4 ^ l * (|x| + 2) ≤ 3 * 9 ^ l * (A + 1)) ∧
        (∀ r ∈ ds[l].lh, ∀ x ∈ r, 4 ^ l * (|x| + 2) ≤ 3 * 9 ^ l * (A + 1)) ∧
        ∀ r ∈ ds[l].hh, ∀ x ∈ r, 4 ^ l * (|x| + 4) ≤ 4 * 9 ^ l * (A + 1) := by
  obtain ⟨ll, ds, e, -, -, h⟩ := levels_exact (rnd := id) (M := 8 * 9 ^ (n - 1) * (A + 1)) (fun _ _ => rfl) n hu hv hA
    hrows (fun r hr x hx' => abs_le.1 (hx r hr x hx')) hw (fun _ => by
      have h4 : (1 : Int) ≤ 4 ^ (n - 1) := one_le_pow₀ (by norm_num)
      have h9 : (0 : Int) ≤ 8 * 9 ^ (n - 1) * (A + 1) := by positivity
      nlinarith)
  exact ⟨ll, ds, e, h⟩

example : analyseLevels 1 0 0 [[9, -9, 9], [-9, 9, -9], [9, -9, 9]] = some ([[0, 0], [0, 0]],
    [⟨[[0], [0]], [[0, 0]], [[36]]⟩]) := by decide +kernel

/-- C64: exactness.  If the arithmetic is exact up to `M` and `8 (9/4)^(n-1) (A + 1) ≤ M + 6`, then `n` levels of
analysis in that arithmetic give the mathematical coefficients, and synthesis in that arithmetic gives the samples
back. -/
theorem C64_machine_exact (rnd : Int → Int) (M : Int) (hr : ∀ z, |z| ≤ M → rnd z = z) (n : Nat) (u0 v0 : Int)
    (hu : 0 ≤ u0) (hv : 0 ≤ v0) (w : Nat) (rows : List (List Int)) (hrows : ∀ r ∈ rows, r.length = w) (A : Int)
    (hA : 0 ≤ A) (hx : ∀ r ∈ rows, ∀ x ∈ r, |x| ≤ A)
    (hw : ∀ l < n, (u0 + 2 ^ l - 1) / 2 ^ l < (u0 + w + 2 ^ l - 1) / 2 ^ l)
    (hM : 8 * 9 ^ (n - 1) * (A + 1) ≤ 4 ^ (n - 1) * (M + 6)) :
    ∃ ll ds, analyseLevels n u0 v0 rows = some (ll, ds) ∧ analyseLevelsM rnd n u0 v0 rows = some (ll, ds) ∧
      synthesiseLevelsM rnd u0 v0 ll ds = some rows := by
  obtain ⟨ll, ds, e, eM, s, -⟩ := levels_exact (rnd := rnd) (M := M) (fun z hz => hr z (abs_le.2 hz)) n hu hv hA
    hrows (fun r hr x hx' => abs_le.1 (hx r hr x hx')) hw (fun _ => hM)
  exact ⟨ll, ds, e, eM, s⟩

/-- C64 for the code: for samples below `2^16` in absolute value (16-bit components, with or without the reversible
colour transform) and up to five levels, the analysis on `float` and the analysis on `int32_t` give the same,
mathematical, coefficients, and the `int32_t` synthesis of the decoder gives back the samples. -/
theorem C64_float_encoder_int_decoder (n : Nat) (hn : n ≤ 5) (u0 v0 : Int) (hu : 0 ≤ u0) (hv : 0 ≤ v0) (w : Nat)
    (rows : List (List Int)) (hrows : ∀ r ∈ rows, r.length = w) (hx : ∀ r ∈ rows, ∀ x ∈ r, |x| < 2 ^ 16)
    (hw : ∀ l < n, (u0 + 2 ^ l - 1) / 2 ^ l < (u0 + w + 2 ^ l - 1) / 2 ^ l) :
    ∃ ll ds, analyseLevels n u0 v0 rows = some (ll, ds) ∧ analyseLevelsM toFloat n u0 v0 rows = some (ll, ds) ∧
      analyseLevelsM toInt32 n u0 v0 rows = some (ll, ds) ∧ synthesiseLevelsM toInt32 u0 v0 ll ds = some rows ∧
      synthesiseLevelsM toFloat u0 v0 ll ds = some rows := by
  have hx' : ∀ r ∈ rows, ∀ x ∈ r, |x| ≤ 2 ^ 16 - 1 := fun r hr x h => by have := hx r hr x h; omega
  have hpow : (8 : Int) * 9 ^ (n - 1) * (2 ^ 16 - 1 + 1) ≤ 4 ^ (n - 1) * (2 ^ 24 + 6) := by
    have : n = 0 ∨ n = 1 ∨ n = 2 ∨ n = 3 ∨ n = 4 ∨ n = 5 := by omega
    rcases this with rfl | rfl | rfl | rfl | rfl | rfl <;> norm_num
  obtain ⟨ll, ds, e, eF, sF⟩ := C64_machine_exact toFloat (2 ^ 24) (fun z hz => toFloat_exact z (abs_le.1 hz)) n u0 v0
    hu hv w rows hrows (2 ^ 16 - 1) (by norm_num) hx' hw hpow
  obtain ⟨ll', ds', e', eI, sI⟩ := C64_machine_exact toInt32 (2 ^ 31 - 1) (fun z hz => toInt32_exact z (abs_le.1 hz))
    n u0 v0 hu hv w rows hrows (2 ^ 16 - 1) (by norm_num) hx' hw (le_trans hpow (by
      have : (0 : Int) < 4 ^ (n - 1) := by positivity
      exact mul_le_mul_of_nonneg_left (by norm_num) this.le))
  rw [e, Option.some.injEq, Prod.mk.injEq] at e'
  obtain ⟨rfl, rfl⟩ := e'
  exact ⟨ll, ds, e, eF, eI, sI, sF⟩

example : analyseLevelsM toFloat 2 3 0 [[65535, -65535, 65535, 7], [-65535, 65535, -65535, -7]] =
    some ([[0]], [⟨[[0, 0]], [[16386, -98313]], [[-262140, -196598]]⟩, ⟨[[0]], [], []⟩]) := by
  decide +kernel

/-- Finding: the limit is real.  With 25-bit samples the `float` analysis of the encoder rounds a coefficient, and the
decoder does not get the samples back; with the `int32_t` analysis it does. -/
theorem C64_float_loses_wide_samples :
    let rows := [[16777215, -16777214, 16777215, 5]]
    ((analyseLevelsM toFloat 1 0 0 rows).bind fun r => synthesiseLevelsM toInt32 0 0 r.1 r.2) =
      some [[16777215, -16777214, 16777214, 4]] ∧
    ((analyseLevelsM toInt32 1 0 0 rows).bind fun r => synthesiseLevelsM toInt32 0 0 r.1 r.2) = some rows := by
  decide +kernel

end Verif.Dwt
