import Verif.Tile.Quant
import Verif.Dwt.PropsMachine
import Verif.Ht.Cleanup

/-!
# The bit-plane budget of lossless coding (C65)

`M_b` is the number of magnitude bit-planes the encoder announces for a subband.  A coefficient `x` fits when
`|x| < 2 ^ M_b`; the block coder is only correct for coefficients that fit (`Verif.Ht.C43_cleanup_round_trip`).

Full statement of C65: for every lossless image, every number of levels and every component, all coefficients fit.
This is false for 1-bit components and for components deeper than component 0 (the findings below); proved here is
what `M_b` is, and that up to one level suffices.  `PropsFits` has any number of levels, for depths that are not too
small for it; not proved is more than one level for the remaining depths.
-/

namespace Verif.Tile

theorem halvings_spec (fuel num den : Nat) (hf : 10 * num ≤ 9 * den * 2 ^ fuel) :
    10 * num ≤ 9 * den * 2 ^ halvings fuel num den ∧ ∀ j < halvings fuel num den, 9 * den * 2 ^ j < 10 * num := by
  induction fuel generalizing den with
  | zero => exact ⟨by simpa [halvings] using hf, fun j hj => by simp [halvings] at hj⟩
  | succ fuel ih =>
    rw [halvings]
    split_ifs with h
    · obtain ⟨h1, h2⟩ := ih (2 * den) (by rw [pow_succ] at hf; calc
        10 * num ≤ 9 * den * (2 ^ fuel * 2) := hf
        _ = 9 * (2 * den) * 2 ^ fuel := by ring)
      refine ⟨?_, fun j hj => ?_⟩
      · calc 10 * num ≤ _ := h1
          _ = _ := by rw [pow_succ]; ring
      · cases j with
        | zero => simpa using h
        | succ j => calc 9 * den * 2 ^ (j + 1) = 9 * (2 * den) * 2 ^ j := by rw [pow_succ]; ring
            _ < _ := h2 j (by omega)
    · exact ⟨by simpa using h, fun j hj => by omega⟩

theorem gains_length (levels : Nat) : (gains levels).length = 3 * levels + 1 := by
  unfold gains
  split_ifs with h
  · simp [h]
  · simp [List.length_flatMap, levelGains, mul_comm]

theorem gains_den (levels : Nat) : ∀ g ∈ gains levels, 0 < g.2 := by
  unfold gains
  split_ifs with h
  · simp
  · intro g hg
    simp only [List.mem_append, List.mem_flatMap, List.mem_range, levelGains, List.mem_cons,
      List.not_mem_nil, or_false] at hg
    rcases hg with ⟨a, -, hg⟩ | hg
    · rcases hg with hg | hg | hg <;> rw [hg] <;> positivity
    · rw [hg]; positivity

/-- C65, the announced budget: in every band `M_b` is the bit depth (one more with the colour transform) less one plus
the number `k` of times the gain of the band has to be halved to come down to 0.9, whatever the number of guard
bits, and the decoder derives the same number from the marker segment; provided the exponent is neither negative
nor above 31. -/
theorem C65_budget (guard levels ri ycc i : Nat) (hi : i < 3 * levels + 1) :
    ∃ num den k, (gains levels).reverse[i]? = some (num, den) ∧ 10 * num ≤ 9 * den * 2 ^ k ∧
      (∀ j < k, 9 * den * 2 ^ j < 10 * num) ∧
      (1 ≤ guard → guard ≤ 7 → guard ≤ ri + ycc + k → ri + ycc + k < 32 + guard →
        ∃ sp, (quantSteps guard levels ri ycc)[i]? = some sp ∧ magBits guard sp = ri + ycc + k - 1 ∧
          magBits guard (throughByte sp) = ri + ycc + k - 1) := by
  have hl : i < (gains levels).reverse.length := by rw [List.length_reverse, gains_length]; exact hi
  have hden := gains_den levels _ (List.mem_reverse.1 (List.getElem_mem hl))
  have hget := List.getElem?_eq_getElem hl
  generalize (gains levels).reverse[i] = g at *
  obtain ⟨num, den⟩ := g
  simp only at hden
  have hs := halvings_spec (num + 1) num den (by
    have : num < 2 ^ num := Nat.lt_two_pow_self
    have h1 : 1 * 2 ^ num ≤ den * 2 ^ num := Nat.mul_le_mul_right _ hden
    rw [pow_succ]
    calc 10 * num ≤ 18 * (1 * 2 ^ num) := by omega
      _ ≤ 18 * (den * 2 ^ num) := Nat.mul_le_mul_left _ h1
      _ = _ := by ring)
  refine ⟨num, den, _, hget, hs.1, hs.2, fun h1 h2 h3 h4 => ?_⟩
  refine ⟨epsilonRev guard ri ycc (num, den) * 8, ?_, ?_⟩
  · unfold quantSteps
    rw [List.getElem?_map, hget]; rfl
  · unfold magBits throughByte epsilonRev
    simp only
    omega

example : (quantSteps 1 2 8 0).map (magBits 1) = [9, 10, 10, 10, 9, 9, 10] := by decide +kernel

/-- C65 up to one level: for components of two bits or more (or one bit with the colour transform), every coefficient
of every image fits, in each band. -/
theorem C65_one_level_fits_partial (ri ycc guard : Nat) (hri : 2 ≤ ri + ycc) (hri' : ri + ycc < 28)
    (hg' : guard ≤ ri + ycc) (u0 v0 : Int) (hu : 0 ≤ u0) (hv : 0 ≤ v0) (w : Nat) (hw : 0 < w) (rows : List (List Int))
    (hrows : ∀ r ∈ rows, r.length = w) (hx : ∀ r ∈ rows, ∀ x ∈ r, |x| ≤ 2 ^ (ri + ycc - 1)) :
    (∀ mb ∈ (quantSteps guard 0 ri ycc).map (magBits guard), ∀ r ∈ rows, ∀ x ∈ r, |x| < 2 ^ mb) ∧
    ∃ ll d mLL mHL mLH mHH, Dwt.analyseLevels 1 u0 v0 rows = some (ll, [d]) ∧
      (quantSteps guard 1 ri ycc).map (magBits guard) = [mLL, mHL, mLH, mHH] ∧
      (∀ r ∈ ll, ∀ x ∈ r, |x| < 2 ^ mLL) ∧ (∀ r ∈ d.hl, ∀ x ∈ r, |x| < 2 ^ mHL) ∧
      (∀ r ∈ d.lh, ∀ x ∈ r, |x| < 2 ^ mLH) ∧ ∀ r ∈ d.hh, ∀ x ∈ r, |x| < 2 ^ mHH := by
  have e0 : (gains 0).reverse.map (fun g => halvings (g.1 + 1) g.1 g.2) = [1] := by decide +kernel
  have e1 : (gains 1).reverse.map (fun g => halvings (g.1 + 1) g.1 g.2) = [2, 2, 2, 3] := by decide +kernel
  have key : ∀ levels, (quantSteps guard levels ri ycc).map (magBits guard) =
      ((gains levels).reverse.map (fun g => halvings (g.1 + 1) g.1 g.2)).map fun k =>
        magBits guard ((ri + 256 - guard + ycc + k) % 256 * 8) := by
    intro levels
    simp [quantSteps, epsilonRev, Function.comp_def]
  have val : ∀ k, k ≤ 3 → 1 ≤ k → magBits guard ((ri + 256 - guard + ycc + k) % 256 * 8) = ri + ycc - 1 + k := by
    intro k h1 h2
    unfold magBits; omega
  have hA : (2 : Int) ≤ 2 ^ (ri + ycc - 1) := by
    calc (2 : Int) = 2 ^ 1 := rfl
      _ ≤ _ := pow_le_pow_right₀ (by norm_num) (by omega)
  constructor
  · intro mb hmb r hr x hx'
    rw [key, e0] at hmb
    simp only [List.map_cons, List.map_nil, List.mem_singleton] at hmb
    rw [hmb, val 1 (by omega) (by omega), pow_succ]
    have := hx r hr x hx'
    omega
  · obtain ⟨ll, ds, e, hl, h1, h2⟩ := Dwt.C64_coefficient_growth 1 u0 v0 hu hv w rows hrows (2 ^ (ri + ycc - 1))
      (by omega) hx (by
        intro l hl
        obtain rfl : l = 0 := by omega
        simp; omega)
    obtain ⟨d, rfl⟩ := List.length_eq_one_iff.1 hl
    obtain ⟨b1, b2, b3⟩ := h2 0 (by simp)
    refine ⟨ll, d, ri + ycc - 1 + 2, ri + ycc - 1 + 2, ri + ycc - 1 + 2, ri + ycc - 1 + 3, e, ?_, fun r hr x hx => ?_,
      fun r hr x hx => ?_, fun r hr x hx => ?_, fun r hr x hx => ?_⟩
    · rw [key, e1]
      simp only [List.map_cons, List.map_nil, val 2 (by omega) (by omega), val 3 (by omega) (by omega)]
    · have := h1 r hr x hx
      rw [pow_add]; omega
    · have := b1 r hr x hx
      rw [pow_add]; omega
    · have := b2 r hr x hx
      rw [pow_add]; omega
    · have := b3 r hr x hx
      rw [pow_add]; omega

/-- The hypotheses of `C65_one_level_fits_partial` are met by 8-bit samples, which can need all of the budget but one
bit. -/
example : (quantSteps 1 1 8 0).map (magBits 1) = [9, 9, 9, 10] ∧
    (Dwt.analyseLevels 1 0 0 [[-128, 127, -128], [127, -128, 127], [-128, 127, -128]]).map (·.2.map (·.hh)) =
      some [[[-510]]] := by decide +kernel

/-! ## Findings -/

/-- A 1-bit picture, after the level shift. -/
def bilevel : List (List Int) :=
  [[0, 0, -1, -1, -1, 0, -1, -1, -1], [0, 0, 0, 0, -1, 0, 0, -1, -1], [-1, -1, 0, 0, 0, -1, -1, -1, -1],
   [0, 0, 0, 0, 0, 0, -1, -1, -1], [0, 0, -1, -1, -1, -1, -1, -1, -1], [0, 0, 0, -1, -1, 0, 0, -1, -1],
   [-1, 0, 0, 0, -1, 0, -1, -1, -1], [-1, -1, 0, -1, -1, -1, 0, -1, 0], [-1, -1, -1, 0, -1, 0, 0, 0, 0]]

/-- Finding: the budget of a 1-bit component is too small.  For three levels the LL band gets two bit-planes, but the
rounding of the 5/3 filter adds up to an LL coefficient of 5. -/
theorem C65_one_bit_overflow :
    (quantSteps 1 3 1 0).head?.map (magBits 1) = some 2 ∧
    (Dwt.analyseLevels 3 0 0 bilevel).map (·.1) = some [[5, 0], [1, 1]] := by decide +kernel

/-- The block coder then does not give the coefficients back: 5 comes out as -1. -/
theorem C65_one_bit_not_lossless :
    ((Ht.encodeBlock 2 2 fun y x => (([[5, 0], [1, 1]] : List (List Int)).getD y []).getD x 0).bind fun d =>
      (Ht.decodeBlock 2 2 2 1 0 0 0 (fun _ => 0) d).map fun o => [[o 0 0, o 0 1], [o 1 0, o 1 1]]) =
      some [[-1, 0], [1, 1]] := by decide +kernel

/-- Finding: the QCD is made for the bit depth of component 0.  If component 1 is deeper, its coefficients do not fit:
with depths 8 and 12 and no transform, the sample -2048 has 12 magnitude bits, and 8 are announced. -/
theorem C65_deeper_component_overflows :
    (encoderSteps 1 0 0 [8, 12]).map (magBits 1) = [8] ∧ (2 : Int) ^ 8 ≤ |(-2048 : Int)| := by decide +kernel

/-- Finding: with more guard bits than the exponent can absorb, the subtraction wraps, and encoder and decoder derive
different numbers of bit-planes. -/
theorem C65_guard_bits_wrap :
    (quantSteps 7 1 1 0).map (magBits 7) = [2, 2, 2, 3] ∧
    (quantSteps 7 1 1 0).map (fun sp => magBits 7 (throughByte sp)) = [34, 34, 34, 35] := by decide +kernel

end Verif.Tile
