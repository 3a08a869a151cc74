import Verif.Tile.Step
import Mathlib.Algebra.Order.Archimedean.Basic
/-
C74: the step size in the codestream is the closest one to the step size asked for.
-/
namespace Verif.Tile

/-- The step size that exponent and mantissa stand for (as a fraction of the nominal range). -/
def stepValue (eps mu : Nat) : ℚ := (1 + mu / 2048) / 2 ^ eps

theorem packLoop_some : ∀ (n : Nat) (f : ℚ) (e : Nat) (r : Nat × ℚ), packLoop n f e = some r →
    ∃ k, r.1 = e + k ∧ r.2 = 2 ^ k * f ∧ 1 ≤ r.2 ∧ (0 < k → r.2 < 2) := by
  intro n
  induction n with
  | zero => intro f e r h; simp [packLoop] at h
  | succ n ih =>
    intro f e r h
    rw [packLoop] at h
    split_ifs at h with hf
    · obtain ⟨k, h1, h2, h3, h4⟩ := ih _ _ _ h
      refine ⟨k + 1, by omega, by rw [h2, pow_succ]; ring, h3, fun _ => ?_⟩
      rcases Nat.eq_zero_or_pos k with rfl | hk
      · rw [h2]; simp; linarith
      · exact h4 hk
    · simp only [Option.some.injEq] at h
      subst h
      exact ⟨0, rfl, by simp, by simpa using hf, by omega⟩

theorem packLoop_ends : ∀ (n : Nat) (f : ℚ) (e : Nat), 1 ≤ 2 ^ n * f → packLoop (n + 1) f e ≠ none := by
  intro n
  induction n with
  | zero => intro f e h; rw [packLoop, if_neg (by simp at h; linarith)]; simp
  | succ n ih =>
    intro f e h
    rw [packLoop]
    split_ifs
    · exact ih _ _ (by rw [pow_succ] at h; linarith)
    · simp

theorem packLoop_stuck : ∀ (n : Nat) (f : ℚ) (e : Nat), f ≤ 0 → packLoop n f e = none := by
  intro n
  induction n with
  | zero => intro f e _; rfl
  | succ n ih => intro f e h; rw [packLoop, if_pos (by linarith)]; exact ih _ _ (by linarith)

theorem round_best (x : ℚ) (k : Int) : |(⌊x + 1 / 2⌋ : ℚ) - x| ≤ |(k : ℚ) - x| := by
  have := round_le x k
  rw [round_eq] at this
  rwa [abs_sub_comm, abs_sub_comm (k : ℚ)]

/-- A step as a multiple of the unit of binade `e`, or less than that binade. -/
theorem stepValue_grid (e eps mu : Nat) (hm : mu < 2048) :
    (∃ k : Int, stepValue eps mu = k / (2048 * 2 ^ e)) ∨ stepValue eps mu < 1 / 2 ^ e := by
  rcases Nat.lt_or_ge e eps with h | h
  · right
    obtain ⟨d, rfl⟩ : ∃ d, eps = e + 1 + d := ⟨eps - e - 1, by omega⟩
    have hmu : (mu : ℚ) < 2048 := by exact_mod_cast hm
    have hp : (0 : ℚ) < 2 ^ e := by positivity
    have hd : (1 : ℚ) ≤ 2 ^ d := one_le_pow₀ (by norm_num)
    unfold stepValue
    rw [div_lt_div_iff₀ (by positivity) hp, pow_add, pow_add, pow_one, one_mul]
    have h1 : (1 + (mu : ℚ) / 2048) < 2 := by linarith
    calc (1 + (mu : ℚ) / 2048) * 2 ^ e < 2 * 2 ^ e := mul_lt_mul_of_pos_right h1 hp
      _ = 2 ^ e * 2 * 1 := by ring
      _ ≤ 2 ^ e * 2 * 2 ^ d := mul_le_mul_of_nonneg_left hd (by positivity)
  · left
    obtain ⟨d, rfl⟩ : ∃ d, e = eps + d := ⟨e - eps, by omega⟩
    refine ⟨((2048 + mu) * 2 ^ d : Nat), ?_⟩
    unfold stepValue
    push_cast
    rw [pow_add]
    field_simp

theorem stepValue_lt_two (eps mu : Nat) (hm : mu < 2048) : stepValue eps mu ≤ 4095 / 2048 := by
  have hmu : (mu : ℚ) ≤ 2047 := by exact_mod_cast (by omega : mu ≤ 2047)
  unfold stepValue
  have : (1 : ℚ) ≤ 2 ^ eps := one_le_pow₀ (by norm_num)
  rw [div_le_iff₀ (by positivity)]
  nlinarith

theorem stepValue_ge (eps mu : Nat) (he : eps ≤ 31) : 1 / 2 ^ 31 ≤ stepValue eps mu := by
  unfold stepValue
  have h1 : (2 : ℚ) ^ eps ≤ 2 ^ 31 := pow_le_pow_right₀ (by norm_num) he
  have h2 : (0 : ℚ) ≤ (mu : ℚ) / 2048 := by positivity
  rw [div_le_div_iff₀ (by positivity) (by positivity)]
  nlinarith [mul_nonneg h2 (by positivity : (0 : ℚ) ≤ 2 ^ 31)]

theorem packLoop_mono : ∀ (n m : Nat) (f : ℚ) (e : Nat) (r : Nat × ℚ), packLoop n f e = some r → n ≤ m → packLoop m f e = some r := by
  intro n
  induction n with
  | zero => intro m f e r h; simp [packLoop] at h
  | succ n ih =>
    intro m f e r h hm
    obtain ⟨m, rfl⟩ : ∃ j, m = j + 1 := ⟨m - 1, by omega⟩
    rw [packLoop] at h ⊢
    split_ifs at h ⊢
    · exact ih m _ _ _ h (by omega)
    · exact h

/-- Rounding in the binade of `f` is at least as good as any step. -/
theorem grid_best (f : ℚ) (k : Nat) (h1 : 1 ≤ 2 ^ k * f) (eps mu : Nat) (hm : mu < 2048) :
    |((2048 + ⌊(2 ^ k * f - 1) * 2048 + 1 / 2⌋ : Int) : ℚ) / (2048 * 2 ^ k) - f| ≤ |stepValue eps mu - f| := by
  have hp : (0 : ℚ) < 2 ^ k := by positivity
  have hU : (0 : ℚ) < 2048 * 2 ^ k := by positivity
  set x : ℚ := (2 ^ k * f - 1) * 2048 with hx
  have hfx : f = (x + 2048) / (2048 * 2 ^ k) := by rw [hx]; field_simp; ring
  have e1 : ∀ j : ℚ, j / (2048 * 2 ^ k) - f = ((j - 2048) - x) / (2048 * 2 ^ k) := by
    intro j
    rw [hfx, ← sub_div]; congr 1; ring
  rw [e1]
  have e2 : (((2048 + ⌊x + 1 / 2⌋ : Int) : ℚ) - 2048 - x) = (⌊x + 1 / 2⌋ : ℚ) - x := by push_cast; ring
  rw [e2, abs_div, abs_of_pos hU]
  rcases stepValue_grid k eps mu hm with ⟨j, hj⟩ | hlt
  · rw [hj, e1, abs_div, abs_of_pos hU]
    have := round_best x (j - 2048)
    push_cast at this
    exact div_le_div_of_nonneg_right this hU.le
  · have hge : 1 / 2 ^ k ≤ f := by rw [div_le_iff₀ hp]; linarith
    have hx0 : 0 ≤ x := by rw [hx]; nlinarith
    have h0 := round_best x 0
    rw [Int.cast_zero, zero_sub, abs_neg, abs_of_nonneg hx0] at h0
    calc |(⌊x + 1 / 2⌋ : ℚ) - x| / (2048 * 2 ^ k) ≤ x / (2048 * 2 ^ k) := div_le_div_of_nonneg_right h0 hU.le
      _ = f - 1 / 2 ^ k := by rw [hx]; field_simp
      _ ≤ f - stepValue eps mu := by linarith
      _ ≤ |stepValue eps mu - f| := by rw [abs_sub_comm]; exact le_abs_self _

/-- C74: for every positive step (below what an `int32_t` mantissa can take, 2^20 + 1) the function ends, the result fits its
fields, and no pair of exponent and mantissa is closer to the step asked for. -/
theorem C74_nearest (f : ℚ) (hf : 0 < f) (hm : (f - 1) * 2048 + 1 / 2 < 2 ^ 31) :
    ∃ n eps mu, (∀ fuel, n ≤ fuel → packQuantStep fuel f = some (eps, mu)) ∧ eps ≤ 31 ∧ mu ≤ 2047 ∧
      ∀ eps' mu', eps' ≤ 31 → mu' ≤ 2047 → |stepValue eps mu - f| ≤ |stepValue eps' mu' - f| := by
  obtain ⟨n, hn⟩ := pow_unbounded_of_one_lt (1 / f) (by norm_num : (1 : ℚ) < 2)
  have hn' : 1 ≤ 2 ^ n * f := by rw [div_lt_iff₀ hf] at hn; linarith
  obtain ⟨r, hr⟩ := Option.ne_none_iff_exists'.1 (packLoop_ends n f 0 hn')
  obtain ⟨k, hk1, hk2, hk3, hk4⟩ := packLoop_some _ _ _ _ hr
  obtain ⟨k', g⟩ := r
  simp only [zero_add] at hk1 hk2 hk3 hk4
  subst hk1
  have run : ∀ fuel, n + 1 ≤ fuel → packQuantStep fuel f = packFinish k' g := by
    intro fuel h
    unfold packQuantStep
    rw [packLoop_mono _ _ _ _ _ hr h]
    rfl
  have best := grid_best f k' (by rw [← hk2]; exact hk3)
  rw [← hk2] at best
  set m : Int := ⌊(g - 1) * 2048 + 1 / 2⌋ with hmdef
  have hm0 : 0 ≤ m := by rw [hmdef]; apply Int.floor_nonneg.2; linarith
  have hmle : (m : ℚ) ≤ (g - 1) * 2048 + 1 / 2 := Int.floor_le _
  have hsmall : 0 < k' → m ≤ 2048 := by
    intro h
    have := hk4 h
    have : (m : ℚ) < 2049 := by linarith
    have : m < 2049 := by exact_mod_cast this
    omega
  have hm31 : ¬ 2 ^ 31 ≤ m := by
    rcases Nat.eq_zero_or_pos k' with h | h
    · subst h
      intro hc
      have : ((2 ^ 31 : Int) : ℚ) ≤ m := by exact_mod_cast hc
      push_cast at this
      rw [hk2, pow_zero, one_mul] at hmle
      linarith
    · have := hsmall h; omega
  have low : ∀ k : Nat, 32 ≤ k → k = k' → f < 1 / 2 ^ 31 := by
    rintro k h32 rfl
    have h2 := hk4 (by omega)
    have h3 : (2 : ℚ) ^ 32 ≤ 2 ^ k := pow_le_pow_right₀ (by norm_num) h32
    rw [hk2] at h2
    rw [lt_div_iff₀ (by positivity)]
    nlinarith [mul_le_mul_of_nonneg_right h3 hf.le]
  have lowest : f < 1 / 2 ^ 31 → ∀ eps' mu', eps' ≤ 31 → mu' ≤ 2047 → |stepValue 31 0 - f| ≤ |stepValue eps' mu' - f| := by
    intro h eps' mu' he _
    have h1 := stepValue_ge eps' mu' he
    have h2 : stepValue 31 0 = 1 / 2 ^ 31 := by simp [stepValue]
    rw [h2, abs_of_nonneg (by linarith), abs_of_nonneg (by linarith)]
    linarith
  rw [show packFinish k' g = some _ from by
    unfold packFinish; simp only [← hmdef]; rw [if_neg hm31]] at run
  by_cases hA : 2048 ≤ m
  · simp only [if_pos hA] at run
    rcases Nat.eq_zero_or_pos k' with h0 | hpos
    · subst h0
      refine ⟨n + 1, 0, 2047, fun fuel h => by rw [run fuel h]; rfl, by omega, by omega, ?_⟩
      intro eps' mu' _ hmu
      have h1 := stepValue_lt_two eps' mu' (by omega)
      have h2 : stepValue 0 2047 = 4095 / 2048 := by norm_num [stepValue]
      have h3 : (2048 : ℚ) ≤ m := by exact_mod_cast hA
      rw [hk2, pow_zero, one_mul] at hmle
      rw [h2, abs_of_nonpos (by linarith), abs_of_nonpos (by linarith)]
      linarith
    · have hmeq : m = 2048 := le_antisymm (hsmall hpos) hA
      by_cases h31 : 31 < (k' : Int) - 1
      · simp only [if_pos h31] at run
        exact ⟨n + 1, 31, 0, fun fuel h => by rw [run fuel h]; rfl, by omega, by omega, lowest (low k' (by omega) rfl)⟩
      · simp only [if_neg h31] at run
        rw [if_neg (by omega)] at run
        refine ⟨n + 1, k' - 1, 0, fun fuel h => by rw [run fuel h]; simp, by omega, by omega, ?_⟩
        intro eps' mu' _ hmu
        have := best eps' mu' (by omega)
        have e : stepValue (k' - 1) 0 = ((2048 + m : Int) : ℚ) / (2048 * 2 ^ k') := by
          obtain ⟨d, rfl⟩ : ∃ d, k' = d + 1 := ⟨k' - 1, by omega⟩
          rw [hmeq]
          unfold stepValue
          rw [Nat.add_sub_cancel, pow_succ]
          push_cast
          field_simp
          norm_num
        rwa [e]
  · simp only [if_neg hA] at run
    by_cases h31 : 31 < (k' : Int)
    · simp only [if_pos h31] at run
      exact ⟨n + 1, 31, 0, fun fuel h => by rw [run fuel h]; rfl, by omega, by omega, lowest (low k' (by omega) rfl)⟩
    · simp only [if_neg h31] at run
      rw [if_neg (by omega)] at run
      refine ⟨n + 1, k', m.toNat, fun fuel h => by rw [run fuel h]; simp, by omega, by omega, ?_⟩
      intro eps' mu' _ hmu
      have := best eps' mu' (by omega)
      have e : stepValue k' m.toNat = ((2048 + m : Int) : ℚ) / (2048 * 2 ^ k') := by
        have hc : ((m.toNat : Nat) : ℚ) = (m : ℚ) := by
          have : ((m.toNat : Nat) : Int) = m := Int.toNat_of_nonneg hm0
          exact_mod_cast congrArg (fun z : Int => (z : ℚ)) this
        unfold stepValue
        rw [hc]
        push_cast
        field_simp
      rwa [e]

/-- C74: the loop ends exactly for positive numbers; for a step of zero it does not.  The
command line encoder replaces a `base_step` of zero (main_enc.cpp:172, 259), the library does not. -/
theorem C74_ends_iff (f : ℚ) : (∃ fuel r, packLoop fuel f 0 = some r) ↔ 0 < f := by
  constructor
  · rintro ⟨fuel, r, h⟩
    by_contra hc
    rw [packLoop_stuck fuel f 0 (not_lt.1 hc)] at h
    simp at h
  · intro hf
    obtain ⟨n, hn⟩ := pow_unbounded_of_one_lt (1 / f) (by norm_num : (1 : ℚ) < 2)
    obtain ⟨r, hr⟩ := Option.ne_none_iff_exists'.1 (packLoop_ends n f 0 (by rw [div_lt_iff₀ hf] at hn; linarith))
    exact ⟨_, r, hr⟩

/-- C74: the decoder recovers the step from the word, unless the exponent is 31. -/
theorem C74_decoder_step (eps mu : Nat) (he : eps ≤ 31) (hm : mu ≤ 2047) :
    deltaExp (stepWord (eps, mu)) = some (if eps = 31 then -stepValue 31 mu else stepValue eps mu) := by
  have h1 : stepWord (eps, mu) / 2048 = eps := by simp only [stepWord]; omega
  have h2 : stepWord (eps, mu) % 2048 = mu := by simp only [stepWord]; omega
  unfold deltaExp deltaOf stepValue
  rw [h1, h2]
  by_cases h : eps = 31
  · subst h
    simp only [lt_irrefl, if_false, if_true]
    congr 1
    rw [one_div, inv_neg]
    ring
  · rw [if_pos (by omega), if_neg h]
    congr 1
    ring

/-- C74: derived steps.  The exponent of level `nb` is that of LL less the levels in between; the shift is undefined exactly if
that would be negative. -/
theorem C74_derived_step (nl nb eps mu : Nat) (hn : nb ≤ nl) (hl : nl ≤ 32) (he : eps ≤ 30) (hm : mu ≤ 2047) :
    deltaDer nl nb (stepWord (eps, mu)) = if nl - nb ≤ eps then some (stepValue (eps - (nl - nb)) mu) else none := by
  have h1 : stepWord (eps, mu) / 2048 = eps := by simp only [stepWord]; omega
  have h2 : stepWord (eps, mu) % 2048 = mu := by simp only [stepWord]; omega
  unfold deltaDer
  rw [h1, h2]
  split_ifs with h
  · have e : (eps + 256 - nl + nb) % 256 = eps - (nl - nb) := by omega
    rw [e, deltaOf, if_pos (by omega), stepValue]
    congr 1
    ring
  · unfold deltaOf
    rw [if_neg (by omega), if_neg (by omega)]

/-- A step smaller than all exponents is packed with exponent 31, and its sign is lost. -/
theorem C74_smallest_step_negative : packQuantStep 50 (1 / 2 ^ 40) = some (31, 0) ∧
    deltaExp (stepWord (31, 0)) = some (-(1 / 2 ^ 31)) := by
  constructor
  · norm_num [packQuantStep, packLoop, packFinish]; rfl
  · norm_num [deltaExp, deltaOf, stepWord]

/-- 1/256 (the default for 8 bits) is packed exactly; 0.003 as 2^-9 · (1 + 1098/2048). -/
example : packQuantStep 20 (1 / 256) = some (8, 0) ∧ packQuantStep 20 (3 / 1000) = some (9, 1098) := by
  constructor
  · norm_num [packQuantStep, packLoop, packFinish]; rfl
  · norm_num [packQuantStep, packLoop, packFinish]; exact ⟨rfl, rfl⟩

/-- Two and above become the largest step. -/
example : packQuantStep 20 2 = some (0, 2047) := by
  norm_num [packQuantStep, packLoop, packFinish]; rfl

end Verif.Tile
