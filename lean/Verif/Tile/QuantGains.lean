import Verif.Tile.Quant
import Mathlib.Algebra.BigOperators.Group.Finset.Basic
import Mathlib.Algebra.Order.BigOperators.Group.Finset
import Mathlib.Algebra.BigOperators.Ring.Finset
import Mathlib.Algebra.Order.Ring.Abs
import Mathlib.Tactic.Ring
import Mathlib.Tactic.Linarith

/-!
# Bounds on the gains of `build_quant_steps` for every number of levels
-/

namespace Verif.Tile.Gains

open Finset

/-- Tap `i` of a filter, zero outside. -/
def tap (l : List Int) (i : Int) : Int := if 0 ≤ i then l.getD i.toNat 0 else 0

theorem tap_neg (l : List Int) {i : Int} (h : i < 0) : tap l i = 0 := by
  unfold tap; rw [if_neg (by omega)]

theorem tap_nil (i : Int) : tap [] i = 0 := by unfold tap; split_ifs <;> simp

theorem tap_ge (l : List Int) {i : Int} (h : (l.length : Int) ≤ i) : tap l i = 0 := by
  unfold tap
  rw [if_pos (by omega), List.getD_eq_getElem?_getD, List.getElem?_eq_none (by omega)]; rfl

theorem tap_cons (x : Int) (l : List Int) (i : Int) : tap (x :: l) i = if i = 0 then x else tap l (i - 1) := by
  unfold tap
  by_cases h : i < 0
  · rw [if_neg (by omega), if_neg (by omega), if_neg (by omega)]
  · by_cases h0 : i = 0
    · subst h0; simp
    · rw [if_pos (by omega), if_neg h0, if_pos (by omega)]
      obtain ⟨k, hk⟩ : ∃ k : Nat, i = k + 1 := ⟨(i - 1).toNat, by omega⟩
      subst hk
      rw [show ((k : Int) + 1).toNat = k + 1 by omega, show ((k : Int) + 1 - 1).toNat = k by omega,
        List.getD_cons_succ]

theorem tap_zero_cons (l : List Int) (i : Int) : tap (0 :: l) i = tap l (i - 1) := by
  rw [tap_cons]
  split_ifs with h
  · rw [tap_neg l (by omega)]
  · rfl

theorem tap_map (x : Int) (l : List Int) (i : Int) : tap (l.map (x * ·)) i = x * tap l i := by
  induction l generalizing i with
  | nil => simp [tap_nil]
  | cons y l ih => rw [List.map_cons, tap_cons, tap_cons, ih]; split_ifs <;> rfl

theorem tap_add (a b : List Int) (i : Int) : tap (addTaps a b) i = tap a i + tap b i := by
  induction a generalizing b i with
  | nil => simp [addTaps, tap_nil]
  | cons x a ih =>
    cases b with
    | nil => simp [addTaps, tap_nil]
    | cons y b => rw [addTaps, tap_cons, tap_cons, tap_cons, ih]; split_ifs <;> rfl

theorem tap_conv_cons (x : Int) (a b : List Int) (i : Int) :
    tap (conv (x :: a) b) i = x * tap b i + tap (conv a b) (i - 1) := by
  rw [conv, tap_add, tap_map, tap_zero_cons]

theorem tap_conv_nil (b : List Int) (i : Int) : tap (conv [] b) i = 0 := tap_nil i

theorem tap_low (b : List Int) (i : Int) : tap (conv cdfL b) i =
    -tap b i + 2 * tap b (i - 1) + 6 * tap b (i - 2) + 2 * tap b (i - 3) - tap b (i - 4) := by
  unfold cdfL
  rw [tap_conv_cons, tap_conv_cons, tap_conv_cons, tap_conv_cons, tap_conv_cons, tap_conv_nil,
    show i - 1 - 1 = i - 2 by ring, show i - 2 - 1 = i - 3 by ring, show i - 3 - 1 = i - 4 by ring]
  ring

/-- The second differences of a filter. -/
def diff2 (l : List Int) : List Int := conv [1, -2, 1] l

theorem tap_diff2 (b : List Int) (i : Int) : tap (diff2 b) i = tap b i - 2 * tap b (i - 1) + tap b (i - 2) := by
  unfold diff2
  rw [tap_conv_cons, tap_conv_cons, tap_conv_cons, tap_conv_nil, show i - 1 - 1 = i - 2 by ring]
  ring

theorem tap_upsample (l : List Int) (k : Int) : tap (upsample l) (2 * k) = tap l k ∧ tap (upsample l) (2 * k + 1) = 0 := by
  induction l generalizing k with
  | nil => simp [upsample, tap_nil]
  | cons x l ih =>
    rw [upsample, tap_cons x _ (2 * k), tap_cons x _ (2 * k + 1), tap_zero_cons, tap_zero_cons, tap_cons x]
    constructor
    · by_cases h : k = 0
      · rw [if_pos (by omega), if_pos h]
      · rw [if_neg (by omega), if_neg h, show 2 * k - 1 - 1 = 2 * (k - 1) by ring, (ih _).1]
    · rw [if_neg (by omega), show 2 * k + 1 - 1 - 1 = 2 * (k - 1) + 1 by ring, (ih _).2]

/-- One iteration of the loop over the levels. -/
def next (l : List Int) : List Int := conv cdfL (upsample l)

theorem next_even (l : List Int) (k : Int) : tap (next l) (2 * k) = -tap l k + 6 * tap l (k - 1) - tap l (k - 2) := by
  unfold next
  rw [tap_low, (tap_upsample l k).1, show 2 * k - 1 = 2 * (k - 1) + 1 by ring, (tap_upsample l _).2,
    show 2 * k - 2 = 2 * (k - 1) by ring, (tap_upsample l _).1, show 2 * k - 3 = 2 * (k - 2) + 1 by ring,
    (tap_upsample l _).2, show 2 * k - 4 = 2 * (k - 2) by ring, (tap_upsample l _).1]
  ring

theorem next_odd (l : List Int) (k : Int) : tap (next l) (2 * k + 1) = 2 * tap l k + 2 * tap l (k - 1) := by
  unfold next
  rw [tap_low, (tap_upsample l k).2, show 2 * k + 1 - 1 = 2 * k by ring, (tap_upsample l _).1,
    show 2 * k + 1 - 2 = 2 * (k - 1) + 1 by ring, (tap_upsample l _).2, show 2 * k + 1 - 3 = 2 * (k - 1) by ring,
    (tap_upsample l _).1, show 2 * k + 1 - 4 = 2 * (k - 2) + 1 by ring, (tap_upsample l _).2]
  ring

/-! ## Sums -/

theorem absSum_eq (l : List Int) : ∀ N, l.length ≤ N → (absSum l : Int) = ∑ i ∈ range N, |tap l i| := by
  induction l with
  | nil => intro N _; simp [absSum, tap_nil]
  | cons x l ih =>
    intro N hN
    obtain ⟨N, rfl⟩ := Nat.exists_eq_succ_of_ne_zero (show N ≠ 0 by simp at hN; omega)
    rw [Finset.sum_range_succ']
    have h1 : ∀ i : Nat, tap (x :: l) ((i + 1 : Nat) : Int) = tap l i := by
      intro i
      rw [tap_cons, if_neg (by omega)]; congr 1; push_cast; ring
    have h2 : tap (x :: l) ((0 : Nat) : Int) = x := by rw [tap_cons]; simp
    simp only [h1, h2]
    rw [← ih N (by simp at hN; omega)]
    have : absSum (x :: l) = x.natAbs + absSum l := by simp [absSum]
    rw [this]; push_cast; rw [add_comm]

theorem sum_shift (f : Int → Int) (h : f (-1) = 0) (N : Nat) :
    ∑ i ∈ range N, |f ((i : Int) - 1)| ≤ ∑ i ∈ range N, |f i| := by
  cases N with
  | zero => simp
  | succ N =>
    rw [Finset.sum_range_succ' (fun i : Nat => |f ((i : Int) - 1)|), Finset.sum_range_succ (fun i : Nat => |f (i : Int)|)]
    have h1 : ∀ i : Nat, f (((i + 1 : Nat) : Int) - 1) = f i := by intro i; congr 1; push_cast; ring
    have h2 : f (((0 : Nat) : Int) - 1) = 0 := by simpa using h
    simp only [h1, h2, abs_zero, add_zero]
    have := abs_nonneg (f N)
    linarith

theorem sum_pairs (f : Int → Int) (N : Nat) :
    ∑ i ∈ range (2 * N), |f i| = ∑ k ∈ range N, (|f (2 * k)| + |f (2 * k + 1)|) := by
  induction N with
  | zero => simp
  | succ N ih =>
    rw [show 2 * (N + 1) = 2 * N + 1 + 1 by ring, Finset.sum_range_succ, Finset.sum_range_succ, ih, Finset.sum_range_succ]
    push_cast; ring

theorem len_add (a b : List Int) : (addTaps a b).length = max a.length b.length := by
  induction a generalizing b with
  | nil => simp [addTaps]
  | cons x a ih => cases b with
    | nil => simp [addTaps]
    | cons y b => simp [addTaps, ih]

theorem len_conv (a b : List Int) : (conv a b).length ≤ a.length + b.length := by
  induction a with
  | nil => simp [conv]
  | cons x a ih => simp only [conv, len_add, List.length_map, List.length_cons]; omega

theorem len_up (l : List Int) : (upsample l).length = 2 * l.length := by
  induction l with
  | nil => rfl
  | cons x l ih => simp only [upsample, List.length_cons, ih]; ring

theorem len_next (l : List Int) : (next l).length ≤ 2 * l.length + 5 := by
  have := len_conv cdfL (upsample l)
  rw [len_up] at this
  unfold next; simp only [cdfL, List.length_cons, List.length_nil] at *; omega

theorem len_diff2 (l : List Int) : (diff2 l).length ≤ l.length + 3 := by
  have := len_conv [1, -2, 1] l
  unfold diff2; simp only [List.length_cons, List.length_nil] at *; omega

theorem diff2_even (l : List Int) (k : Int) : tap (diff2 (next l)) (2 * k) = -(tap (diff2 l) k + tap (diff2 l) (k - 1)) := by
  rw [tap_diff2, next_even, show 2 * k - 1 = 2 * (k - 1) + 1 by ring, next_odd, show 2 * k - 2 = 2 * (k - 1) by ring,
    next_even, tap_diff2, tap_diff2]
  ring_nf

theorem diff2_odd (l : List Int) (k : Int) : tap (diff2 (next l)) (2 * k + 1) = 4 * tap (diff2 l) k := by
  rw [tap_diff2, next_odd, show 2 * k + 1 - 1 = 2 * k by ring, next_even, show 2 * k + 1 - 2 = 2 * (k - 1) + 1 by ring,
    next_odd, tap_diff2]
  ring_nf

theorem absSum_diff2_next (l : List Int) : absSum (diff2 (next l)) ≤ 6 * absSum (diff2 l) := by
  have h1 := absSum_eq (diff2 (next l)) (2 * (l.length + 4)) (by have := len_diff2 (next l); have := len_next l; omega)
  have h2 := absSum_eq (diff2 l) (l.length + 4) (by have := len_diff2 l; omega)
  rw [sum_pairs] at h1
  have h3 := sum_shift (tap (diff2 l)) (tap_neg _ (by norm_num)) (l.length + 4)
  have h4 : ∑ k ∈ range (l.length + 4), (|tap (diff2 (next l)) (2 * k)| + |tap (diff2 (next l)) (2 * k + 1)|) ≤
      ∑ k ∈ range (l.length + 4), (5 * |tap (diff2 l) k| + |tap (diff2 l) ((k : Int) - 1)|) := by
    refine Finset.sum_le_sum fun k _ => ?_
    rw [diff2_even, diff2_odd, abs_neg, abs_mul, show |(4 : Int)| = 4 by norm_num]
    have := abs_add_le (tap (diff2 l) k) (tap (diff2 l) ((k : Int) - 1))
    linarith
  simp only [Finset.sum_add_distrib, ← Finset.mul_sum] at h1 h4
  omega

theorem absSum_next (l : List Int) : absSum (next l) ≤ 8 * absSum l + absSum (diff2 l) := by
  have h1 := absSum_eq (next l) (2 * (l.length + 4)) (by have := len_next l; omega)
  have h2 := absSum_eq l (l.length + 4) (by omega)
  have h2' := absSum_eq (diff2 l) (l.length + 4) (by have := len_diff2 l; omega)
  rw [sum_pairs] at h1
  have h3 := sum_shift (tap l) (tap_neg _ (by norm_num)) (l.length + 4)
  have h4 : ∑ k ∈ range (l.length + 4), (|tap (next l) (2 * k)| + |tap (next l) (2 * k + 1)|) ≤
      ∑ k ∈ range (l.length + 4), (|tap (diff2 l) k| + (2 * |tap l k| + 6 * |tap l ((k : Int) - 1)|)) := by
    refine Finset.sum_le_sum fun k _ => ?_
    rw [next_even, next_odd, show -tap l k + 6 * tap l ((k : Int) - 1) - tap l ((k : Int) - 2) =
      4 * tap l ((k : Int) - 1) - tap (diff2 l) k by rw [tap_diff2]; ring]
    have a1 := abs_sub (4 * tap l ((k : Int) - 1)) (tap (diff2 l) k)
    have a2 := abs_add_le (2 * tap l k) (2 * tap l ((k : Int) - 1))
    rw [abs_mul, abs_mul, show |(2 : Int)| = 2 by norm_num] at a2
    rw [abs_mul, show |(4 : Int)| = 4 by norm_num] at a1
    linarith
  simp only [Finset.sum_add_distrib, ← Finset.mul_sum] at h1 h4
  omega

theorem absSum_mono (l : List Int) : 8 * absSum l ≤ absSum (next l) := by
  have h1 := absSum_eq (next l) (2 * (l.length + 4)) (by have := len_next l; omega)
  have h2 := absSum_eq l (l.length + 3) (by omega)
  rw [sum_pairs] at h1
  have h4 : ∑ k ∈ range (l.length + 4), 16 * |tap l ((k : Int) - 1)| ≤
      ∑ k ∈ range (l.length + 4), (2 * |tap (next l) (2 * k)| + (|tap (next l) (2 * k + 1)| +
        |tap (next l) (2 * ((k : Int) - 1) + 1)|)) := by
    refine Finset.sum_le_sum fun k _ => ?_
    have e : 16 * tap l ((k : Int) - 1) = 2 * tap (next l) (2 * k) + (tap (next l) (2 * k + 1) +
        tap (next l) (2 * ((k : Int) - 1) + 1)) := by
      rw [next_even, next_odd, next_odd]; ring_nf
    have a1 := abs_add_le (2 * tap (next l) (2 * k)) (tap (next l) (2 * k + 1) + tap (next l) (2 * ((k : Int) - 1) + 1))
    have a2 := abs_add_le (tap (next l) (2 * k + 1)) (tap (next l) (2 * ((k : Int) - 1) + 1))
    rw [← e, abs_mul, abs_mul, show |(2 : Int)| = 2 by norm_num, show |(16 : Int)| = 16 by norm_num] at a1
    linarith
  have h3 := sum_shift (fun k => tap (next l) (2 * k + 1)) (tap_neg _ (by norm_num)) (l.length + 4)
  have h5 : ∑ k ∈ range (l.length + 4), |tap l ((k : Int) - 1)| = absSum l := by
    rw [h2, show l.length + 4 = l.length + 3 + 1 from rfl, Finset.sum_range_succ', show tap l (((0 : Nat) : Int) - 1) = 0 from
      tap_neg _ (by norm_num), abs_zero, add_zero]
    refine Finset.sum_congr rfl fun i _ => ?_
    congr 2; push_cast; ring
  simp only [Finset.sum_add_distrib, ← Finset.mul_sum] at h1 h4
  rw [h5] at h4
  omega

/-! ## Every level -/

/-- The outputs after `n` iterations. -/
def after (l : List Int) : Nat → List Int
  | 0 => l
  | n + 1 => next (after l n)

theorem after_lower (l : List Int) (m n : Nat) : 8 ^ n * absSum (after l m) ≤ absSum (after l (m + n)) := by
  induction n with
  | zero => simp
  | succ n ih =>
    have := absSum_mono (after l (m + n))
    show _ ≤ absSum (next (after l (m + n)))
    rw [pow_succ]; nlinarith

theorem after_upper (l : List Int) (m n : Nat) :
    2 * absSum (after l (m + n)) + absSum (diff2 (after l (m + n))) ≤
      8 ^ n * (2 * absSum (after l m) + absSum (diff2 (after l m))) := by
  induction n with
  | zero => simp
  | succ n ih =>
    have h1 := absSum_next (after l (m + n))
    have h2 := absSum_diff2_next (after l (m + n))
    show 2 * absSum (next (after l (m + n))) + absSum (diff2 (next (after l (m + n)))) ≤ _
    rw [pow_succ]; nlinarith

end Verif.Tile.Gains
