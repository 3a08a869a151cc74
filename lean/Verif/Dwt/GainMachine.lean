import Verif.Dwt.FilterLemmas
import Mathlib.Tactic.LinearCombination
import Mathlib.Tactic.FieldSimp
import Mathlib.Algebra.Order.Field.Rat

/-!
# A checker for bounds on linear functionals of the low-pass channel

Not part of the model of the code: the proof device behind `Verif.Dwt.Gain`.  A signal `x` on one level is written
`x k = y k + z (k-1) - 2 z k + z (k+1)`.  A linear functional of `(y, z)` around a position is a list of taps
`(k, r, s)`, standing for `r * y (o + k) + s * z (o + k)`.  The checker carries such a functional from one level to the
next finer one, folds it at the borders of the signal, and bounds it by facets of the polygons known to hold `(y, z)`.
-/

namespace Verif.Dwt.Gain

/-- Offset from the position looked at, weight of `y` and weight of `z`. -/
abbrev Tap := ℤ × ℤ × ℤ

/-- The value of a functional at position `o`. -/
def ev (y z : ℤ → ℚ) (o : ℤ) : List Tap → ℚ
  | [] => 0
  | e :: l => (e.2.1 * y (o + e.1) + e.2.2 * z (o + e.1)) + ev y z o l

theorem ev_append (y z : ℤ → ℚ) (o : ℤ) (l m : List Tap) : ev y z o (l ++ m) = ev y z o l + ev y z o m := by
  induction l with
  | nil => simp [ev]
  | cons e l ih => simp only [List.cons_append, ev, ih]; ring

/-- Fold an offset into `[-a, t]`. -/
def fold (a t i : ℤ) : ℤ :=
  let i := if t < i then 2 * t - i else i
  let i := if i < -a then -2 * a - i else i
  if t < i then 2 * t - i else i

/-- One coarse tap as fine taps, times 8. -/
def spread (e : Tap) : List Tap :=
  [(2 * e.1, 4 * e.2.1 - e.2.2, 4 * e.2.2), (2 * e.1 - 1, 2 * e.2.1, -e.2.2), (2 * e.1 + 1, 2 * e.2.1, -e.2.2)]

/-- The same with the corrections at the borders. -/
def expand (a t : ℤ) (al be : Bool) (e : Tap) : List Tap :=
  spread e ++ ((if e.1 = -a ∧ al = true then spread (e.1, 0, e.2.1) ++ spread (e.1 + 1, 0, -e.2.1) else []) ++
    (if e.1 = t ∧ be = true then spread (e.1, 0, e.2.1) ++ spread (e.1 - 1, 0, -e.2.1) else []))

/-- Add a tap to a list with one tap for each offset. -/
def ins (e : Tap) : List Tap → List Tap
  | [] => [e]
  | f :: l => if e.1 = f.1 then (f.1, e.2.1 + f.2.1, e.2.2 + f.2.2) :: l else f :: ins e l

def merge : List Tap → List Tap
  | [] => []
  | e :: l => ins e (merge l)

def foldTaps (a t : ℤ) (l : List Tap) : List Tap := l.map fun e => (fold a t e.1, e.2)

/-- `1` if set. -/
def bit (b : Bool) : ℤ := if b then 1 else 0

/-- The functional on the next finer level. -/
def pull (a t : ℤ) (al be : Bool) (f : List Tap) : List Tap :=
  merge (foldTaps (2 * a + bit al) (2 * t + bit be) ((foldTaps a t f).flatMap (expand a t al be)))

/-- A facet `(r, s, c)`: `48 * |r y + s z| ≤ c A`. -/
abbrev Facet := ℤ × ℤ × ℤ

/-- Twelve times the bound of `48 |r y + s z|` given by two facets. -/
def pairBound (r s : ℤ) (f g : Facet) : ℤ :=
  (|r * g.2.1 - s * g.1| * f.2.2 + |f.1 * s - f.2.1 * r| * g.2.2) * (12 / |f.1 * g.2.1 - f.2.1 * g.1|)

/-- The least bound given by the pairs of a body. -/
def hval (r s : ℤ) : List (Facet × Facet) → ℤ
  | [] => 0
  | [q] => pairBound r s q.1 q.2
  | q :: q' :: l => min (pairBound r s q.1 q.2) (hval r s (q' :: l))

def wellFormed (b : List (Facet × Facet)) : Bool :=
  !b.isEmpty && b.all fun q =>
    q.1.1 * q.2.2.1 - q.1.2.1 * q.2.1 != 0 &&
      12 % |q.1.1 * q.2.2.1 - q.1.2.1 * q.2.1| == 0

/-- `(y, z)` is in the body, scaled by `A`. -/
def In (b : List (Facet × Facet)) (A y z : ℚ) : Prop :=
  ∀ q ∈ b, |q.1.1 * y + q.1.2.1 * z| * 48 ≤ q.1.2.2 * A ∧ |q.2.1 * y + q.2.2.1 * z| * 48 ≤ q.2.2.2 * A

theorem pairBound_spec {r s : ℤ} {f g : Facet} {A y z : ℚ} (hd : f.1 * g.2.1 - f.2.1 * g.1 ≠ 0)
    (h12 : 12 % |f.1 * g.2.1 - f.2.1 * g.1| = 0) (hf : |f.1 * y + f.2.1 * z| * 48 ≤ f.2.2 * A)
    (hg : |g.1 * y + g.2.1 * z| * 48 ≤ g.2.2 * A) : |r * y + s * z| * 576 ≤ pairBound r s f g * A := by
  obtain ⟨f1, f2, f3⟩ := f
  obtain ⟨g1, g2, g3⟩ := g
  simp only at hd h12 hf hg
  unfold pairBound
  simp only
  obtain ⟨m, hm⟩ := Int.dvd_of_emod_eq_zero h12
  have hD : (0 : ℤ) < |f1 * g2 - f2 * g1| := abs_pos.2 hd
  have hdiv : (12 : ℤ) / |f1 * g2 - f2 * g1| = m := by
    rw [hm]; exact Int.mul_ediv_cancel_left _ hD.ne'
  rw [hdiv]
  have hmpos : 0 ≤ m := by
    by_contra h
    have : |f1 * g2 - f2 * g1| * m < 0 := mul_neg_of_pos_of_neg hD (by omega)
    omega
  have hmQ : ((|f1 * g2 - f2 * g1| : ℤ) : ℚ) * m = 12 := by exact_mod_cast hm.symm
  have key : (f1 * g2 - f2 * g1 : ℚ) * (r * y + s * z) =
      (r * g2 - s * g1) * (f1 * y + f2 * z) + (f1 * s - f2 * r) * (g1 * y + g2 * z) := by ring
  have h1 : |(f1 * g2 - f2 * g1 : ℚ)| * |(r * y + s * z : ℚ)| ≤
      |(r * g2 - s * g1 : ℚ)| * |(f1 * y + f2 * z : ℚ)| + |(f1 * s - f2 * r : ℚ)| * |(g1 * y + g2 * z : ℚ)| := by
    rw [← abs_mul, key, ← abs_mul, ← abs_mul]; exact abs_add_le _ _
  have h2 := mul_le_mul_of_nonneg_left hf (abs_nonneg (r * g2 - s * g1 : ℚ))
  have h3 := mul_le_mul_of_nonneg_left hg (abs_nonneg (f1 * s - f2 * r : ℚ))
  have hm0 : (0 : ℚ) ≤ m := by exact_mod_cast hmpos
  push_cast at hmQ ⊢
  have h4 : (|(f1 * g2 - f2 * g1 : ℚ)| * |(r * y + s * z : ℚ)|) * 48 ≤
      |(r * g2 - s * g1 : ℚ)| * (f3 * A) + |(f1 * s - f2 * r : ℚ)| * (g3 * A) := by nlinarith [h1, h2, h3]
  have h5 := mul_le_mul_of_nonneg_right h4 hm0
  calc |(r * y + s * z : ℚ)| * 576 = (|(f1 * g2 - f2 * g1 : ℚ)| * m) * |(r * y + s * z : ℚ)| * 48 := by rw [hmQ]; ring
    _ ≤ _ := by linarith

theorem hval_spec {b : List (Facet × Facet)} (hb : wellFormed b = true) {A y z : ℚ} (h : In b A y z)
    (r s : ℤ) : |r * y + s * z| * 576 ≤ hval r s b * A := by
  unfold wellFormed at hb
  rw [Bool.and_eq_true] at hb
  obtain ⟨hne, hall⟩ := hb
  have one : ∀ q ∈ b, |r * y + s * z| * 576 ≤ pairBound r s q.1 q.2 * A := by
    intro q hq
    have := List.all_eq_true.1 hall q hq
    simp only [Bool.and_eq_true, bne_iff_ne, beq_iff_eq] at this
    exact pairBound_spec this.1 this.2 (h q hq).1 (h q hq).2
  clear hall h
  induction b with
  | nil => simp at hne
  | cons q l ih =>
    cases l with
    | nil => exact one q (by simp)
    | cons q' l =>
      unfold hval
      rcases min_choice (pairBound r s q.1 q.2) (hval r s (q' :: l)) with e | e <;> rw [e]
      · exact one q (by simp)
      · exact ih (by simp) (fun x hx => one x (List.mem_cons_of_mem _ hx))

/-- Bound of a folded functional; the offsets `-A` and `T` are the borders. -/
def total (bi bb : List (Facet × Facet)) (a t : ℤ) : List Tap → ℤ
  | [] => 0
  | e :: l => hval e.2.1 e.2.2 (if e.1 = -a ∨ e.1 = t then bb else bi) + total bi bb a t l

def within (a t m : ℤ) (l : List Tap) : Bool :=
  l.all fun e => decide (-a ≤ e.1 ∧ e.1 ≤ t ∧ -m ≤ e.1 ∧ e.1 ≤ m)

def near (m : ℤ) (l : List Tap) : Bool := l.all fun e => decide (-m ≤ e.1 ∧ e.1 ≤ m)

/-- The functional `f` at a position `a` from the left border and `t` from the right border (4 for 4 or more) is at
most `lim / 4608` times `A`. -/
def check (bi bb : List (Facet × Facet)) (a t : ℤ) (al be : Bool) (f : List Tap) (lim : ℤ) : Bool :=
  near 3 f && within a t 3 (foldTaps a t f) && near 7 ((foldTaps a t f).flatMap (expand a t al be)) &&
    within (2 * a + bit al) (2 * t + bit be) 7 (pull a t al be f) &&
    decide (total bi bb (2 * a + bit al) (2 * t + bit be) (pull a t al be f) ≤ lim)

/-! ## Soundness -/

theorem ev_ins (y z : ℤ → ℚ) (o : ℤ) (e : Tap) (l : List Tap) :
    ev y z o (ins e l) = (e.2.1 * y (o + e.1) + e.2.2 * z (o + e.1)) + ev y z o l := by
  induction l with
  | nil => simp [ins, ev]
  | cons f l ih =>
    unfold ins
    split_ifs with h
    · simp only [ev]; rw [h]; push_cast; ring
    · simp only [ev, ih]; ring

theorem ev_merge (y z : ℤ → ℚ) (o : ℤ) (l : List Tap) : ev y z o (merge l) = ev y z o l := by
  induction l with
  | nil => rfl
  | cons e l ih => rw [merge, ev_ins, ih]; rfl

theorem fold_eq {α : Type} {y : ℤ → α} {o a t m i : ℤ} (hm : -m ≤ i ∧ i ≤ m) (ha0 : 0 ≤ a) (ht0 : 0 ≤ t)
    (hl : a < m → ∀ k, y (2 * (o - a) - k) = y k) (hr : t < m → ∀ k, y (2 * (o + t) - k) = y k) :
    y (o + fold a t i) = y (o + i) := by
  have s1 : ∀ i, -m ≤ i → i ≤ m → y (o + (if t < i then 2 * t - i else i)) = y (o + i) := by
    intro i h1 h2
    split_ifs with h
    · rw [← hr (by omega) (o + i)]; congr 1; ring
    · rfl
  have s2 : ∀ i, -m ≤ i → i ≤ m → y (o + (if i < -a then -2 * a - i else i)) = y (o + i) := by
    intro i h1 h2
    split_ifs with h
    · rw [← hl (by omega) (o + i)]; congr 1; ring
    · rfl
  unfold fold
  simp only
  have b1 : -m ≤ (if t < i then 2 * t - i else i) ∧ (if t < i then 2 * t - i else i) ≤ m := by
    split_ifs <;> omega
  generalize e1 : (if t < i then 2 * t - i else i) = i1 at *
  have b2 : -m ≤ (if i1 < -a then -2 * a - i1 else i1) ∧ (if i1 < -a then -2 * a - i1 else i1) ≤ m := by
    split_ifs <;> omega
  generalize e2 : (if i1 < -a then -2 * a - i1 else i1) = i2 at *
  rw [s1 i2 b2.1 b2.2, ← e2, s2 i1 b1.1 b1.2, ← e1, s1 i hm.1 hm.2]

theorem ev_foldTaps {y z : ℤ → ℚ} {o a t m : ℤ} {l : List Tap} (hn : near m l = true) (ha0 : 0 ≤ a) (ht0 : 0 ≤ t)
    (hl : a < m → ∀ k, y (2 * (o - a) - k) = y k) (hr : t < m → ∀ k, y (2 * (o + t) - k) = y k)
    (hl' : a < m → ∀ k, z (2 * (o - a) - k) = z k) (hr' : t < m → ∀ k, z (2 * (o + t) - k) = z k) :
    ev y z o (foldTaps a t l) = ev y z o l := by
  induction l with
  | nil => rfl
  | cons e l ih =>
    unfold near at hn
    rw [List.all_cons, Bool.and_eq_true] at hn
    have hi := of_decide_eq_true hn.1
    have := ih hn.2
    unfold foldTaps at this ⊢
    rw [List.map_cons, ev, ev, this]
    simp only
    rw [fold_eq hi ha0 ht0 hl hr, fold_eq hi ha0 ht0 hl' hr']

theorem total_spec {bi bb : List (Facet × Facet)} (hbi : wellFormed bi = true) (hbb : wellFormed bb = true) {A : ℚ}
    {y z : ℤ → ℚ} {o a t m : ℤ} {l : List Tap} (hw : within a t m l = true)
    (h1 : ∀ k, -a ≤ k → k ≤ t → -m ≤ k → k ≤ m → k = -a ∨ k = t → In bb A (y (o + k)) (z (o + k)))
    (h2 : ∀ k, -a < k → k < t → -m ≤ k → k ≤ m → In bi A (y (o + k)) (z (o + k))) :
    |ev y z o l| * 576 ≤ total bi bb a t l * A := by
  induction l with
  | nil => simp [ev, total]
  | cons e l ih =>
    unfold within at hw
    rw [List.all_cons, Bool.and_eq_true] at hw
    have hi := of_decide_eq_true hw.1
    have ih := ih hw.2
    rw [ev, total]
    have : |e.2.1 * y (o + e.1) + e.2.2 * z (o + e.1)| * 576 ≤
        hval e.2.1 e.2.2 (if e.1 = -a ∨ e.1 = t then bb else bi) * A := by
      split_ifs with h
      · exact hval_spec hbb (h1 _ hi.1 hi.2.1 hi.2.2.1 hi.2.2.2 h) _ _
      · exact hval_spec hbi (h2 _ (by omega) (by omega) hi.2.2.1 hi.2.2.2) _ _
    have h3 := abs_add_le (e.2.1 * y (o + e.1) + e.2.2 * z (o + e.1)) (ev y z o l)
    push_cast
    linarith

end Verif.Dwt.Gain
