import Verif.Dwt.GainBound

/-!
# Bounds on the iterated low-pass filter, in one and two dimensions
-/

namespace Verif.Dwt.Gain

/-- The symmetric extension of a signal of `w` samples; of at most one sample: a constant. -/
def Per (w : ℤ) (s : ℤ → ℚ) : Prop := (2 ≤ w → Sym w s) ∧ (w ≤ 1 → ∀ k, s k = s 0)

theorem per_mir (w : ℤ) (f : ℤ → ℚ) : Per w fun k => f (mir w k) := by
  refine ⟨fun h => ?_, fun h k => ?_⟩
  · have := sym_mirror h f
    simpa only [mir, if_neg (show ¬ w ≤ 1 by omega)] using this
  · simp only [mir, if_pos h]

theorem lowExt_per (p w : ℤ) (s : ℤ → ℚ) : Per (half p w) (lowExt p w s) := per_mir _ _

theorem low_le {p : ℤ} {s : ℤ → ℚ} {C : ℚ} (h : ∀ k, |s k| ≤ C) (j : ℤ) : |low p s j| ≤ 3 / 2 * C := by
  have h0 := abs_le.1 (h (2 * j + p)); have h1 := abs_le.1 (h (2 * j + p - 1)); have h2 := abs_le.1 (h (2 * j + p + 1))
  have h3 := abs_le.1 (h (2 * j + p - 2)); have h4 := abs_le.1 (h (2 * j + p + 2))
  unfold low
  rw [abs_le]; constructor <;> linarith

/-- With a single low-pass coefficient there is no amplification. -/
theorem flat {p w : ℤ} (hp : p = 0 ∨ p = 1) (hw : half p w ≤ 1) {s : ℤ → ℚ} (hs : Per w s) {C : ℚ} (h : ∀ k, |s k| ≤ C)
    (k : ℤ) : |lowExt p w s k| ≤ C := by
  unfold lowExt mir
  rw [if_pos hw]
  by_cases h1 : w ≤ 1
  · have : low p s 0 = s 0 := by
      have e := hs.2 h1
      unfold low
      rw [e (2 * 0 + p), e (2 * 0 + p - 1), e (2 * 0 + p + 1), e (2 * 0 + p - 2), e (2 * 0 + p + 2)]
      ring
    rw [this]; exact h 0
  · have hsym := hs.1 (by omega)
    unfold half at hw
    have c0 := abs_le.1 (h 0); have c1 := abs_le.1 (h 1); have c2 := abs_le.1 (h 2)
    rcases hp with rfl | rfl
    · obtain rfl : w = 2 := by omega
      have a1 := hsym.1 1; have a2 := hsym.1 2; have a3 := hsym.2 0
      norm_num at a3
      unfold low
      norm_num
      rw [a1, a2, a3, abs_le]; constructor <;> linarith
    · have hw' : w = 2 ∨ w = 3 := by omega
      rcases hw' with rfl | rfl
      · have a1 := hsym.1 1; have a2 := hsym.2 0; have a3 := hsym.2 (-1)
        norm_num at a2 a3
        unfold low
        norm_num
        rw [a3, a2, a1, abs_le]; constructor <;> linarith
      · have a1 := hsym.1 1; have a2 := hsym.2 1
        norm_num at a2
        unfold low
        norm_num
        rw [a2, a1, abs_le]; constructor <;> linarith

/-- A signal of two or more samples has a representation in the polygons. -/
def Rep (A : ℚ) (w : ℤ) (x : ℤ → ℚ) : Prop :=
  2 ≤ w → ∃ y z, Sym w y ∧ Sym w z ∧ (∀ k, x k = y k + z (k - 1) - 2 * z k + z (k + 1)) ∧ Held inner border A w y z

theorem held_step {bi bb : List (Facet × Facet)} (hbi : wellFormed bi = true) (hbb : wellFormed bb = true) {A : ℚ}
    (hA : 0 ≤ A) {p w : ℤ} (hp : p = 0 ∨ p = 1) (hw : 2 ≤ half p w) {y z : ℤ → ℚ} (hy : Sym w y) (hz : Sym w z)
    (hh : Held bi bb A w y z) (hc : zones 1 (closes bi bb) = true) :
    Held inner border A (half p w) (nextY p w y z) (nextZ p w y z) := by
  intro k h0 h1
  have hz1 := zones_spec hc (a := min k 4) (t := min (half p w - 1 - k) 4) (by omega) (by omega) (by omega) (by omega)
    (by omega) (decide (p = 1)) (endsHigh p w)
  unfold closes at hz1
  rw [List.all_eq_true] at hz1
  have key : ∀ q ∈ (if min k 4 = 0 ∨ min (half p w - 1 - k) 4 = 0 then border else inner),
      |q.1.1 * nextY p w y z k + q.1.2.1 * nextZ p w y z k| * 48 ≤ q.1.2.2 * A ∧
      |q.2.1 * nextY p w y z k + q.2.2.1 * nextZ p w y z k| * 48 ≤ q.2.2.2 * A := by
    intro q hq
    have := hz1 q hq
    rw [Bool.and_eq_true] at this
    have a := check_sound hbi hbb hA hp hw hy hz hh h0 h1 rfl rfl this.1
    have b := check_sound hbi hbb hA hp hw hy hz hh h0 h1 rfl rfl this.2
    simp only [ev, add_zero] at a b
    push_cast at a b
    constructor <;> linarith
  constructor
  · intro h
    rw [if_pos (by omega)] at key
    exact key
  · intro h h'
    rw [if_neg (by omega)] at key
    exact key

theorem rep_step {A : ℚ} (hA : 0 ≤ A) {p w : ℤ} (hp : p = 0 ∨ p = 1) {x : ℤ → ℚ} (hx : Rep A w x) :
    Rep A (half p w) (lowExt p w x) := by
  intro hw
  obtain ⟨y, z, hy, hz, h, hh⟩ := hx (by unfold half at hw; omega)
  exact ⟨_, _, sym_mirror hw _, sym_mirror hw _, lowExt_rep hp hw hy hz h,
    held_step wf_inner wf_border hA hp hw hy hz hh closes_step⟩

/-- The input of the first level. -/
theorem start_rep {A : ℚ} (w : ℤ) {x : ℤ → ℚ} (hx : ∀ k, |x k| ≤ A) :
    Sym w (fun _ => (0 : ℚ)) ∧ (∀ k, x k = x k + 0 - 2 * 0 + 0) ∧ Held start start A w x (fun _ => 0) := by
  refine ⟨⟨fun _ => rfl, fun _ => rfl⟩, fun k => by ring, fun k _ _ => ?_⟩
  have : In start A (x k) 0 := by
    intro q hq
    simp only [start, List.mem_singleton] at hq
    subst hq
    have := hx k
    simp only [Int.cast_one, Int.cast_zero, mul_zero, add_zero, one_mul, zero_mul, abs_zero, le_refl, and_true]
    push_cast; linarith
  exact ⟨fun _ => this, fun _ _ => this⟩

theorem rep_start {A : ℚ} (hA : 0 ≤ A) {p w : ℤ} (hp : p = 0 ∨ p = 1) {x : ℤ → ℚ} (hs : Per w x) (hx : ∀ k, |x k| ≤ A) :
    Rep A (half p w) (lowExt p w x) := by
  intro hw
  have hsym := hs.1 (by unfold half at hw; omega)
  obtain ⟨h1, h2, h3⟩ := start_rep w hx
  exact ⟨_, _, sym_mirror hw _, sym_mirror hw _, lowExt_rep hp hw hsym h1 h2,
    held_step wf_start wf_start hA hp hw hsym h1 h3 closes_start⟩

theorem lowTaps_ev {x y z : ℤ → ℚ} (h : ∀ k, x k = y k + z (k - 1) - 2 * z k + z (k + 1)) (p j : ℤ) :
    ev y z (2 * j + p) lowTaps = 8 * low p x j := by
  unfold low
  simp only [h, lowTaps, ev]
  generalize 2 * j + p = m
  rw [show m + -3 = m - 3 by ring, show m + -2 = m - 2 by ring, show m + -1 = m - 1 by ring, show m + 0 = m by ring,
    show m - 1 - 1 = m - 2 by ring, show m - 1 + 1 = m by ring, show m + 1 - 1 = m by ring, show m + 1 + 1 = m + 2 by ring,
    show m - 2 - 1 = m - 3 by ring, show m - 2 + 1 = m - 1 by ring, show m + 2 - 1 = m + 1 by ring,
    show m + 2 + 1 = m + 3 by ring]
  push_cast
  ring

theorem highTaps_ev {x y z : ℤ → ℚ} (h : ∀ k, x k = y k + z (k - 1) - 2 * z k + z (k + 1)) (p j : ℤ) :
    ev y z (2 * j + (1 - p)) highTaps = 2 * high p x j := by
  unfold high
  simp only [h, highTaps, ev]
  generalize 2 * j + (1 - p) = m
  rw [show m + -2 = m - 2 by ring, show m + -1 = m - 1 by ring, show m + 0 = m by ring,
    show m - 1 - 1 = m - 2 by ring, show m - 1 + 1 = m by ring, show m + 1 - 1 = m by ring, show m + 1 + 1 = m + 2 by ring]
  push_cast
  ring

/-- Two levels at once. -/
theorem two_levels {bi bb : List (Facet × Facet)} (hbi : wellFormed bi = true) (hbb : wellFormed bb = true) {A : ℚ}
    (hA : 0 ≤ A) {p q w : ℤ} (hp : p = 0 ∨ p = 1) (hq : q = 0 ∨ q = 1) (hw : 2 ≤ half q (half p w)) {x y z : ℤ → ℚ}
    (hy : Sym w y) (hz : Sym w z) (h : ∀ k, x k = y k + z (k - 1) - 2 * z k + z (k + 1)) (hh : Held bi bb A w y z)
    {lim : ℤ} (hc : zones 2 (fun a t al be => check bi bb a t al be lowTaps lim) = true) (k : ℤ) :
    |lowExt q (half p w) (lowExt p w x) k| * 36864 ≤ lim * A := by
  have hr := mirror_range hw k
  have hw' : 3 ≤ half p w := by unfold half at hw ⊢; omega
  have e : lowExt q (half p w) (lowExt p w x) k = low q (lowExt p w x) (mirror (half q (half p w)) k) := by
    rw [lowExt, mir, if_neg (by omega)]
  rw [e]
  generalize mirror (half q (half p w)) k = j at *
  have hJ : 0 ≤ 2 * j + q ∧ 2 * j + q < half p w := by
    rcases half_cases (w := half p w) hq with ⟨-, c⟩ | ⟨-, c⟩ <;> omega
  have a := check_sound hbi hbb hA hp (by omega) hy hz hh hJ.1 hJ.2 rfl rfl
    (zones_spec hc (a := min (2 * j + q) 4) (t := min (half p w - 1 - (2 * j + q)) 4) (by omega) (by omega) (by omega)
      (by omega) (by omega) (decide (p = 1)) (endsHigh p w))
  rw [lowTaps_ev (lowExt_rep hp (by omega) hy hz h), abs_mul, show |(8 : ℚ)| = 8 by norm_num] at a
  linarith

/-- The second level of low-pass filtering. -/
theorem second {A : ℚ} (hA : 0 ≤ A) {p q w : ℤ} (hp : p = 0 ∨ p = 1) (hq : q = 0 ∨ q = 1) {x : ℤ → ℚ} (hs : Per w x)
    (hx : ∀ k, |x k| ≤ A) (k : ℤ) : |lowExt q (half p w) (lowExt p w x) k| ≤ 13 / 8 * A := by
  by_cases hw : 2 ≤ half q (half p w)
  · have hsym := hs.1 (by unfold half at hw; omega)
    obtain ⟨h1, h2, h3⟩ := start_rep w hx
    have := two_levels wf_start wf_start hA hp hq hw hsym h1 h2 h3 low_start k
    push_cast at this
    linarith
  · have h1 := flat hq (by omega) (lowExt_per p w x) (C := 3 / 2 * A) (fun k => low_le hx _) k
    linarith

theorem later {A : ℚ} (hA : 0 ≤ A) {p q w : ℤ} (hp : p = 0 ∨ p = 1) (hq : q = 0 ∨ q = 1) {x : ℤ → ℚ} (hx : Rep A w x)
    (h1 : ∀ k, |lowExt p w x k| ≤ 238 / 125 * A) (k : ℤ) :
    |lowExt q (half p w) (lowExt p w x) k| ≤ 238 / 125 * A := by
  by_cases hw : 2 ≤ half q (half p w)
  · obtain ⟨y, z, hy, hz, h, hh⟩ := hx (by unfold half at hw; omega)
    have := two_levels wf_inner wf_border hA hp hq hw hy hz h hh low_step k
    push_cast at this
    linarith
  · exact flat hq (by omega) (lowExt_per p w x) h1 k

/-- Low-pass filtering on several levels; the list holds the parities of the first coordinate, finest level first. -/
def iter (w : ℤ) : List ℤ → (ℤ → ℚ) → ℤ → ℚ
  | [], s => s
  | p :: ps, s => iter (half p w) ps (lowExt p w s)

theorem iter_later {A : ℚ} (hA : 0 ≤ A) (ps : List ℤ) : ∀ {p w : ℤ} {x : ℤ → ℚ}, (p = 0 ∨ p = 1) →
    (∀ q ∈ ps, q = 0 ∨ q = 1) → Rep A w x → (∀ k, |lowExt p w x k| ≤ 238 / 125 * A) → ∀ k,
    |iter w (p :: ps) x k| ≤ 238 / 125 * A := by
  induction ps with
  | nil => intro p w x _ _ _ h k; exact h k
  | cons q ps ih =>
    intro p w x hp hps hx h k
    have hq := hps q (by simp)
    exact ih (x := lowExt p w x) hq (fun r hr => hps r (by simp [hr])) (rep_step hA hp hx) (later hA hp hq hx h) k

/-- Bounds on the amplification by a number of levels. -/
def gain : ℕ → ℚ
  | 0 => 1
  | 1 => 3 / 2
  | 2 => 13 / 8
  | _ => 238 / 125

theorem iter_bound {A : ℚ} {w : ℤ} {s : ℤ → ℚ} (hs : Per w s) (h : ∀ k, |s k| ≤ A) {ps : List ℤ}
    (hps : ∀ p ∈ ps, p = 0 ∨ p = 1) (k : ℤ) : |iter w ps s k| ≤ gain ps.length * A := by
  have hA : 0 ≤ A := le_trans (abs_nonneg _) (h 0)
  match ps with
  | [] => simpa [iter, gain] using h k
  | [p] => exact low_le h _
  | [p, q] => exact second hA (hps p (by simp)) (hps q (by simp)) hs h k
  | p :: q :: r :: ps =>
    have hp := hps p (by simp)
    have hq := hps q (by simp)
    have h2 := second hA hp hq hs h
    exact iter_later (p := q) hA (r :: ps) hq (fun t ht => hps t (by
      simp only [List.mem_cons] at ht ⊢; tauto)) (rep_start hA hp hs h) (fun k => by have := h2 k; linarith) k

theorem gain_le (n : ℕ) : 0 ≤ gain n ∧ gain n ≤ 238 / 125 := by
  match n with
  | 0 => norm_num [gain]
  | 1 => norm_num [gain]
  | 2 => norm_num [gain]
  | n + 3 => exact ⟨by show (0 : ℚ) ≤ 238 / 125; norm_num, le_refl _⟩

/-- The high-pass coefficient; a lone sample is doubled. -/
def highExt (p w : ℤ) (s : ℤ → ℚ) (k : ℤ) : ℚ := if w ≤ 1 then 2 * s 0 else high p s k

theorem highExt_le {p w : ℤ} {s : ℤ → ℚ} {C : ℚ} (h : ∀ k, |s k| ≤ C) (j : ℤ) : |highExt p w s j| ≤ 2 * C := by
  have c := abs_le.1 (h 0)
  have h0 := abs_le.1 (h (2 * j + (1 - p))); have h1 := abs_le.1 (h (2 * j + (1 - p) - 1))
  have h2 := abs_le.1 (h (2 * j + (1 - p) + 1))
  unfold highExt high
  split_ifs <;> rw [abs_le] <;> constructor <;> linarith

/-- High-pass filtering on the second level. -/
theorem highExt_second {A : ℚ} {p q w : ℤ} (hp : p = 0 ∨ p = 1) {x : ℤ → ℚ} (hs : Per w x)
    (hx : ∀ k, |x k| ≤ A) {j : ℤ} (h0 : 0 ≤ 2 * j + (1 - q)) (h1 : 2 * j + (1 - q) < half p w) :
    |highExt q (half p w) (lowExt p w x) j| ≤ 5 / 2 * A := by
  have hA : 0 ≤ A := le_trans (abs_nonneg _) (hx 0)
  unfold highExt
  split_ifs with hw
  · have := flat hp hw hs hx 0
    rw [abs_mul, show |(2 : ℚ)| = 2 by norm_num]
    linarith
  · have hsym := hs.1 (by unfold half at hw; omega)
    obtain ⟨a1, a2, a3⟩ := start_rep w hx
    have a := check_sound wf_start wf_start hA hp (by omega) hsym a1 a3 h0 h1 rfl rfl
      (zones_spec high_start (a := min (2 * j + (1 - q)) 4) (t := min (half p w - 1 - (2 * j + (1 - q))) 4) (by omega)
        (by omega) (by omega) (by omega) (by omega) (decide (p = 1)) (endsHigh p w))
    rw [highTaps_ev (lowExt_rep hp (by omega) hsym a1 a2), abs_mul, show |(2 : ℚ)| = 2 by norm_num] at a
    push_cast at a
    linarith

end Verif.Dwt.Gain
