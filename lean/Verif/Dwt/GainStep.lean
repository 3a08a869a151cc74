import Verif.Dwt.GainMachine

/-!
# One level of the low-pass channel in the representation `x = y + second difference of z`
-/

namespace Verif.Dwt.Gain

/-- The low-pass coefficient at position `j` of the 5/3 filter without rounding; `p` is the parity of the first sample
of the signal. -/
def low (p : ℤ) (s : ℤ → ℚ) (j : ℤ) : ℚ :=
  3 / 4 * s (2 * j + p) + 1 / 4 * (s (2 * j + p - 1) + s (2 * j + p + 1)) -
    1 / 8 * (s (2 * j + p - 2) + s (2 * j + p + 2))

/-- The high-pass coefficient. -/
def high (p : ℤ) (s : ℤ → ℚ) (j : ℤ) : ℚ :=
  s (2 * j + (1 - p)) - 1 / 2 * (s (2 * j + (1 - p) - 1) + s (2 * j + (1 - p) + 1))

/-- Number of low-pass coefficients. -/
def half (p w : ℤ) : ℤ := (w - p + 1) / 2

/-- Index in `[0, w)` of a position of the symmetric extension. -/
def mir (w k : ℤ) : ℤ := if w ≤ 1 then 0 else mirror w k

/-- The low-pass signal with its symmetric extension. -/
def lowExt (p w : ℤ) (s : ℤ → ℚ) (k : ℤ) : ℚ := low p s (mir (half p w) k)

def yN (p : ℤ) (y : ℤ → ℚ) (j : ℤ) : ℚ := 1 / 2 * y (2 * j + p) + 1 / 4 * (y (2 * j + p - 1) + y (2 * j + p + 1))

def zN (p : ℤ) (y z : ℤ → ℚ) (j : ℤ) : ℚ :=
  -1 / 8 * y (2 * j + p) + 1 / 2 * z (2 * j + p) - 1 / 8 * (z (2 * j + p - 1) + z (2 * j + p + 1))

/-- Is the last sample of the signal high-pass? -/
def endsHigh (p w : ℤ) : Bool := decide (w - 1 = 2 * (half p w - 1) + p + 1)

def yB (p w : ℤ) (y z : ℤ → ℚ) (j : ℤ) : ℚ :=
  yN p y j + (if j = 0 ∧ p = 1 then zN p y z 0 - zN p y z 1 else 0) +
    (if j = half p w - 1 ∧ endsHigh p w = true then zN p y z (half p w - 1) - zN p y z (half p w - 2) else 0)

def nextY (p w : ℤ) (y z : ℤ → ℚ) (k : ℤ) : ℚ := yB p w y z (mirror (half p w) k)

def nextZ (p w : ℤ) (y z : ℤ → ℚ) (k : ℤ) : ℚ := zN p y z (mirror (half p w) k)

theorem low_nat (p : ℤ) (x y z : ℤ → ℚ) (h : ∀ k, x k = y k + z (k - 1) - 2 * z k + z (k + 1)) (j : ℤ) :
    low p x j = yN p y j + zN p y z (j - 1) - 2 * zN p y z j + zN p y z (j + 1) := by
  unfold low yN zN
  simp only [h, show 2 * (j - 1) + p = 2 * j + p - 2 by ring, show 2 * (j + 1) + p = 2 * j + p + 2 by ring,
    show ∀ q : ℤ, q - 1 + 1 = q by intro q; ring, show ∀ q : ℤ, q + 1 - 1 = q by intro q; ring,
    show ∀ q : ℤ, q - 2 + 1 = q - 1 by intro q; ring, show ∀ q : ℤ, q + 2 - 1 = q + 1 by intro q; ring,
    show ∀ q : ℤ, q - 1 - 1 = q - 2 by intro q; ring, show ∀ q : ℤ, q + 1 + 1 = q + 2 by intro q; ring]
  ring

theorem half_cases {p w : ℤ} (hp : p = 0 ∨ p = 1) :
    (endsHigh p w = true ∧ w = 2 * (half p w - 1) + p + 2) ∨ (endsHigh p w = false ∧ w = 2 * (half p w - 1) + p + 1) := by
  unfold endsHigh half
  rcases hp with rfl | rfl
  · by_cases h : (w - 1 = 2 * ((w - 0 + 1) / 2 - 1) + 0 + 1)
    · exact Or.inl ⟨decide_eq_true h, by omega⟩
    · exact Or.inr ⟨decide_eq_false h, by omega⟩
  · by_cases h : (w - 1 = 2 * ((w - 1 + 1) / 2 - 1) + 1 + 1)
    · exact Or.inl ⟨decide_eq_true h, by omega⟩
    · exact Or.inr ⟨decide_eq_false h, by omega⟩

theorem sym_mirror {α : Type} {w : ℤ} (hw : 2 ≤ w) (f : ℤ → α) : Sym w (fun k => f (mirror w k)) :=
  ⟨fun k => by simp only [mirror_neg hw], fun k => by simp only [mirror_flip hw]⟩

/-- The new representation is one of the low-pass signal. -/
theorem lowExt_rep {p w : ℤ} (hp : p = 0 ∨ p = 1) (hw : 2 ≤ half p w) {x y z : ℤ → ℚ} (hy : Sym w y) (hz : Sym w z)
    (h : ∀ k, x k = y k + z (k - 1) - 2 * z k + z (k + 1)) (k : ℤ) :
    lowExt p w x k = nextY p w y z k + nextZ p w y z (k - 1) - 2 * nextZ p w y z k + nextZ p w y z (k + 1) := by
  have hsy := sym_mirror hw (yB p w y z)
  have hsz := sym_mirror hw (zN p y z)
  -- enough for `k` inside
  have main : ∀ k, 0 ≤ k → k < half p w → low p x k =
      nextY p w y z k + nextZ p w y z (k - 1) - 2 * nextZ p w y z k + nextZ p w y z (k + 1) := by
    intro k h0 h1
    rw [low_nat p x y z h]
    have eY : nextY p w y z k = yB p w y z k := by unfold nextY; rw [mirror_self h0 h1]
    have eZ : nextZ p w y z k = zN p y z k := by unfold nextZ; rw [mirror_self h0 h1]
    -- left neighbour
    have eL : nextZ p w y z (k - 1) = zN p y z (k - 1) +
        (if k = 0 ∧ p = 1 then zN p y z 1 - zN p y z 0 else 0) := by
      by_cases hk : k = 0
      · subst hk
        have e1 : nextZ p w y z (0 - 1) = zN p y z 1 := by
          rw [show (0 - 1 : ℤ) = -1 by norm_num]
          unfold nextZ; rw [mirror_neg hw, mirror_self (by omega) (by omega)]
        rw [e1]
        rcases hp with rfl | rfl
        · rw [if_neg (by omega)]
          unfold zN
          have a1 := hy.1 2; have a2 := hz.1 2; have a3 := hz.1 1; have a4 := hz.1 3
          norm_num at *
          rw [a1, a2, a3, a4]; ring
        · rw [if_pos ⟨rfl, rfl⟩]
          unfold zN
          have a1 := hy.1 1; have a2 := hz.1 1; have a3 := hz.1 2
          norm_num at *
          rw [a1, a2, a3]; ring
      · rw [if_neg (fun hh => hk hh.1)]
        unfold nextZ; rw [mirror_self (by omega) (by omega)]; ring
    have eR : nextZ p w y z (k + 1) = zN p y z (k + 1) +
        (if k = half p w - 1 ∧ endsHigh p w = true then zN p y z (half p w - 2) - zN p y z (half p w - 1) else 0) := by
      by_cases hk : k = half p w - 1
      · have e1 : nextZ p w y z (k + 1) = zN p y z (half p w - 2) := by
          have : nextZ p w y z (2 * (half p w - 1) - (half p w - 2)) = nextZ p w y z (half p w - 2) := hsz.2 _
          rw [show 2 * (half p w - 1) - (half p w - 2) = k + 1 by rw [hk]; ring] at this
          rw [this]; unfold nextZ; rw [mirror_self (by omega) (by omega)]
        rw [e1]
        rcases half_cases (w := w) hp with ⟨c, hc⟩ | ⟨c, hc⟩
        · rw [if_pos ⟨hk, c⟩, hk]
          generalize half p w = m at *
          unfold zN
          have a1 := hy.2 (2 * (m - 1) + p); have a2 := hz.2 (2 * (m - 1) + p); have a3 := hz.2 (2 * (m - 1) + p - 1)
          have a4 := hz.2 (2 * (m - 1) + p + 1)
          rw [show 2 * (w - 1) - (2 * (m - 1) + p) = 2 * (m - 1 + 1) + p by rw [hc]; ring] at a1 a2
          rw [show 2 * (w - 1) - (2 * (m - 1) + p - 1) = 2 * (m - 1 + 1) + p + 1 by rw [hc]; ring] at a3
          rw [show 2 * (m - 1 + 1) + p - 1 = 2 * (m - 1) + p + 1 by ring, a1, a2, a3]
          ring
        · rw [if_neg (by rw [c]; simp), hk]
          generalize half p w = m at *
          unfold zN
          have a1 := hy.2 (2 * (m - 2) + p); have a2 := hz.2 (2 * (m - 2) + p); have a3 := hz.2 (2 * (m - 2) + p - 1)
          have a4 := hz.2 (2 * (m - 2) + p + 1)
          rw [show 2 * (w - 1) - (2 * (m - 2) + p) = 2 * (m - 1 + 1) + p by rw [hc]; ring] at a1 a2
          rw [show 2 * (w - 1) - (2 * (m - 2) + p - 1) = 2 * (m - 1 + 1) + p + 1 by rw [hc]; ring] at a3
          rw [show 2 * (w - 1) - (2 * (m - 2) + p + 1) = 2 * (m - 1 + 1) + p - 1 by rw [hc]; ring] at a4
          rw [a1, a2, a3, a4]
          ring
      · rw [if_neg (fun hh => hk hh.1)]
        unfold nextZ; rw [mirror_self (by omega) (by omega)]; ring
    rw [eY, eZ, eL, eR]
    unfold yB
    split_ifs <;> ring
  have hr := mirror_range hw k
  have e := main (mirror (half p w) k) hr.1 hr.2
  unfold lowExt mir
  rw [if_neg (by omega), e]
  -- both sides are symmetric
  have hs : Sym (half p w) (fun k => nextY p w y z k + nextZ p w y z (k - 1) - 2 * nextZ p w y z k +
      nextZ p w y z (k + 1)) := by
    constructor
    · intro k
      have b1 : nextY p w y z (-k) = nextY p w y z k := hsy.1 k
      have b2 : nextZ p w y z (-k) = nextZ p w y z k := hsz.1 k
      have b3 : nextZ p w y z (-k - 1) = nextZ p w y z (k + 1) := by
        rw [show -k - 1 = -(k + 1) by ring]; exact hsz.1 _
      have b4 : nextZ p w y z (-k + 1) = nextZ p w y z (k - 1) := by
        rw [show -k + 1 = -(k - 1) by ring]; exact hsz.1 _
      simp only [b1, b2, b3, b4]; ring
    · intro k
      have b1 : nextY p w y z (2 * (half p w - 1) - k) = nextY p w y z k := hsy.2 k
      have b2 : nextZ p w y z (2 * (half p w - 1) - k) = nextZ p w y z k := hsz.2 k
      have b3 : nextZ p w y z (2 * (half p w - 1) - k - 1) = nextZ p w y z (k + 1) := by
        rw [show 2 * (half p w - 1) - k - 1 = 2 * (half p w - 1) - (k + 1) by ring]; exact hsz.2 _
      have b4 : nextZ p w y z (2 * (half p w - 1) - k + 1) = nextZ p w y z (k - 1) := by
        rw [show 2 * (half p w - 1) - k + 1 = 2 * (half p w - 1) - (k - 1) by ring]; exact hsz.2 _
      simp only [b1, b2, b3, b4]; ring
  exact hs.at_mirror k

theorem ev_spread (y z : ℤ → ℚ) (p J : ℤ) (e : Tap) :
    ev y z (2 * J + p) (spread e) = 8 * (e.2.1 * yN p y (J + e.1) + e.2.2 * zN p y z (J + e.1)) := by
  unfold spread
  simp only [ev, yN, zN]
  rw [show 2 * J + p + 2 * e.1 = 2 * (J + e.1) + p by ring, show 2 * J + p + (2 * e.1 - 1) = 2 * (J + e.1) + p - 1 by ring,
    show 2 * J + p + (2 * e.1 + 1) = 2 * (J + e.1) + p + 1 by ring]
  push_cast
  ring

/-- Carrying a functional to the finer level. -/
theorem ev_expand {p w : ℤ} (hw : 2 ≤ half p w) (y z : ℤ → ℚ) {J a t : ℤ} (ha : a = min J 4) (ht : t = min (half p w - 1 - J) 4)
    {f : List Tap} (hf : within a t 3 f = true) :
    ev y z (2 * J + p) (f.flatMap (expand a t (decide (p = 1)) (endsHigh p w))) =
      8 * ev (nextY p w y z) (nextZ p w y z) J f := by
  induction f with
  | nil => simp [ev]
  | cons e l ih =>
    unfold within at hf
    rw [List.all_cons, Bool.and_eq_true] at hf
    have hi := of_decide_eq_true hf.1
    rw [List.flatMap_cons, ev_append, ih hf.2, ev]
    have r0 : 0 ≤ J + e.1 := by omega
    have r1 : J + e.1 < half p w := by omega
    have c1 : e.1 = -a ↔ J + e.1 = 0 := by omega
    have c2 : e.1 = t ↔ J + e.1 = half p w - 1 := by omega
    have eY : nextY p w y z (J + e.1) = yB p w y z (J + e.1) := by unfold nextY; rw [mirror_self r0 r1]
    have eZ : nextZ p w y z (J + e.1) = zN p y z (J + e.1) := by unfold nextZ; rw [mirror_self r0 r1]
    rw [eY, eZ]
    unfold expand yB
    rw [ev_append, ev_append, ev_spread]
    have d1 : ev y z (2 * J + p) (if e.1 = -a ∧ decide (p = 1) = true then
        spread (e.1, 0, e.2.1) ++ spread (e.1 + 1, 0, -e.2.1) else []) =
        8 * (e.2.1 * if J + e.1 = 0 ∧ p = 1 then zN p y z 0 - zN p y z 1 else 0) := by
      by_cases h : J + e.1 = 0 ∧ p = 1
      · rw [if_pos ⟨c1.2 h.1, decide_eq_true h.2⟩, if_pos h, ev_append, ev_spread, ev_spread]
        simp only
        rw [show J + (e.1 + 1) = J + e.1 + 1 by ring, h.1]
        push_cast; norm_num; ring
      · rw [if_neg (fun hh => h ⟨c1.1 hh.1, of_decide_eq_true hh.2⟩), if_neg h]
        simp [ev]
    have d2 : ev y z (2 * J + p) (if e.1 = t ∧ endsHigh p w = true then
        spread (e.1, 0, e.2.1) ++ spread (e.1 - 1, 0, -e.2.1) else []) =
        8 * (e.2.1 * if J + e.1 = half p w - 1 ∧ endsHigh p w = true then
          zN p y z (half p w - 1) - zN p y z (half p w - 2) else 0) := by
      by_cases h : J + e.1 = half p w - 1 ∧ endsHigh p w = true
      · rw [if_pos ⟨c2.2 h.1, h.2⟩, if_pos h, ev_append, ev_spread, ev_spread]
        simp only
        rw [show J + (e.1 - 1) = J + e.1 - 1 by ring, h.1, show half p w - 1 - 1 = half p w - 2 by ring]
        push_cast; norm_num; ring
      · rw [if_neg (fun hh => h ⟨c2.1 hh.1, hh.2⟩), if_neg h]
        simp [ev]
    rw [d1, d2]
    ring

/-- The pairs `(y, z)` are in `bb` at the borders and in `bi` elsewhere. -/
def Held (bi bb : List (Facet × Facet)) (A : ℚ) (w : ℤ) (y z : ℤ → ℚ) : Prop :=
  ∀ k, 0 ≤ k → k < w → (k = 0 ∨ k = w - 1 → In bb A (y k) (z k)) ∧ (0 < k → k < w - 1 → In bi A (y k) (z k))

theorem check_sound {bi bb : List (Facet × Facet)} (hbi : wellFormed bi = true) (hbb : wellFormed bb = true) {A : ℚ}
    (hA : 0 ≤ A) {p w : ℤ} (hp : p = 0 ∨ p = 1) (hw : 2 ≤ half p w) {y z : ℤ → ℚ} (hy : Sym w y) (hz : Sym w z)
    (hh : Held bi bb A w y z) {J a t : ℤ} (h0 : 0 ≤ J) (h1 : J < half p w) (ha : a = min J 4)
    (ht : t = min (half p w - 1 - J) 4) {f : List Tap} {lim : ℤ}
    (hc : check bi bb a t (decide (p = 1)) (endsHigh p w) f lim = true) :
    |ev (nextY p w y z) (nextZ p w y z) J f| * 4608 ≤ lim * A := by
  unfold check at hc
  simp only [Bool.and_eq_true] at hc
  obtain ⟨⟨⟨⟨c1, c2⟩, c3⟩, c4⟩, c5⟩ := hc
  have c5 := of_decide_eq_true c5
  have hsy := sym_mirror hw (yB p w y z)
  have hsz := sym_mirror hw (zN p y z)
  have hal : bit (decide (p = 1)) = p := by rcases hp with rfl | rfl <;> rfl
  have hbe : w - 1 = 2 * (half p w - 1) + p + bit (endsHigh p w) := by
    rcases half_cases (w := w) hp with ⟨c, hc⟩ | ⟨c, hc⟩ <;> rw [c] <;> simp [bit] <;> omega
  have hbe' : 0 ≤ bit (endsHigh p w) ∧ bit (endsHigh p w) ≤ 1 := by unfold bit; split_ifs <;> omega
  rw [hal] at c4 c5
  -- coarse folding
  have e1 : ev (nextY p w y z) (nextZ p w y z) J (foldTaps a t f) = ev (nextY p w y z) (nextZ p w y z) J f := by
    refine ev_foldTaps c1 (by omega) (by omega) (fun h k => ?_) (fun h k => ?_) (fun h k => ?_) (fun h k => ?_)
    · rw [show 2 * (J - a) - k = -k by omega]; exact hsy.1 k
    · rw [show 2 * (J + t) - k = 2 * (half p w - 1) - k by omega]; exact hsy.2 k
    · rw [show 2 * (J - a) - k = -k by omega]; exact hsz.1 k
    · rw [show 2 * (J + t) - k = 2 * (half p w - 1) - k by omega]; exact hsz.2 k
  have e2 := ev_expand hw y z ha ht c2
  have e3 : ev y z (2 * J + p) (pull a t (decide (p = 1)) (endsHigh p w) f) =
      ev y z (2 * J + p) ((foldTaps a t f).flatMap (expand a t (decide (p = 1)) (endsHigh p w))) := by
    unfold pull
    rw [ev_merge, hal]
    refine ev_foldTaps c3 (by omega) (by omega) (fun h k => ?_) (fun h k => ?_) (fun h k => ?_) (fun h k => ?_)
    · rw [show 2 * (2 * J + p - (2 * a + p)) - k = -k by omega]; exact hy.1 k
    · rw [show 2 * (2 * J + p + (2 * t + bit (endsHigh p w))) - k = 2 * (w - 1) - k by omega]; exact hy.2 k
    · rw [show 2 * (2 * J + p - (2 * a + p)) - k = -k by omega]; exact hz.1 k
    · rw [show 2 * (2 * J + p + (2 * t + bit (endsHigh p w))) - k = 2 * (w - 1) - k by omega]; exact hz.2 k
  have e4 := total_spec (A := A) (y := y) (z := z) (o := 2 * J + p) hbi hbb c4
    (fun k k1 k2 k3 k4 k5 => (hh _ (by omega) (by omega)).1 (by omega))
    (fun k k1 k2 k3 k4 => (hh _ (by omega) (by omega)).2 (by omega) (by omega))
  rw [e3, e2, e1, abs_mul] at e4
  have : (total bi bb (2 * a + p) (2 * t + bit (endsHigh p w)) (pull a t (decide (p = 1)) (endsHigh p w) f) : ℚ) * A
      ≤ lim * A := mul_le_mul_of_nonneg_right (by exact_mod_cast c5) hA
  rw [show |(8 : ℚ)| = 8 by norm_num] at e4
  linarith

end Verif.Dwt.Gain
