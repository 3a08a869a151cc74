import Verif.Dwt.GainLevels

/-!
# All levels
-/

namespace Verif.Dwt.Gain

theorem mem_get {l : List (List ℤ)} {r : List ℤ} {x : ℤ} (hr : r ∈ l) (hx : x ∈ r) :
    ∃ I J : ℕ, l[I]? = some r ∧ r[J]? = some x := by
  obtain ⟨I, hI⟩ := List.mem_iff_getElem?.1 hr
  obtain ⟨J, hJ⟩ := List.mem_iff_getElem?.1 hx
  exact ⟨I, J, hI, hJ⟩

theorem img_at {w : ℕ} {rows : List (List ℤ)} {I J : ℕ} {r : List ℤ} {x : ℤ} (hI : rows[I]? = some r)
    (hJ : r[J]? = some x) (hw : J < w) : img w rows I J = x := by
  have hI' : I < rows.length := by
    by_contra hc
    rw [List.getElem?_eq_none (by omega)] at hI; cases hI
  unfold img sigOf
  rw [mir_self (by omega) (by omega), mir_self (by omega) (by omega), Int.toNat_natCast, Int.toNat_natCast, hI,
    Option.map_some, hJ]
  rfl

/-- An image whose low-pass plane is that of `m` levels of samples of at most `A`. -/
def Calm (m : ℕ) (A : ℚ) (w : ℕ) (rows : List (List ℤ)) : Prop :=
  rows ≠ [] → 0 < w → Tame m A rows.length w (img w rows) ∧ TameHigh m A rows.length w (img w rows)

theorem calm_zero {A : ℚ} {w : ℕ} {rows : List (List ℤ)} (hr : Rect w rows) (h : ∀ r ∈ rows, ∀ x ∈ r, |(x : ℚ)| ≤ A) :
    Calm 0 A w rows := by
  intro hne hw
  have hB : ∀ i j, |img w rows i j| ≤ A := by
    intro i j
    have hi := mir_range (w := (rows.length : ℤ)) (by have := List.length_pos_iff.2 hne; omega) i
    have hj := mir_range (w := (w : ℤ)) (by omega) j
    have hi' : (mir rows.length i).toNat < rows.length := by omega
    have hm := List.getElem_mem hi'
    have hj' : (mir w j).toNat < (rows[(mir rows.length i).toNat]).length := by rw [hr _ hm]; omega
    unfold img sigOf
    rw [List.getElem?_eq_getElem hi', Option.map_some, List.getElem?_eq_getElem hj']
    exact h _ hm _ (List.getElem_mem hj')
  exact ⟨tame_zero (img_per w rows) hB, high_zero hB⟩

theorem half_ceil {u0 : ℤ} (w : ℕ) : half (u0 % 2) w = ceilHalf (u0 + w) - ceilHalf u0 := by
  unfold half ceilHalf; omega

theorem analyse2d_nil (u0 v0 : ℤ) : analyse2d u0 v0 [] = some ⟨[], [], [], []⟩ := by
  simp only [analyse2d, split]
  split_ifs <;> rfl

theorem calm_step {m : ℕ} {A : ℚ} (hA : 0 ≤ A) {w w' : ℕ} {rows : List (List ℤ)} {u0 v0 : ℤ} (hu : 0 ≤ u0) (hv : 0 ≤ v0)
    (hw : 0 < w) (hr : Rect w rows) (hc : Calm m A w rows) {b : Bands} (eb : analyse2d u0 v0 rows = some b)
    (hw' : (w' : ℤ) = ceilHalf (u0 + w) - ceilHalf u0) :
    Calm (m + 1) A w' b.ll ∧
    (∀ r ∈ b.hl, ∀ x ∈ r, |(x : ℚ)| ≤ 2 * (gain (m + 1) * gain m * A + slip * m) + 2) ∧
    (∀ r ∈ b.lh, ∀ x ∈ r, |(x : ℚ)| ≤ 2 * (gain (m + 1) * gain m * A + slip * m) + 2) ∧
    (∀ r ∈ b.hh, ∀ x ∈ r, |(x : ℚ)| ≤ highBound A m + 3 / 2) := by
  by_cases hne : rows = []
  · subst hne
    rw [analyse2d_nil, Option.some.injEq] at eb
    subst eb
    exact ⟨fun h => absurd rfl h, by simp, by simp, by simp⟩
  obtain ⟨l1, l2, b1, b2, b3, b4⟩ := level_bands hu hv hw hne hr eb
  obtain ⟨hT, hH⟩ := hc hne hw
  have hp : v0 % 2 = 0 ∨ v0 % 2 = 1 := by omega
  have hq : u0 % 2 = 0 ∨ u0 % 2 = 1 := by omega
  have tri : ∀ {x y C D : ℚ}, |x - y| ≤ C → |y| ≤ D → |x| ≤ D + C := by
    intro x y C D h1 h2
    have h1 := abs_le.1 h1
    have h2 := abs_le.1 h2
    rw [abs_le]; constructor <;> linarith
  refine ⟨fun hne' hw0 => ?_, fun r hr x hx => ?_, fun r hr x hx => ?_, fun r hr x hx => ?_⟩
  · have hww : (w' : ℤ) = half (u0 % 2) w := by rw [half_ceil, hw']
    have hpos := List.length_pos_iff.2 hne'
    have herr : ∀ i j, |img w' b.ll i j -
        lowV (v0 % 2) rows.length (lowH (u0 % 2) w (img w rows)) i j| ≤ 15 / 8 := by
      intro i j
      have hi := mir_range (w := (b.ll.length : ℤ)) (by omega) i
      have hj := mir_range (w := (w' : ℤ)) (by omega) j
      have hi' : (mir b.ll.length i).toNat < b.ll.length := by omega
      have hm := List.getElem_mem hi'
      have hlen := l2 _ hm
      have hj' : (mir w' j).toNat < (b.ll[(mir b.ll.length i).toNat]).length := by omega
      have e := b1 _ _ _ _ (List.getElem?_eq_getElem hi') (List.getElem?_eq_getElem hj')
      have e1 : img w' b.ll i j = ((b.ll[(mir b.ll.length i).toNat])[(mir w' j).toNat] : ℤ) := by
        unfold img sigOf
        rw [List.getElem?_eq_getElem hi', Option.map_some, List.getElem?_eq_getElem hj']
        rfl
      have e2 : lowV (v0 % 2) rows.length (lowH (u0 % 2) w (img w rows)) i j =
          lowV (v0 % 2) rows.length (lowH (u0 % 2) w (img w rows)) ((mir b.ll.length i).toNat : ℕ)
            ((mir w' j).toNat : ℕ) := by
        rw [Int.toNat_of_nonneg hi.1, Int.toNat_of_nonneg hj.1]
        have c1 : ∀ i, mir (half (v0 % 2) rows.length) (mir b.ll.length i) = mir (half (v0 % 2) rows.length) i := by
          intro i
          have := mir_range (w := (b.ll.length : ℤ)) (by omega) i
          rw [← l1]; exact mir_self this.1 this.2
        have c2 : mir (half (u0 % 2) w) (mir w' j) = mir (half (u0 % 2) w) j := by
          rw [← hww]; exact mir_self hj.1 hj.2
        simp only [lowV, lowH, lowExt, c1, c2]
      rw [e1, e2]; exact e
    have hper : Per2 (half (v0 % 2) rows.length) (half (u0 % 2) w) (img w' b.ll) := by
      rw [← l1, ← hww]; exact img_per w' b.ll
    rw [l1, hww]
    exact ⟨tame_step hp hq hT hper herr, high_step hA hp hq hT hper herr⟩
  · obtain ⟨I, J, hI, hJ⟩ := mem_get hr hx
    exact tri (b2 I J r x hI hJ) (hT.mixed hp hq I J).1
  · obtain ⟨I, J, hI, hJ⟩ := mem_get hr hx
    have := tri (b3 I J r x hI hJ) (hT.mixed hp hq I J).2
    linarith
  · obtain ⟨I, J, hI, hJ⟩ := mem_get hr hx
    obtain ⟨c1, c2, c3⟩ := b4 I J r x hI hJ
    exact tri c3 (hH _ _ I J (by omega) c1 (by omega) c2)

theorem calm_low {m : ℕ} {A : ℚ} {w : ℕ} {rows : List (List ℤ)} (hr : Rect w rows) (hc : Calm m A w rows) :
    ∀ r ∈ rows, ∀ x ∈ r, |(x : ℚ)| ≤ gain m * gain m * A + slip * m := by
  intro r hr' x hx
  obtain ⟨I, J, hI, hJ⟩ := mem_get hr' hx
  have hJ' : J < w := by
    rw [← hr r hr']
    by_contra hc
    rw [List.getElem?_eq_none (by omega)] at hJ; cases hJ
  have := (hc (List.ne_nil_of_mem hr') (by omega)).1.low I J
  rwa [img_at hI hJ hJ'] at this

/-- The widths of the coarser levels. -/
theorem wide_next {n : ℕ} {u0 : ℤ} {w w' : ℕ} (hw' : (w' : ℤ) = ceilHalf (u0 + w) - ceilHalf u0)
    (hl : ∀ l < n + 1, (u0 + 2 ^ l - 1) / 2 ^ l < (u0 + w + 2 ^ l - 1) / 2 ^ l) :
    ∀ l < n, (ceilHalf u0 + 2 ^ l - 1) / 2 ^ l < (ceilHalf u0 + w' + 2 ^ l - 1) / 2 ^ l := by
  intro l hl'
  have h1 := hl (l + 1) (by omega)
  rw [show ceilHalf u0 + (w' : ℤ) = ceilHalf (u0 + w) by omega]
  have key : ∀ u : ℤ, (ceilHalf u + 2 ^ l - 1) / 2 ^ l = (u + 2 ^ (l + 1) - 1) / 2 ^ (l + 1) := by
    intro u
    unfold ceilHalf
    have : (u + 1) / 2 + 2 ^ l - 1 = (u + 2 ^ (l + 1) - 1) / 2 := by
      rw [pow_succ]; omega
    rw [this, Int.ediv_ediv_of_nonneg (by norm_num), pow_succ, mul_comm]
  rw [key, key]; exact h1

theorem tower {A : ℚ} (hA : 0 ≤ A) (n : ℕ) : ∀ {m : ℕ} {u0 v0 : ℤ} {rows : List (List ℤ)} {w : ℕ}, 0 ≤ u0 → 0 ≤ v0 →
    Rect w rows → Calm m A w rows → (∀ l < n, (u0 + 2 ^ l - 1) / 2 ^ l < (u0 + w + 2 ^ l - 1) / 2 ^ l) →
    ∃ ll ds, analyseLevels n u0 v0 rows = some (ll, ds) ∧ ds.length = n ∧
      (∀ r ∈ ll, ∀ x ∈ r, |(x : ℚ)| ≤ gain (m + n) * gain (m + n) * A + slip * (m + n : ℕ)) ∧
      ∀ l (hl : l < ds.length),
        (∀ r ∈ ds[l].hl, ∀ x ∈ r, |(x : ℚ)| ≤ 2 * (gain (m + l + 1) * gain (m + l) * A + slip * (m + l : ℕ)) + 2) ∧
        (∀ r ∈ ds[l].lh, ∀ x ∈ r, |(x : ℚ)| ≤ 2 * (gain (m + l + 1) * gain (m + l) * A + slip * (m + l : ℕ)) + 2) ∧
        (∀ r ∈ ds[l].hh, ∀ x ∈ r, |(x : ℚ)| ≤ highBound A (m + l) + 3 / 2) := by
  induction n with
  | zero =>
    intro m u0 v0 rows w _ _ hr hc _
    exact ⟨rows, [], rfl, rfl, calm_low hr hc, fun l hl => by simp at hl⟩
  | succ n ih =>
    intro m u0 v0 rows w hu hv hr hc hl
    have h0 := hl 0 (by omega)
    have hw : 0 < w := by simp at h0; omega
    obtain ⟨b, eb, ⟨w', rw', hw'⟩, -, -⟩ := level hu hv (w := w) (fun _ => hw) hr
    obtain ⟨hc', b1, b2, b3⟩ := calm_step hA hu hv hw hr hc eb hw'
    obtain ⟨ll, ds, e, ld, bl, bd⟩ := ih (m := m + 1) (u0 := ceilHalf u0) (v0 := ceilHalf v0) (rows := b.ll) (w := w')
      (by unfold ceilHalf; omega) (by unfold ceilHalf; omega) rw' hc' (wide_next hw' hl)
    refine ⟨ll, ⟨b.hl, b.lh, b.hh⟩ :: ds, ?_, by simp [ld], ?_, fun l hl => ?_⟩
    · rw [analyseLevels, eb, Option.bind_some, e]; rfl
    · rw [show m + (n + 1) = m + 1 + n by ring]; exact bl
    · cases l with
      | zero => exact ⟨b1, b2, b3⟩
      | succ l =>
        have := bd l (by simpa using hl)
        rw [show m + (l + 1) = m + 1 + l by ring]
        exact this

theorem gain_sq (m : ℕ) : gain m * gain m ≤ 238 / 125 * (238 / 125) :=
  mul_le_mul (gain_le m).2 (gain_le m).2 (gain_le m).1 (by norm_num)

/-- The same in an arithmetic that is exact up to `M`. -/
theorem tower_exact {rnd : ℤ → ℤ} {M : ℤ} (hr : ∀ z, Bd M z → rnd z = z) {A : ℚ} (hA : 0 ≤ A) (n : ℕ) :
    ∀ {m : ℕ} {u0 v0 : ℤ} {rows : List (List ℤ)} {w : ℕ}, 0 ≤ u0 → 0 ≤ v0 →
    Rect w rows → Calm m A w rows → (∀ l < n, (u0 + 2 ^ l - 1) / 2 ^ l < (u0 + w + 2 ^ l - 1) / 2 ^ l) →
    (8 * (238 / 125 * (238 / 125) * A + slip * (m + n - 1 : ℕ)) + 2 ≤ M) →
    ∃ ll ds, analyseLevels n u0 v0 rows = some (ll, ds) ∧ analyseLevelsM rnd n u0 v0 rows = some (ll, ds) ∧
      synthesiseLevelsM rnd u0 v0 ll ds = some rows := by
  induction n with
  | zero =>
    intro m u0 v0 rows w _ _ _ _ _ _
    exact ⟨rows, [], rfl, rfl, rfl⟩
  | succ n ih =>
    intro m u0 v0 rows w hu hv hrect hc hl hM
    have h0 := hl 0 (by omega)
    have hw : 0 < w := by simp at h0; omega
    have hslip : (0 : ℚ) ≤ slip := by norm_num [slip]
    have hmono : slip * m ≤ slip * (m + (n + 1) - 1 : ℕ) :=
      mul_le_mul_of_nonneg_left (by exact_mod_cast (by omega)) hslip
    have hbd : BdAll ((M - 2) / 8) rows := by
      intro r hr' x hx
      have h1 := calm_low hrect hc r hr' x hx
      have h2 := mul_le_mul_of_nonneg_right (gain_sq m) hA
      have h3 : 8 * |(x : ℚ)| + 2 ≤ M := by linarith
      have h4 : 8 * |x| + 2 ≤ M := by exact_mod_cast h3
      exact abs_le.1 (by omega)
    have hM8 : 0 ≤ (M - 2) / 8 := by
      have h1 : (0 : ℚ) ≤ 238 / 125 * (238 / 125) * A := by positivity
      have h2 : (0 : ℚ) ≤ slip * (m + (n + 1) - 1 : ℕ) := by positivity
      have : (2 : ℚ) ≤ M := by linarith
      have : 2 ≤ M := by exact_mod_cast this
      omega
    obtain ⟨b, eb, ebM, ⟨w', rw', hw'⟩, -, -, -, -, sb⟩ := levelM hr (by omega) hM8 hu hv (fun _ => hw) hrect hbd
    obtain ⟨hc', -, -, -⟩ := calm_step hA hu hv hw hrect hc eb hw'
    obtain ⟨ll, ds, e, eM, s⟩ := ih (m := m + 1) (u0 := ceilHalf u0) (v0 := ceilHalf v0) (rows := b.ll) (w := w')
      (by unfold ceilHalf; omega) (by unfold ceilHalf; omega) rw' hc' (wide_next hw' hl)
      (by rw [show m + 1 + n - 1 = m + (n + 1) - 1 by omega]; exact hM)
    refine ⟨ll, ⟨b.hl, b.lh, b.hh⟩ :: ds, ?_, ?_, ?_⟩
    · rw [analyseLevels, eb, Option.bind_some, e]; rfl
    · rw [analyseLevelsM, ebM, Option.bind_some, eM]; rfl
    · rw [synthesiseLevelsM, s, Option.bind_some]; exact sb

end Verif.Dwt.Gain
