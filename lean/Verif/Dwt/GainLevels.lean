import Verif.Dwt.GainPlane
import Verif.Dwt.MachineLemmas

/-!
# From the bounds on the exact filters to the integer transform of `Verif.Dwt.Image`
-/

namespace Verif.Dwt.Gain

variable {α : Type}

/-! ## One line -/

theorem rev53_low {p : ℤ} (hp : p = 0 ∨ p = 1) (s : ℤ → ℤ) (j : ℤ) :
    |((analyseAll rev53 p s (2 * j + p) : ℤ) : ℚ) - low p (fun k => (s k : ℚ)) j| ≤ 3 / 4 := by
  have e : ∃ v, analyseAll rev53 p s (2 * j + p) = v ∧
      -2 ≤ 8 * v - (6 * s (2 * j + p) + 2 * (s (2 * j + p - 1) + s (2 * j + p + 1)) -
        (s (2 * j + p - 2) + s (2 * j + p + 2))) ∧
      8 * v - (6 * s (2 * j + p) + 2 * (s (2 * j + p - 1) + s (2 * j + p + 1)) -
        (s (2 * j + p - 2) + s (2 * j + p + 2))) ≤ 6 := by
    refine ⟨_, rfl, ?_⟩
    have hk : (2 * j + p) % 2 = p := by omega
    generalize 2 * j + p = k at *
    simp only [analyseAll, rev53, liftAll, if_pos hk, if_neg (show ¬ k % 2 = 1 - p by omega),
      if_pos (show (k - 1) % 2 = 1 - p by omega), if_pos (show (k + 1) % 2 = 1 - p by omega)]
    rw [show k - 1 + 1 = k by ring, show k + 1 - 1 = k by ring, show k - 1 - 1 = k - 2 by ring,
      show k + 1 + 1 = k + 2 by ring]
    constructor <;> omega
  obtain ⟨v, ev, h1, h2⟩ := e
  rw [ev]
  have h1 : (-2 : ℚ) ≤ 8 * v - (6 * s (2 * j + p) + 2 * (s (2 * j + p - 1) + s (2 * j + p + 1)) -
        (s (2 * j + p - 2) + s (2 * j + p + 2))) := by exact_mod_cast h1
  have h2 : 8 * v - (6 * s (2 * j + p) + 2 * (s (2 * j + p - 1) + s (2 * j + p + 1)) -
        (s (2 * j + p - 2) + s (2 * j + p + 2))) ≤ (6 : ℚ) := by exact_mod_cast h2
  unfold low
  rw [abs_le]; constructor <;> linarith

theorem rev53_highpass {p : ℤ} (hp : p = 0 ∨ p = 1) (s : ℤ → ℤ) (j : ℤ) :
    |((analyseAll rev53 p s (2 * j + (1 - p)) : ℤ) : ℚ) - high p (fun k => (s k : ℚ)) j| ≤ 1 / 2 := by
  have e : ∃ v, analyseAll rev53 p s (2 * j + (1 - p)) = v ∧
      0 ≤ 2 * v - (2 * s (2 * j + (1 - p)) - (s (2 * j + (1 - p) - 1) + s (2 * j + (1 - p) + 1))) ∧
      2 * v - (2 * s (2 * j + (1 - p)) - (s (2 * j + (1 - p) - 1) + s (2 * j + (1 - p) + 1))) ≤ 1 := by
    refine ⟨_, rfl, ?_⟩
    have hk : ¬ (2 * j + (1 - p)) % 2 = p := by omega
    have hk' : (2 * j + (1 - p)) % 2 = 1 - p := by omega
    generalize 2 * j + (1 - p) = k at *
    simp only [analyseAll, rev53, liftAll, if_neg hk, if_pos hk']
    constructor <;> omega
  obtain ⟨v, ev, h1, h2⟩ := e
  rw [ev]
  have h1 : (0 : ℚ) ≤ 2 * v - (2 * s (2 * j + (1 - p)) - (s (2 * j + (1 - p) - 1) + s (2 * j + (1 - p) + 1))) := by
    exact_mod_cast h1
  have h2 : 2 * v - (2 * s (2 * j + (1 - p)) - (s (2 * j + (1 - p) - 1) + s (2 * j + (1 - p) + 1))) ≤ (1 : ℚ) := by
    exact_mod_cast h2
  unfold high
  rw [abs_le]; constructor <;> linarith

/-- The symmetric extension of a list, in rational numbers. -/
def sigOf (π : α → ℤ) (x : List α) (k : ℤ) : ℚ := ((((x[(mir x.length k).toNat]?).map π).getD 0 : ℤ) : ℚ)

theorem line {F : Filter α} {sg : α → α} {π : α → ℤ} {P : α → Prop}
    (hπ : ∀ p s, (∀ k, P (s k)) → ∀ k, π (analyseAll F p s k) = analyseAll rev53 p (fun k => π (s k)) k)
    (hsg : ∀ a, P a → π (sg a) = 2 * π a) {i0 : ℤ} (h0 : 0 ≤ i0) {x : List α} (hx : ∀ a ∈ x, P a) (hne : x ≠ [])
    {y : List α} (e : analyseExt F sg i0 x = some y) (j : ℕ) (a : α) :
    (y[2 * j + (i0 % 2).toNat]? = some a → |(π a : ℚ) - low (i0 % 2) (sigOf π x) j| ≤ 3 / 4) ∧
      (y[2 * j + (1 - i0 % 2).toNat]? = some a → |(π a : ℚ) - highExt (i0 % 2) x.length (sigOf π x) j| ≤ 1 / 2) := by
  have hpos : 0 < x.length := List.length_pos_iff.2 hne
  have hp : i0 % 2 = 0 ∨ i0 % 2 = 1 := by omega
  by_cases hw : x.length = 1
  · obtain ⟨b, rfl⟩ := List.length_eq_one_iff.1 hw
    have hb := hsg b (hx b (by simp))
    have hsig : ∀ k, sigOf π [b] k = π b := by intro k; simp [sigOf, mir]
    simp only [analyseExt, List.length_singleton, if_true] at e
    have hlow : ∀ j, low (i0 % 2) (sigOf π [b]) j = π b := by
      intro j; unfold low; simp only [hsig]; ring
    have hhigh : highExt (i0 % 2) ([b] : List α).length (sigOf π [b]) j = 2 * π b := by
      unfold highExt; simp [hsig]
    rw [hlow, hhigh]
    rcases hp with hp | hp
    · simp only [hp] at e
      simp at e
      subst e
      rw [hp]
      constructor
      · intro h
        cases j with
        | zero => simp at h; subst h; norm_num
        | succ j => simp at h
      · intro h; simp at h
    · simp only [hp] at e
      simp at e
      subst e
      rw [hp]
      constructor
      · intro h; simp at h
      · intro h
        cases j with
        | zero => simp at h; subst h; rw [hb]; push_cast; norm_num
        | succ j => simp at h
  · have hw2 : 2 ≤ x.length := by omega
    obtain ⟨s, hs⟩ := ext_exists (x := x) hw2
    have hP := hs.pred hx
    obtain ⟨y', ey, hy⟩ := analyseExt_spec (flt := F) (single := sg) h0 hw2 hs
    rw [e, Option.some.injEq] at ey
    subst ey
    have hsig : sigOf π x = fun k => ((π (s k) : ℤ) : ℚ) := by
      funext k
      unfold sigOf mir
      rw [if_neg (by omega), hs k]
      rfl
    have get : ∀ (k : ℕ) a, y[k]? = some a → π a = analyseAll rev53 (i0 % 2) (fun k => π (s k)) k := by
      intro k a h
      have hk : k < y.length := by
        by_contra hc
        rw [List.getElem?_eq_none (by omega)] at h; cases h
      have := hy.2 k (by omega) (by rw [← hy.1]; omega)
      rw [Int.toNat_natCast, h, Option.some.injEq] at this
      rw [this, hπ _ _ hP]
    constructor
    · intro h
      rw [get _ _ h, hsig]
      have := rev53_low hp (fun k => π (s k)) j
      rw [show (((2 * j + (i0 % 2).toNat : ℕ)) : ℤ) = 2 * (j : ℤ) + i0 % 2 by push_cast; omega]
      exact this
    · intro h
      rw [get _ _ h, hsig]
      have := rev53_highpass hp (fun k => π (s k)) j
      rw [show (((2 * j + (1 - i0 % 2).toNat : ℕ)) : ℤ) = 2 * (j : ℤ) + (1 - i0 % 2) by push_cast; omega]
      unfold highExt
      rw [if_neg (by omega)]
      exact this

/-! ## Splitting -/

theorem everyOther_get (x : List α) : ∀ j, (everyOther x)[j]? = x[2 * j]? := by
  induction x using everyOther.induct with
  | case1 => simp [everyOther]
  | case2 a =>
    intro j
    cases j with
    | zero => simp [everyOther]
    | succ j => simp [everyOther]
  | case3 a b l ih =>
    intro j
    cases j with
    | zero => simp [everyOther]
    | succ j =>
      rw [everyOther, List.getElem?_cons_succ, ih, show 2 * (j + 1) = 2 * j + 1 + 1 by ring, List.getElem?_cons_succ,
        List.getElem?_cons_succ]

theorem split_get (i0 : ℤ) (x : List α) (j : ℕ) :
    (split i0 x).1[j]? = x[2 * j + (i0 % 2).toNat]? ∧ (split i0 x).2[j]? = x[2 * j + (1 - i0 % 2).toNat]? := by
  have ht : (everyOther x.tail)[j]? = x[2 * j + 1]? := by
    rw [everyOther_get, List.getElem?_tail]
  unfold split
  split_ifs with h
  · rw [h]
    exact ⟨by simpa using everyOther_get x j, by simpa using ht⟩
  · rw [show i0 % 2 = 1 by omega]
    exact ⟨by simpa using ht, by simpa using everyOther_get x j⟩

theorem split_length (i0 : ℤ) (x : List α) : ((split i0 x).1.length : ℤ) = half (i0 % 2) x.length := by
  unfold split half
  split_ifs <;> simp only [length_everyOther, List.length_tail] <;> omega

/-! ## One level -/

/-- The symmetric extension of an image with rows of `w` samples. -/
def img (w : ℕ) (rows : List (List ℤ)) (i j : ℤ) : ℚ := sigOf (fun r => (r[(mir w j).toNat]?).getD 0) rows i

theorem mir_self {w k : ℤ} (h0 : 0 ≤ k) (h1 : k < w) : mir w k = k := by
  unfold mir
  split_ifs
  · omega
  · exact mirror_self h0 h1

theorem mir_range {w : ℤ} (hw : 0 < w) (k : ℤ) : 0 ≤ mir w k ∧ mir w k < w := by
  unfold mir
  split_ifs
  · omega
  · exact mirror_range (by omega) k

theorem img_per (w : ℕ) (rows : List (List ℤ)) : Per2 rows.length w (img w rows) :=
  ⟨fun j => per_mir _ fun k => ((((rows[k.toNat]?).map fun r => (r[(mir w j).toNat]?).getD 0).getD 0 : ℤ) : ℚ),
   fun i => per_mir _ fun k => ((((rows[(mir rows.length i).toNat]?).map fun r => (r[k.toNat]?).getD 0).getD 0 : ℤ) : ℚ)⟩

theorem lowExt_at {p w : ℤ} {s : ℤ → ℚ} {k : ℤ} (h0 : 0 ≤ k) (h1 : k < half p w) : lowExt p w s k = low p s k := by
  unfold lowExt; rw [mir_self h0 h1]

/-- A second filter applied to a line known up to an error. -/
theorem second_filter {G : (ℤ → ℚ) → ℚ} (hadd : ∀ s t : ℤ → ℚ, G (fun k => s k + t k) = G s + G t) {K C : ℚ}
    (hb : ∀ t : ℤ → ℚ, (∀ k, |t k| ≤ C) → |G t| ≤ K * C) {f s : ℤ → ℚ} (h : ∀ k, |s k - f k| ≤ C) {a d : ℚ}
    (ha : |a - G s| ≤ d) : |a - G f| ≤ d + K * C := by
  have e : G s = G f + G fun k => s k - f k := by
    rw [← hadd]; congr 1; funext k; ring
  have h1 := hb _ h
  have h2 := abs_le.1 ha
  have h3 := abs_le.1 h1
  rw [abs_le]
  constructor <;> linarith

theorem low_add (p : ℤ) (j : ℤ) (s t : ℤ → ℚ) : low p (fun k => s k + t k) j = low p s j + low p t j := by
  simp only [low]; ring

theorem level_bands {rows : List (List ℤ)} {u0 v0 : ℤ} (hu : 0 ≤ u0) (hv : 0 ≤ v0) {w : ℕ} (hw : 0 < w)
    (hne : rows ≠ []) (hr : Rect w rows) {b : Bands} (eb : analyse2d u0 v0 rows = some b) :
    (b.ll.length : ℤ) = half (v0 % 2) rows.length ∧
    (∀ r ∈ b.ll, (r.length : ℤ) = half (u0 % 2) w) ∧
    (∀ (I J : ℕ) r x, b.ll[I]? = some r → r[J]? = some x →
      |(x : ℚ) - lowV (v0 % 2) rows.length (lowH (u0 % 2) w (img w rows)) I J| ≤ 15 / 8) ∧
    (∀ (I J : ℕ) r x, b.hl[I]? = some r → r[J]? = some x →
      |(x : ℚ) - lowV (v0 % 2) rows.length (highH (u0 % 2) w (img w rows)) I J| ≤ 2) ∧
    (∀ (I J : ℕ) r x, b.lh[I]? = some r → r[J]? = some x →
      |(x : ℚ) - highV (v0 % 2) rows.length (lowH (u0 % 2) w (img w rows)) I J| ≤ 3 / 2) ∧
    (∀ (I J : ℕ) r x, b.hh[I]? = some r → r[J]? = some x →
      2 * (I : ℤ) + (1 - v0 % 2) < rows.length ∧ 2 * (J : ℤ) + (1 - u0 % 2) < w ∧
      |(x : ℚ) - highV (v0 % 2) rows.length (highH (u0 % 2) w (img w rows)) I J| ≤ 3 / 2) := by
  -- the two passes
  have hb := eb
  unfold analyse2d at hb
  rw [if_neg hne] at hb
  simp only [Option.bind_eq_bind, Option.bind_eq_some_iff] at hb
  obtain ⟨v, ev, h, eh, hb⟩ := hb
  have hb : b = ⟨(split v0 h).1.map (fun r => (split u0 r).1), (split v0 h).1.map (fun r => (split u0 r).2),
      (split v0 h).2.map (fun r => (split u0 r).1), (split v0 h).2.map (fun r => (split u0 r).2)⟩ :=
    (Option.some.inj hb).symm
  clear eb
  -- lengths
  obtain ⟨v', ev', -, lv, pv, -, -, -⟩ := reconstruct1d (rev53_undoes_rows w) (sg := List.map double)
    (sg' := List.map halve) (by
      intro a ha
      refine ⟨by simpa using ha, ?_⟩
      rw [List.map_map]
      conv_rhs => rw [← List.map_id a]
      exact List.map_congr_left fun x _ => halve_double x) hv hr hne
  rw [ev, Option.some.injEq] at ev'
  subst ev'
  have hrow : ∀ r ∈ v, ∃ y, analyseExt rev53 double u0 r = some y ∧ y.length = w := by
    intro r hr
    obtain ⟨y, e, -, ly, -, s, -⟩ := reconstruct1d rev53_undoes (sg := double) (sg' := halve)
      (fun a _ => ⟨trivial, halve_double a⟩) hu (x := r) (fun _ _ => trivial)
      (by rw [← List.length_pos_iff, pv r hr]; exact hw)
    exact ⟨y, e, by rw [ly, pv r hr]⟩
  obtain ⟨h', eh', lh, hh⟩ := mapM_some fun r hr => (hrow r hr).imp fun y hy => hy.1
  rw [eh, Option.some.injEq] at eh'
  subst eh'
  have hlen : ∀ r ∈ h, r.length = w := by
    intro r hr
    obtain ⟨i, hi, rfl⟩ := List.mem_iff_getElem.1 hr
    obtain ⟨y, e, ly⟩ := hrow v[i] (List.getElem_mem (by omega))
    rw [hh i (by omega) hi, Option.some.injEq] at e
    rw [e]; exact ly
  -- every row of `h` comes from a row of `v`
  have hsrc : ∀ (k : ℕ) r, h[k]? = some r → k < rows.length ∧ ∃ t, v[k]? = some t ∧ t.length = w ∧
      analyseExt rev53 double u0 t = some r := by
    intro k r hk
    have hk' : k < h.length := by
      by_contra hc
      rw [List.getElem?_eq_none (by omega)] at hk; cases hk
    rw [List.getElem?_eq_getElem hk', Option.some.injEq] at hk
    subst hk
    have hkv : k < v.length := by omega
    exact ⟨by omega, v[k], List.getElem?_eq_getElem hkv, pv _ (List.getElem_mem hkv), hh k hkv hk'⟩
  -- a row of `v` at any column of the extension
  have hcol : ∀ (k : ℕ) t, v[k]? = some t → t.length = w → ∀ (I : ℕ),
      (k = 2 * I + (v0 % 2).toNat → ∀ j, |sigOf id t j - low (v0 % 2) (fun i => img w rows i j) I| ≤ 3 / 4) ∧
      (k = 2 * I + (1 - v0 % 2).toNat →
        ∀ j, |sigOf id t j - highExt (v0 % 2) rows.length (fun i => img w rows i j) I| ≤ 1 / 2) := by
    intro k t hk lt I
    have hc : ∀ j, (mir w j).toNat < w := fun j => by have := mir_range (w := (w : ℤ)) (by omega) j; omega
    have hl := fun j => line (F := rev53.onRows) (sg := List.map double) (π := fun r => (r[(mir w j).toNat]?).getD 0)
      (P := fun r => r.length = w)
      (fun p s hs k => congrFun (analyseRows_col hs (hc j)) k)
      (fun a ha => by
        rw [List.getElem?_map, List.getElem?_eq_getElem (by rw [ha]; exact hc j)]
        simp only [Option.map_some, Option.getD_some, double]; ring) hv hr hne ev I t
    have hs : ∀ j, sigOf id t j = (((t[(mir w j).toNat]?).getD 0 : ℤ) : ℚ) := by
      intro j; unfold sigOf; rw [lt]; simp
    refine ⟨fun hkk j => ?_, fun hkk j => ?_⟩
    · rw [hs]; exact (hl j).1 (by rw [← hkk]; exact hk)
    · rw [hs]; exact (hl j).2 (by rw [← hkk]; exact hk)
  -- a coefficient of a row of `h`
  have hcoef : ∀ (k : ℕ) t r, analyseExt rev53 double u0 t = some r → t.length = w → ∀ (J : ℕ) (x : ℤ),
      (r[2 * J + (u0 % 2).toNat]? = some x → |(x : ℚ) - low (u0 % 2) (sigOf id t) J| ≤ 3 / 4) ∧
      (r[2 * J + (1 - u0 % 2).toNat]? = some x → |(x : ℚ) - highExt (u0 % 2) w (sigOf id t) J| ≤ 1 / 2) := by
    intro k t r e lt J x
    have := line (F := rev53) (sg := double) (π := id) (P := fun _ => True) (fun p s _ k => rfl)
      (fun a _ => by simp only [id, double]; ring) hu (x := t) (fun _ _ => trivial)
      (by rw [← List.length_pos_iff, lt]; exact hw) e J x
    rw [lt] at this
    exact this
  -- ranges
  have in1 : ∀ (i0 : ℤ) (n I : ℕ), 2 * I + (i0 % 2).toNat < n → (I : ℤ) < half (i0 % 2) n := by
    intro i0 n I hI; unfold half; omega
  have lt_of_get : ∀ {l : List ℤ} {k : ℕ} {x}, l[k]? = some x → k < l.length := by
    intro l k x hk
    by_contra hc
    rw [List.getElem?_eq_none (by omega)] at hk; cases hk
  rw [hb]
  refine ⟨?_, ?_, ?_, ?_, ?_, ?_⟩
  · rw [List.length_map, split_length, lh, lv]
  · intro r hr
    obtain ⟨q, hq, rfl⟩ := List.mem_map.1 hr
    rw [split_length, hlen q ((split_subset v0 h).1 q hq)]
  · intro I J r x hI hJ
    simp only [List.getElem?_map, Option.map_eq_some_iff] at hI
    obtain ⟨r', hr', rfl⟩ := hI
    rw [(split_get v0 h I).1] at hr'
    rw [(split_get u0 r' J).1] at hJ
    obtain ⟨hk, t, ht, lt, et⟩ := hsrc _ _ hr'
    have hJl : 2 * J + (u0 % 2).toNat < w := by
      rw [← hlen r' (List.mem_of_getElem? hr')]; exact lt_of_get hJ
    have a := (hcol _ _ ht lt I).1 rfl
    have c := (hcoef 0 _ _ et lt J x).1 hJ
    have := second_filter (G := fun s => low (u0 % 2) s J) (low_add _ _) (K := 3 / 2)
      (fun t ht => low_le ht _) a c
    rw [← lowH_lowV]
    unfold lowH lowV
    rw [lowExt_at (by omega) (in1 _ _ _ hJl)]
    simp only [lowExt_at (show (0 : ℤ) ≤ I by omega) (in1 _ _ _ hk)]
    norm_num at this
    exact this
  · intro I J r x hI hJ
    simp only [List.getElem?_map, Option.map_eq_some_iff] at hI
    obtain ⟨r', hr', rfl⟩ := hI
    rw [(split_get v0 h I).1] at hr'
    rw [(split_get u0 r' J).2] at hJ
    obtain ⟨hk, t, ht, lt, et⟩ := hsrc _ _ hr'
    have a := (hcol _ _ ht lt I).1 rfl
    have c := (hcoef 0 _ _ et lt J x).2 hJ
    have := second_filter (G := fun s => highExt (u0 % 2) w s J) (fun s t => congrFun (highExt_add _ _ s t) _) (K := 2)
      (fun t ht => highExt_le ht _) a c
    rw [← highH_lowV]
    unfold highH lowV
    simp only [lowExt_at (show (0 : ℤ) ≤ I by omega) (in1 _ _ _ hk)]
    norm_num at this
    exact this
  · intro I J r x hI hJ
    simp only [List.getElem?_map, Option.map_eq_some_iff] at hI
    obtain ⟨r', hr', rfl⟩ := hI
    rw [(split_get v0 h I).2] at hr'
    rw [(split_get u0 r' J).1] at hJ
    obtain ⟨hk, t, ht, lt, et⟩ := hsrc _ _ hr'
    have hJl : 2 * J + (u0 % 2).toNat < w := by
      rw [← hlen r' (List.mem_of_getElem? hr')]; exact lt_of_get hJ
    have a := (hcol _ _ ht lt I).2 rfl
    have c := (hcoef 0 _ _ et lt J x).1 hJ
    have := second_filter (G := fun s => low (u0 % 2) s J) (low_add _ _) (K := 3 / 2)
      (fun t ht => low_le ht _) a c
    rw [← lowH_highV]
    unfold lowH highV
    rw [lowExt_at (by omega) (in1 _ _ _ hJl)]
    norm_num at this
    exact this
  · intro I J r x hI hJ
    simp only [List.getElem?_map, Option.map_eq_some_iff] at hI
    obtain ⟨r', hr', rfl⟩ := hI
    rw [(split_get v0 h I).2] at hr'
    rw [(split_get u0 r' J).2] at hJ
    obtain ⟨hk, t, ht, lt, et⟩ := hsrc _ _ hr'
    have hJl : 2 * J + (1 - u0 % 2).toNat < w := by
      rw [← hlen r' (List.mem_of_getElem? hr')]; exact lt_of_get hJ
    have a := (hcol _ _ ht lt I).2 rfl
    have c := (hcoef 0 _ _ et lt J x).2 hJ
    have := second_filter (G := fun s => highExt (u0 % 2) w s J) (fun s t => congrFun (highExt_add _ _ s t) _) (K := 2)
      (fun t ht => highExt_le ht _) a c
    refine ⟨by omega, by omega, ?_⟩
    rw [← highH_highV]
    unfold highH highV
    norm_num at this
    exact this

end Verif.Dwt.Gain
