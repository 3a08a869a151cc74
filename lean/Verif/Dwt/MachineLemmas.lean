import Verif.Dwt.ImageLemmas
import Verif.Dwt.Machine

/-!
# Lemmas on the transform in machine arithmetic: growth of the coefficients, exactness
-/

namespace Verif.Dwt

variable {α : Type}

/-- What is needed of a filter `F` with inverse `inv`, and of machine versions `FM`, `invM`, on samples satisfying
`P`: the machine versions agree, low-pass results satisfy `Q` and high-pass ones `R`. -/
structure Exact (T P Q R : α → Prop) (F inv FM invM : Filter α) (sg sgM sg' : α → α) : Prop where
  undoes : UndoesAll T F inv
  weaker : ∀ a, P a → T a
  fwd : ∀ (p : Int) (s : Int → α), (∀ k, P (s k)) → analyseAll FM p s = analyseAll F p s
  low : ∀ (p : Int) (s : Int → α), p = 0 ∨ p = 1 → (∀ k, P (s k)) → ∀ k, k % 2 = p → Q (analyseAll F p s k)
  high : ∀ (p : Int) (s : Int → α), p = 0 ∨ p = 1 → (∀ k, P (s k)) → ∀ k, k % 2 ≠ p → R (analyseAll F p s k)
  bwd : ∀ (p : Int) (s : Int → α), (∀ k, P (s k)) → synthesiseAll invM p (analyseAll F p s) = s
  single : ∀ a, P a → Q a ∧ R (sg a) ∧ sgM a = sg a ∧ sg' (sg a) = a

theorem Exact.row {T P Q R : α → Prop} {F inv FM invM : Filter α} {sg sgM sg' : α → α}
    (h : Exact T P Q R F inv FM invM sg sgM sg') {i0 : Int} (h0 : 0 ≤ i0) {x : List α} (hx : ∀ a ∈ x, P a)
    (hne : x ≠ []) :
    ∃ y, analyseExt F sg i0 x = some y ∧ analyseExt FM sgM i0 x = some y ∧ y.length = x.length ∧
      (∀ i (hi : i < y.length), (i0 + i) % 2 = 0 → Q y[i]) ∧ (∀ i (hi : i < y.length), (i0 + i) % 2 ≠ 0 → R y[i]) ∧
      synthesiseRow invM sg' i0 y = some x ∧ synthesiseCols invM true sg' i0 y = some x := by
  have hpos : 0 < x.length := List.length_pos_iff.2 hne
  by_cases hw : x.length = 1
  · obtain ⟨a, rfl⟩ := List.length_eq_one_iff.1 hw
    obtain ⟨q, r, e1, e2⟩ := h.single a (hx a (by simp))
    by_cases hp : i0 % 2 = 0
    · refine ⟨[a], ?_⟩
      simp only [analyseExt, synthesiseRow, synthesiseCols, hp, List.length_singleton]
      refine ⟨by simp, by simp, trivial, fun i hi _ => ?_, fun i hi hc => ?_, by simp, by simp⟩
      · simpa using q
      · simp at hi; subst hi; simp at hc; omega
    · refine ⟨[sg a], ?_⟩
      simp only [analyseExt, synthesiseRow, synthesiseCols, List.length_singleton]
      refine ⟨by simp [hp], by simp [hp, e1], trivial, fun i hi hc => ?_, fun i hi hc => ?_, by simp [hp, e2],
        by simp [hp, e2]⟩
      · simp at hi; subst hi; simp at hc; omega
      · simpa using r
  · obtain ⟨s, hs⟩ := ext_exists (x := x) (by omega)
    have hw2 : 2 ≤ x.length := by omega
    have hP := hs.pred hx
    obtain ⟨y, ey, hy⟩ := analyseExt_spec (flt := F) (single := sg) h0 hw2 hs
    obtain ⟨y', ey', hy'⟩ := analyseExt_spec (flt := FM) (single := sgM) h0 hw2 hs
    rw [h.fwd _ _ hP] at hy'
    obtain rfl := hy.unique hy'
    obtain ⟨-, hext, -⟩ := reconstruct h.undoes (fun a ha => h.weaker a (hx a ha)) hw2 hs hy
    have ly := hy.1
    obtain ⟨z, ez, hz⟩ := synthesiseRow_spec (flt := invM) (single := sg') h0 (by omega) hext
    obtain ⟨z', ez', hz'⟩ := synthesiseExt_spec (flt := invM) h0 (by omega) hext
    rw [h.bwd _ _ hP, ly] at hz hz'
    obtain rfl := hz.unique hs.lists
    obtain rfl := hz'.unique hs.lists
    have hget : ∀ i (hi : i < y.length), y[i] = analyseAll F (i0 % 2) s i := by
      intro i hi
      have := hy.2 i (by omega) (by rw [← ly]; omega)
      simpa [List.getElem?_eq_getElem hi] using this
    refine ⟨y, ey, ey', ly, fun i hi hc => ?_, fun i hi hc => ?_, ez, ?_⟩
    · rw [hget]; exact h.low _ _ (by omega) hP _ (by omega)
    · rw [hget]; exact h.high _ _ (by omega) hP _ (by omega)
    · unfold synthesiseCols
      rw [if_neg (by omega), ez']

/-! ## Samples -/

/-- Absolute value at most `A`. -/
def Bd (A x : Int) : Prop := -A ≤ x ∧ x ≤ A

/-- Twice the absolute value at most `A`. -/
def Bd2 (A x : Int) : Prop := -A ≤ 2 * x ∧ 2 * x ≤ A

section
variable {rnd : Int → Int} {M A : Int}

theorem rev53_high {p : Int} {s : Int → Int} (hs : ∀ k, Bd A (s k)) (k : Int) :
    Bd (2 * A) (liftAll (1 - p) (fun a b t : Int => t - (a + b) / 2) s k) := by
  have h1 := hs k
  have h2 := hs (k - 1)
  have h3 := hs (k + 1)
  unfold Bd at *
  simp only [liftAll]
  split_ifs <;> constructor <;> omega

theorem liftAll_congr {p : Int} {f g : Step α} {s t : Int → α} (hst : s = t)
    (h : ∀ k, k % 2 = p → f (t (k - 1)) (t (k + 1)) (t k) = g (t (k - 1)) (t (k + 1)) (t k)) :
    liftAll p f s = liftAll p g t := by
  subst hst
  funext k
  unfold liftAll
  split_ifs with hk
  · exact h k hk
  · rfl

theorem rev53_exact (hr : ∀ z, Bd M z → rnd z = z) (hM : 4 * A + 2 ≤ M) :
    Exact (fun _ => True) (Bd A) (Bd2 (3 * A + 1)) (Bd (2 * A)) rev53 rev53Inv (rev53M rnd) (rev53InvM rnd)
      double (doubleM rnd) halve := by
  have hlow : ∀ (p : Int) (s : Int → Int), p = 0 ∨ p = 1 → (∀ k, Bd A (s k)) → ∀ k, k % 2 = p →
      Bd2 (3 * A + 1) (analyseAll rev53 p s k) := by
    intro p s hp hs k hk
    have h0 := hs k
    have h1 := hs (k - 1)
    have h2 := hs (k + 1)
    have h3 := hs (k - 1 - 1)
    have h4 := hs (k + 1 + 1)
    simp only [analyseAll, rev53, liftAll, if_pos hk, if_neg (show ¬ k % 2 = 1 - p by omega),
      if_pos (show (k - 1) % 2 = 1 - p by omega), if_pos (show (k + 1) % 2 = 1 - p by omega)]
    rw [show k - 1 + 1 = k by ring, show k + 1 - 1 = k by ring]
    unfold Bd Bd2 at *
    constructor <;> omega
  have hhigh : ∀ (p : Int) (s : Int → Int), (∀ k, Bd A (s k)) → ∀ k, k % 2 ≠ p →
      Bd (2 * A) (analyseAll rev53 p s k) := by
    intro p s hs k hk
    have := rev53_high (p := p) hs k
    simp only [analyseAll, rev53]
    rw [liftAll, if_neg hk]
    exact this
  refine ⟨rev53_undoes, fun _ _ => trivial, ?_, hlow, fun p s _ => hhigh p s, ?_, ?_⟩
  · intro p s hs
    simp only [analyseAll, rev53M, rev53]
    refine liftAll_congr (liftAll_congr rfl fun k _ => ?_) fun k hk => ?_
    · have h0 := hs k
      have h1 := hs (k - 1)
      have h2 := hs (k + 1)
      unfold Bd at *
      rw [hr (s (k - 1) + s (k + 1)) (by omega), hr _ (by omega)]
    · have h0 := rev53_high (p := p) hs k
      have h1 := rev53_high (p := p) hs (k - 1)
      have h2 := rev53_high (p := p) hs (k + 1)
      generalize liftAll (1 - p) (fun a b t : Int => t - (a + b) / 2) s = t at *
      unfold Bd at *
      rw [hr (t (k - 1) + t (k + 1)) (by omega), hr (t (k - 1) + t (k + 1) + 2) (by omega), hr _ (by omega)]
  · intro p s hs
    simp only [analyseAll, synthesiseAll, rev53InvM, rev53]
    have hb := rev53_high (p := p) hs
    have e1 : liftAll p (fun a b t => rnd (t - rnd (rnd (a + b) + 2) / 4))
        (liftAll p (fun a b t => t + (a + b + 2) / 4) (liftAll (1 - p) (fun a b t => t - (a + b) / 2) s)) =
        liftAll (1 - p) (fun a b t => t - (a + b) / 2) s := by
      refine liftAll_inverse (P := Bd (2 * A)) (fun a b t ha hb' ht => ?_) hb
      unfold Bd at *
      rw [hr (a + b) (by omega), hr (a + b + 2) (by omega), hr _ (by omega)]
      omega
    rw [e1]
    refine liftAll_inverse (P := Bd A) (fun a b t ha hb' ht => ?_) hs
    unfold Bd at *
    rw [hr (a + b) (by omega), hr _ (by omega)]
    omega
  · intro a ha
    unfold Bd Bd2 at *
    refine ⟨by omega, by unfold double; omega, ?_, halve_double a⟩
    unfold doubleM double
    exact hr _ (by omega)
end

/-! ## Rows -/

/-- A row of `w` samples that satisfy `P`. -/
def Rowed (w : Nat) (P : Int → Prop) (r : List Int) : Prop := r.length = w ∧ ∀ a ∈ r, P a

/-- One column of a signal of rows. -/
def col (s : Int → List Int) (j : Nat) : Int → Int := fun k => ((s k)[j]?).getD 0

theorem col_lift {w : Nat} {p : Int} {f : Step Int} {s : Int → List Int} (hs : ∀ k, (s k).length = w) {j : Nat}
    (hj : j < w) : col (liftAll p (rowStep f) s) j = liftAll p f (col s j) := by
  funext k
  simp only [col, liftAll]
  split_ifs
  · have hl := rowStep_length (f := f) (hs (k - 1)) (hs (k + 1)) (hs k)
    rw [List.getElem?_eq_getElem (by rw [hl]; exact hj), Option.getD_some,
      rowStep_get (hs (k - 1)) (hs (k + 1)) (hs k), List.getElem?_eq_getElem (by rw [hs]; exact hj),
      List.getElem?_eq_getElem (by rw [hs]; exact hj), List.getElem?_eq_getElem (by rw [hs]; exact hj)]
    rfl
  · rfl

theorem lift_length {w : Nat} {p : Int} {f : Step Int} {s : Int → List Int} (hs : ∀ k, (s k).length = w) (k : Int) :
    (liftAll p (rowStep f) s k).length = w := by
  unfold liftAll
  split_ifs
  · exact rowStep_length (hs _) (hs _) (hs _)
  · exact hs k

theorem analyseRows_length {w : Nat} {p : Int} {F : Filter Int} {s : Int → List Int} (hs : ∀ k, (s k).length = w)
    (k : Int) : (analyseAll F.onRows p s k).length = w := by
  cases F with
  | two a b => exact lift_length (lift_length hs) k
  | four a b c d => exact lift_length (lift_length (lift_length (lift_length hs))) k

theorem synthesiseRows_length {w : Nat} {p : Int} {F : Filter Int} {s : Int → List Int}
    (hs : ∀ k, (s k).length = w) (k : Int) : (synthesiseAll F.onRows p s k).length = w := by
  cases F with
  | two a b => exact lift_length (lift_length hs) k
  | four a b c d => exact lift_length (lift_length (lift_length (lift_length hs))) k

theorem analyseRows_col {w : Nat} {p : Int} {F : Filter Int} {s : Int → List Int} (hs : ∀ k, (s k).length = w)
    {j : Nat} (hj : j < w) : col (analyseAll F.onRows p s) j = analyseAll F p (col s j) := by
  cases F with
  | two a b =>
    simp only [Filter.onRows, analyseAll]
    rw [col_lift (lift_length hs) hj, col_lift hs hj]
  | four a b c d =>
    simp only [Filter.onRows, analyseAll]
    rw [col_lift (lift_length (lift_length (lift_length hs))) hj, col_lift (lift_length (lift_length hs)) hj,
      col_lift (lift_length hs) hj, col_lift hs hj]

theorem synthesiseRows_col {w : Nat} {p : Int} {F : Filter Int} {s : Int → List Int} (hs : ∀ k, (s k).length = w)
    {j : Nat} (hj : j < w) : col (synthesiseAll F.onRows p s) j = synthesiseAll F p (col s j) := by
  cases F with
  | two a b =>
    simp only [Filter.onRows, synthesiseAll]
    rw [col_lift (lift_length hs) hj, col_lift hs hj]
  | four a b c d =>
    simp only [Filter.onRows, synthesiseAll]
    rw [col_lift (lift_length (lift_length (lift_length hs))) hj, col_lift (lift_length (lift_length hs)) hj,
      col_lift (lift_length hs) hj, col_lift hs hj]

theorem ext_col {w : Nat} {s t : Int → List Int} (hs : ∀ k, (s k).length = w) (ht : ∀ k, (t k).length = w)
    (h : ∀ j < w, col s j = col t j) : s = t := by
  funext k
  refine List.ext_getElem (by rw [hs, ht]) fun j h1 h2 => ?_
  have := congrFun (h j (by rw [← hs k]; exact h1)) k
  unfold col at this
  rwa [List.getElem?_eq_getElem h1, List.getElem?_eq_getElem h2] at this

theorem rowed_col {w : Nat} {P : Int → Prop} {s : Int → List Int} (hs : ∀ k, Rowed w P (s k)) {j : Nat} (hj : j < w)
    (k : Int) : P (col s j k) := by
  unfold col
  rw [List.getElem?_eq_getElem (by rw [(hs k).1]; exact hj)]
  exact (hs k).2 _ (List.getElem_mem _)

theorem rowed_of_col {w : Nat} {P : Int → Prop} {s : Int → List Int} {k : Int} (hl : (s k).length = w)
    (h : ∀ j < w, P (col s j k)) : Rowed w P (s k) := by
  refine ⟨hl, fun a ha => ?_⟩
  obtain ⟨j, hj, rfl⟩ := List.mem_iff_getElem.1 ha
  have := h j (by omega)
  unfold col at this
  rwa [List.getElem?_eq_getElem hj] at this

theorem Undoes.onRows_all {F inv : Filter Int} (h : UndoesAll (fun _ => True) F inv) (w : Nat) :
    UndoesAll (fun r : List Int => r.length = w) F.onRows inv.onRows := by
  cases h with
  | two h1 h2 => exact .two (h1.onRows w) (h2.onRows w)
  | four h1 h2 h3 h4 => exact .four (h1.onRows w) (h2.onRows w) (h3.onRows w) (h4.onRows w)

theorem Exact.onRows {P Q R : Int → Prop} {F inv FM invM : Filter Int} {sg sgM sg' : Int → Int}
    (h : Exact (fun _ => True) P Q R F inv FM invM sg sgM sg') (w : Nat) :
    Exact (fun r : List Int => r.length = w) (Rowed w P) (Rowed w Q) (Rowed w R) F.onRows inv.onRows FM.onRows
      invM.onRows (List.map sg) (List.map sgM) (List.map sg') := by
  refine ⟨Undoes.onRows_all h.undoes w, fun a ha => ha.1, fun p s hs => ?_, fun p s hp hs k hk => ?_,
    fun p s hp hs k hk => ?_, fun p s hs => ?_, fun a ha => ⟨⟨ha.1, fun x hx => (h.single x (ha.2 x hx)).1⟩,
      ⟨by simp [ha.1], fun x hx => ?_⟩, ?_, ?_⟩⟩
  · have hl := fun k => (hs k).1
    refine ext_col (analyseRows_length hl) (analyseRows_length hl) fun j hj => ?_
    rw [analyseRows_col hl hj, analyseRows_col hl hj, h.fwd _ _ (rowed_col hs hj)]
  · have hl := fun k => (hs k).1
    refine rowed_of_col (analyseRows_length hl k) fun j hj => ?_
    rw [analyseRows_col hl hj]
    exact h.low _ _ hp (rowed_col hs hj) _ hk
  · have hl := fun k => (hs k).1
    refine rowed_of_col (analyseRows_length hl k) fun j hj => ?_
    rw [analyseRows_col hl hj]
    exact h.high _ _ hp (rowed_col hs hj) _ hk
  · have hl := fun k => (hs k).1
    refine ext_col (synthesiseRows_length (analyseRows_length hl)) hl fun j hj => ?_
    rw [synthesiseRows_col (analyseRows_length hl) hj, analyseRows_col hl hj, h.bwd _ _ (rowed_col hs hj)]
  · obtain ⟨y, hy, rfl⟩ := List.mem_map.1 hx
    exact (h.single y (ha.2 y hy)).2.1
  · exact List.map_congr_left fun x hx => (h.single x (ha.2 x hx)).2.2.1
  · rw [List.map_map]
    conv_rhs => rw [← List.map_id a]
    exact List.map_congr_left fun x hx => (h.single x (ha.2 x hx)).2.2.2

/-! ## Splitting -/

theorem mem_everyOther {x : List α} {a : α} (h : a ∈ everyOther x) : ∃ i, ∃ hi : i < x.length, i % 2 = 0 ∧ x[i] = a := by
  induction x using everyOther.induct with
  | case1 => simp [everyOther] at h
  | case2 b =>
    simp only [everyOther, List.mem_singleton] at h
    exact ⟨0, by simp, rfl, by simp [h]⟩
  | case3 b c l ih =>
    simp only [everyOther, List.mem_cons] at h
    rcases h with h | h
    · exact ⟨0, by simp, rfl, by simp [h]⟩
    · obtain ⟨i, hi, h1, h2⟩ := ih h
      exact ⟨i + 2, by simpa using hi, by omega, by simpa using h2⟩

theorem mem_everyOther_tail {x : List α} {a : α} (h : a ∈ everyOther x.tail) :
    ∃ i, ∃ hi : i < x.length, i % 2 = 1 ∧ x[i] = a := by
  obtain ⟨i, hi, h1, h2⟩ := mem_everyOther h
  cases x with
  | nil => simp at hi
  | cons b l => exact ⟨i + 1, by simpa using hi, by omega, by simpa using h2⟩

theorem mem_split {i0 : Int} {x : List α} :
    (∀ a ∈ (split i0 x).1, ∃ i, ∃ hi : i < x.length, (i0 + i) % 2 = 0 ∧ x[i] = a) ∧
      ∀ a ∈ (split i0 x).2, ∃ i, ∃ hi : i < x.length, (i0 + i) % 2 ≠ 0 ∧ x[i] = a := by
  unfold split
  split_ifs with h
  · refine ⟨fun a ha => ?_, fun a ha => ?_⟩
    · obtain ⟨i, hi, h1, h2⟩ := mem_everyOther ha
      exact ⟨i, hi, by omega, h2⟩
    · obtain ⟨i, hi, h1, h2⟩ := mem_everyOther_tail ha
      exact ⟨i, hi, by omega, h2⟩
  · refine ⟨fun a ha => ?_, fun a ha => ?_⟩
    · obtain ⟨i, hi, h1, h2⟩ := mem_everyOther_tail ha
      exact ⟨i, hi, by omega, h2⟩
    · obtain ⟨i, hi, h1, h2⟩ := mem_everyOther ha
      exact ⟨i, hi, by omega, h2⟩

/-! ## Images -/

/-- All samples of an image have absolute value at most `A`. -/
def BdAll (A : Int) (rows : List (List Int)) : Prop := ∀ r ∈ rows, ∀ x ∈ r, Bd A x

theorem fetchRowM_eq {rnd : Int → Int} {u0 : Int} {lp hp : List Int} (hne : 0 < lp.length + hp.length)
    {y : List Int} (h : synthesiseRow (rev53InvM rnd) halve u0 (join u0 lp hp) = some y)
    (h' : fetchRow u0 lp hp = some y) : fetchRowM rnd u0 lp hp = some y := by
  unfold fetchRowM
  split_ifs with h1 h2
  · unfold fetchRow at h'
    rwa [if_pos h1] at h'
  · omega
  · exact h

/-- One level in machine arithmetic: nothing differs from exact arithmetic in either direction, and the bands are
bounded. -/
theorem levelM {rnd : Int → Int} {M A : Int} (hr : ∀ z, Bd M z → rnd z = z) (hM : 8 * A + 2 ≤ M) (hA : 0 ≤ A)
    {rows : List (List Int)} {u0 v0 : Int} (hu : 0 ≤ u0) (hv : 0 ≤ v0) {w : Nat} (hw : rows ≠ [] → 0 < w)
    (hrect : Rect w rows) (hbd : BdAll A rows) :
    ∃ b, analyse2d u0 v0 rows = some b ∧ analyse2dM rnd u0 v0 rows = some b ∧
      (∃ w', Rect w' b.ll ∧ (w' : Int) = ceilHalf (u0 + w) - ceilHalf u0) ∧
      (∀ r ∈ b.ll, ∀ x ∈ r, 4 * (|x| + 1) ≤ 9 * (A + 1)) ∧ BdAll (3 * A + 1) b.hl ∧ BdAll (3 * A + 1) b.lh ∧
      BdAll (4 * A) b.hh ∧ synthesise2dM rnd u0 v0 b = some rows := by
  obtain ⟨b, eb, hll, -, hsb⟩ := level hu hv hw hrect
  by_cases hnil : rows = []
  · subst hnil
    have hb : b = ⟨[], [], [], []⟩ := by
      rw [analyse2d] at eb
      simp only [split] at eb
      split_ifs at eb <;> exact (Option.some.inj eb).symm
    subst hb
    refine ⟨_, eb, ?_, hll, by simp, by simp [BdAll], by simp [BdAll], by simp [BdAll], ?_⟩
    · rw [← eb]; rfl
    · simp [synthesise2dM, join, weave]
  · have hw := hw hnil
    have hex := rev53_exact (A := A) hr (by omega)
    obtain ⟨v, ev, evM, lv, qv, rv, -, sv⟩ := (hex.onRows w).row hv
      (fun r hr => ⟨hrect r hr, fun x hx => hbd r hr x hx⟩) hnil
    have hexL := rev53_exact (A := (3 * A + 1) / 2) hr (by omega)
    have hexH := rev53_exact (A := 2 * A) hr (by omega)
    have hrow : ∀ i (hi : i < v.length), ∃ y, analyseExt rev53 double u0 v[i] = some y ∧
        analyseExt (rev53M rnd) (doubleM rnd) u0 v[i] = some y ∧ y.length = w ∧
        synthesiseRow (rev53InvM rnd) halve u0 y = some v[i] ∧
        ((v0 + i) % 2 = 0 → (∀ x ∈ (split u0 y).1, Bd2 (3 * ((3 * A + 1) / 2) + 1) x) ∧
          ∀ x ∈ (split u0 y).2, Bd (2 * ((3 * A + 1) / 2)) x) ∧
        ((v0 + i) % 2 ≠ 0 → (∀ x ∈ (split u0 y).1, Bd2 (3 * (2 * A) + 1) x) ∧
          ∀ x ∈ (split u0 y).2, Bd (2 * (2 * A)) x) := by
      intro i hi
      by_cases hp : (v0 + i) % 2 = 0
      · have hq := qv i hi hp
        obtain ⟨y, e1, e2, l, q, r, s, -⟩ := hexL.row hu (x := v[i]) (fun x hx => by
            have := hq.2 x hx
            unfold Bd2 at this; unfold Bd; omega) (by rw [← List.length_pos_iff, hq.1]; exact hw)
        refine ⟨y, e1, e2, by rw [l, hq.1], s, fun _ => ⟨fun x hx => ?_, fun x hx => ?_⟩, fun h => absurd hp h⟩
        · obtain ⟨j, hj, c, rfl⟩ := mem_split.1 x hx
          exact q j hj c
        · obtain ⟨j, hj, c, rfl⟩ := mem_split.2 x hx
          exact r j hj c
      · have hq := rv i hi hp
        obtain ⟨y, e1, e2, l, q, r, s, -⟩ := hexH.row hu (x := v[i]) (fun x hx => hq.2 x hx)
          (by rw [← List.length_pos_iff, hq.1]; exact hw)
        refine ⟨y, e1, e2, by rw [l, hq.1], s, fun h => absurd h hp, fun _ => ⟨fun x hx => ?_, fun x hx => ?_⟩⟩
        · obtain ⟨j, hj, c, rfl⟩ := mem_split.1 x hx
          exact q j hj c
        · obtain ⟨j, hj, c, rfl⟩ := mem_split.2 x hx
          exact r j hj c
    obtain ⟨h, eh, lh, hh⟩ := mapM_some (f := analyseExt rev53 double u0) (l := v) fun r hr => by
      obtain ⟨i, hi, rfl⟩ := List.mem_iff_getElem.1 hr
      exact (hrow i hi).imp fun y hy => hy.1
    have hall : ∀ i (h1 : i < v.length) (h2 : i < h.length),
        analyseExt (rev53M rnd) (doubleM rnd) u0 v[i] = some h[i] ∧ h[i].length = w ∧
        synthesiseRow (rev53InvM rnd) halve u0 h[i] = some v[i] ∧
        ((v0 + i) % 2 = 0 → (∀ x ∈ (split u0 h[i]).1, Bd2 (3 * ((3 * A + 1) / 2) + 1) x) ∧
          ∀ x ∈ (split u0 h[i]).2, Bd (2 * ((3 * A + 1) / 2)) x) ∧
        ((v0 + i) % 2 ≠ 0 → (∀ x ∈ (split u0 h[i]).1, Bd2 (3 * (2 * A) + 1) x) ∧
          ∀ x ∈ (split u0 h[i]).2, Bd (2 * (2 * A)) x) := by
      intro i h1 h2
      obtain ⟨y, e, h3⟩ := hrow i h1
      rw [hh i h1 h2, Option.some.injEq] at e
      rw [e]; exact h3
    have eb' := eb
    unfold analyse2d at eb'
    rw [if_neg hnil, ev] at eb'
    simp only [Option.bind_eq_bind, Option.bind_some] at eb'
    rw [eh] at eb'
    have hb : b = ⟨(split v0 h).1.map (fun r => (split u0 r).1), (split v0 h).1.map (fun r => (split u0 r).2),
        (split v0 h).2.map (fun r => (split u0 r).1), (split v0 h).2.map (fun r => (split u0 r).2)⟩ :=
      (Option.some.inj eb').symm
    have ehM : v.mapM (analyseExt (rev53M rnd) (doubleM rnd) u0) = some h :=
      mapM_inverse lh.symm fun i h1 h2 => (hall i h2 h1).1
    refine ⟨b, eb, ?_, hll, ?_, ?_, ?_, ?_, ?_⟩
    · unfold analyse2dM
      rw [if_neg hnil, evM]
      simp only [Option.bind_eq_bind, Option.bind_some]
      rw [ehM, hb]; rfl
    · rw [hb]
      intro r hr x hx
      obtain ⟨q, hq, rfl⟩ := List.mem_map.1 hr
      obtain ⟨i, hi, c, rfl⟩ := mem_split.1 q hq
      have := ((hall i (by omega) hi).2.2.2.1 c).1 x hx
      unfold Bd2 at this
      rcases abs_cases x with ⟨e, _⟩ | ⟨e, _⟩ <;> rw [e] <;> omega
    · rw [hb]
      intro r hr x hx
      obtain ⟨q, hq, rfl⟩ := List.mem_map.1 hr
      obtain ⟨i, hi, c, rfl⟩ := mem_split.1 q hq
      have := ((hall i (by omega) hi).2.2.2.1 c).2 x hx
      unfold Bd at *; omega
    · rw [hb]
      intro r hr x hx
      obtain ⟨q, hq, rfl⟩ := List.mem_map.1 hr
      obtain ⟨i, hi, c, rfl⟩ := mem_split.2 q hq
      have := ((hall i (by omega) hi).2.2.2.2 c).1 x hx
      unfold Bd2 at this; unfold Bd; omega
    · rw [hb]
      intro r hr x hx
      obtain ⟨q, hq, rfl⟩ := List.mem_map.1 hr
      obtain ⟨i, hi, c, rfl⟩ := mem_split.2 q hq
      have := ((hall i (by omega) hi).2.2.2.2 c).2 x hx
      unfold Bd at *; omega
    · -- synthesis
      have hfetch : ∀ i (h1 : i < v.length) (h2 : i < h.length),
          fetchRowM rnd u0 (split u0 h[i]).1 (split u0 h[i]).2 = some v[i] := by
        intro i h1 h2
        have hlen := (length_split u0 hu h[i]).2
        have hw' : 0 < (split u0 h[i]).1.length + (split u0 h[i]).2.length := by
          rw [hlen, (hall i h1 h2).2.1]; exact hw
        refine fetchRowM_eq hw' (by rw [join_split]; exact (hall i h1 h2).2.2.1) ?_
        rw [fetchRow_eq hu hw', join_split]
        have hback := (reconstruct1d rev53_undoes (sg := double) (sg' := halve)
          (fun a _ => ⟨trivial, halve_double a⟩) hu (x := v[i]) (fun _ _ => trivial)
          (by
            intro e
            have hl : v[i].length = w := by
              by_cases c : (v0 + i) % 2 = 0
              · exact (qv i h1 c).1
              · exact (rv i h1 c).1
            rw [e] at hl
            simp only [List.length_nil] at hl
            omega))
        obtain ⟨y, e1, -, -, -, s, -⟩ := hback
        rw [hh i h1 h2, Option.some.injEq] at e1
        rw [e1]; exact s
      obtain ⟨g, hg⟩ : ∃ g : List Int → List Int, ∀ r ∈ h,
          fetchRowM rnd u0 (split u0 r).1 (split u0 r).2 = some (g r) := by
        refine ⟨fun r => (fetchRowM rnd u0 (split u0 r).1 (split u0 r).2).getD [], fun r hr => ?_⟩
        obtain ⟨i, hi, rfl⟩ := List.mem_iff_getElem.1 hr
        simp only [hfetch i (by omega) hi, Option.getD_some]
      have hv' : h.map g = v := by
        apply List.ext_getElem (by simp [lh])
        intro i h1 h2
        have e1 := hfetch i h2 (by simpa using h1)
        rw [hg _ (List.getElem_mem _), Option.some.injEq] at e1
        simpa using e1
      obtain ⟨sl, sh⟩ := split_subset v0 h
      have hmap : ∀ l : List (List Int), (∀ r ∈ l, r ∈ h) →
          (List.zip (l.map fun r => (split u0 r).1) (l.map fun r => (split u0 r).2)).mapM
            (fun r => fetchRowM rnd u0 r.1 r.2) = some (l.map g) := by
        intro l hl
        rw [zip_map_same, mapM_map']
        apply mapM_inverse (l := l.map g) (by simp)
        intro i h1 h2
        simp only [List.getElem_map]
        exact hg _ (hl l[i] (List.getElem_mem h2))
      rw [hb]
      unfold synthesise2dM
      simp only [Option.bind_eq_bind]
      rw [hmap _ sl, Option.bind_some, hmap _ sh, Option.bind_some]
      have hj : join v0 ((split v0 h).1.map g) ((split v0 h).2.map g) = v := by
        have := split_map g v0 h
        rw [hv'] at this
        have e2 := join_split v0 v
        rw [this] at e2
        exact e2
      have hvne : v ≠ [] := by
        intro e
        rw [e] at lv
        exact hnil (List.length_eq_zero_iff.1 lv.symm)
      rw [hj, if_neg hvne]
      exact sv

theorem levels_exact {rnd : Int → Int} {M : Int} (hr : ∀ z, Bd M z → rnd z = z) (n : Nat) :
    ∀ {u0 v0 A : Int} {rows : List (List Int)} {w : Nat}, 0 ≤ u0 → 0 ≤ v0 → 0 ≤ A → Rect w rows → BdAll A rows →
    (∀ l < n, (u0 + 2 ^ l - 1) / 2 ^ l < (u0 + w + 2 ^ l - 1) / 2 ^ l) →
    (0 < n → 8 * 9 ^ (n - 1) * (A + 1) ≤ 4 ^ (n - 1) * (M + 6)) →
    ∃ ll ds, analyseLevels n u0 v0 rows = some (ll, ds) ∧ analyseLevelsM rnd n u0 v0 rows = some (ll, ds) ∧
      synthesiseLevelsM rnd u0 v0 ll ds = some rows ∧ ds.length = n ∧
      (∀ r ∈ ll, ∀ x ∈ r, 4 ^ n * (|x| + 1) ≤ 9 ^ n * (A + 1)) ∧
      ∀ l (hl : l < ds.length), (∀ r ∈ ds[l].hl, ∀ x ∈ r, 4 ^ l * (|x| + 2) ≤ 3 * 9 ^ l * (A + 1)) ∧
        (∀ r ∈ ds[l].lh, ∀ x ∈ r, 4 ^ l * (|x| + 2) ≤ 3 * 9 ^ l * (A + 1)) ∧
        ∀ r ∈ ds[l].hh, ∀ x ∈ r, 4 ^ l * (|x| + 4) ≤ 4 * 9 ^ l * (A + 1) := by
  induction n with
  | zero =>
    intro u0 v0 A rows w _ _ _ _ hb _ _
    refine ⟨rows, [], rfl, rfl, rfl, rfl, fun r hr x hx => ?_, fun l hl => by simp at hl⟩
    have := hb r hr x hx
    unfold Bd at this
    have : |x| ≤ A := abs_le.2 this
    omega
  | succ n ih =>
    intro u0 v0 A rows w hu hv hA hrect hb hl hM
    have hM := hM (by omega)
    simp only [Nat.add_sub_cancel] at hM
    have h0 := hl 0 (by omega)
    have hpow : (4 : Int) ^ n ≤ 9 ^ n := pow_le_pow_left₀ (by norm_num) (by norm_num) n
    have h4 : (0 : Int) < 4 ^ n := by positivity
    have hM1 : 8 * A + 2 ≤ M := by
      have : 4 ^ n * (8 * (A + 1)) ≤ 4 ^ n * (M + 6) := by
        calc (4 : Int) ^ n * (8 * (A + 1)) ≤ 9 ^ n * (8 * (A + 1)) :=
              mul_le_mul_of_nonneg_right hpow (by omega)
          _ = 8 * 9 ^ n * (A + 1) := by ring
          _ ≤ _ := hM
      have := le_of_mul_le_mul_left this h4
      omega
    obtain ⟨b, eb, ebM, ⟨w', rw', hw'⟩, bll, bhl, blh, bhh, sb⟩ := levelM hr hM1 hA hu hv (w := w)
      (fun _ => by simp at h0; omega) hrect hb
    have hA' : 0 ≤ 9 * (A + 1) / 4 - 1 := by omega
    have hA4 : 4 * (9 * (A + 1) / 4 - 1 + 1) ≤ 9 * (A + 1) := by omega
    obtain ⟨ll, ds, e, eM, s, ld, bl, bd⟩ := ih (u0 := ceilHalf u0) (v0 := ceilHalf v0)
      (A := 9 * (A + 1) / 4 - 1) (rows := b.ll) (w := w')
      (by unfold ceilHalf; omega) (by unfold ceilHalf; omega) hA' rw' (fun r hr x hx => by
        have := bll r hr x hx
        exact abs_le.1 (by omega)) (by
        intro l hl'
        have h1 := hl (l + 1) (by omega)
        rw [show ceilHalf u0 + (w' : Int) = ceilHalf (u0 + w) by omega]
        have key : ∀ u : Int, (ceilHalf u + 2 ^ l - 1) / 2 ^ l = (u + 2 ^ (l + 1) - 1) / 2 ^ (l + 1) := by
          intro u
          unfold ceilHalf
          have : (u + 1) / 2 + 2 ^ l - 1 = (u + 2 ^ (l + 1) - 1) / 2 := by
            rw [pow_succ]; omega
          rw [this, Int.ediv_ediv_of_nonneg (by norm_num), pow_succ, mul_comm]
        rw [key, key]; exact h1) (by
        intro hn
        obtain ⟨n, rfl⟩ := Nat.exists_eq_succ_of_ne_zero (by omega : n ≠ 0)
        simp only [Nat.succ_eq_add_one, Nat.add_sub_cancel] at hM ⊢
        have h9 : (0 : Int) ≤ 8 * 9 ^ n := by positivity
        have : 4 * (8 * 9 ^ n * (9 * (A + 1) / 4 - 1 + 1)) ≤ 4 * (4 ^ n * (M + 6)) := by
          calc 4 * (8 * 9 ^ n * (9 * (A + 1) / 4 - 1 + 1)) = 8 * 9 ^ n * (4 * (9 * (A + 1) / 4 - 1 + 1)) := by ring
            _ ≤ 8 * 9 ^ n * (9 * (A + 1)) := mul_le_mul_of_nonneg_left hA4 h9
            _ = 8 * 9 ^ (n + 1) * (A + 1) := by rw [pow_succ]; ring
            _ ≤ _ := hM
            _ = 4 * (4 ^ n * (M + 6)) := by rw [pow_succ]; ring
        omega)
    have step : ∀ (l : Nat) (c y : Int), 0 ≤ c → 4 ^ l * y ≤ c * 9 ^ l * (9 * (A + 1) / 4 - 1 + 1) →
        4 ^ (l + 1) * y ≤ c * 9 ^ (l + 1) * (A + 1) := by
      intro l c y hc h
      calc 4 ^ (l + 1) * y = 4 * (4 ^ l * y) := by rw [pow_succ]; ring
        _ ≤ 4 * (c * 9 ^ l * (9 * (A + 1) / 4 - 1 + 1)) := by omega
        _ = c * 9 ^ l * (4 * (9 * (A + 1) / 4 - 1 + 1)) := by ring
        _ ≤ c * 9 ^ l * (9 * (A + 1)) := mul_le_mul_of_nonneg_left hA4 (by positivity)
        _ = _ := by rw [pow_succ]; ring
    refine ⟨ll, ⟨b.hl, b.lh, b.hh⟩ :: ds, ?_, ?_, ?_, by simp [ld], fun r hr x hx => ?_, fun l hl => ?_⟩
    · rw [analyseLevels, eb, Option.bind_some, e]; rfl
    · rw [analyseLevelsM, ebM, Option.bind_some, eM]; rfl
    · rw [synthesiseLevelsM, s, Option.bind_some]; exact sb
    · have := step n 1 (|x| + 1) (by norm_num) (by rw [one_mul]; exact bl r hr x hx)
      rwa [one_mul] at this
    · cases l with
      | zero =>
        simp only [List.getElem_cons_zero, pow_zero, one_mul, mul_one]
        refine ⟨fun r hr x hx => ?_, fun r hr x hx => ?_, fun r hr x hx => ?_⟩
        · have := abs_le.2 (bhl r hr x hx); omega
        · have := abs_le.2 (blh r hr x hx); omega
        · have := abs_le.2 (bhh r hr x hx); omega
      | succ l =>
        simp only [List.getElem_cons_succ]
        obtain ⟨h1, h2, h3⟩ := bd l (by simpa using hl)
        exact ⟨fun r hr x hx => step l 3 _ (by norm_num) (h1 r hr x hx),
          fun r hr x hx => step l 3 _ (by norm_num) (h2 r hr x hx),
          fun r hr x hx => step l 4 _ (by norm_num) (h3 r hr x hx)⟩

/-! ## The two arithmetics -/

theorem toFloat_exact (z : Int) (h : Bd (2 ^ 24) z) : toFloat z = z := by
  unfold Bd at h
  have hs : z.sign * (z.natAbs : Int) = z := Int.sign_mul_natAbs z
  by_cases hn : z.natAbs < 2 ^ 24
  · have : bitLen z.natAbs - 24 = 0 := by
      unfold bitLen
      split_ifs with h0
      · rfl
      · have := (Nat.log2_lt h0).2 hn
        omega
    unfold toFloat
    simp only [this, pow_zero, Nat.div_one, Nat.mod_one]
    simpa using hs
  · have e : z.natAbs = 2 ^ 24 := by omega
    have : bitLen z.natAbs - 24 = 1 := by rw [e]; rfl
    unfold toFloat
    simp only [this]
    rw [e] at hs ⊢
    simpa using hs

theorem toInt32_exact (z : Int) (h : Bd (2 ^ 31 - 1) z) : toInt32 z = z := by
  unfold Bd at h
  unfold toInt32
  omega

end Verif.Dwt
