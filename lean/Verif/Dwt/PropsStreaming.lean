import Verif.Dwt.StreamLemmas
import Verif.Dwt.ImageLemmas

/-!
# Properties of the streaming transforms (C30, C31)

The batch transforms `analyseExt` and `synthesiseCols` are those of `Verif/Dwt/Filter.lean`.  Rows have an
arbitrary type and the lifting steps are arbitrary functions, so the theorems hold for every arithmetic (32-bit,
16-bit, float) in which both versions use the same step.  A result `some …` says that no unwritten buffer is read
and that the loops end.
-/

namespace Verif.Dwt.Stream

variable {α : Type}

/-- The forward state for `n` rows from row `v0` on. -/
def forwardCfg (flt : Filter α) (single : α → α) (v0 : Int) (n : Nat) : Cfg α :=
  ⟨true, flt, v0, v0 + n, single, fun _ => false, v0⟩

/-- The inverse state for `n` rows from row `v0` on. -/
def inverseCfg (flt : Filter α) (single : α → α) (v0 : Int) (n : Nat) (zeroTest : α → Bool) (rowLo : Int) : Cfg α :=
  ⟨false, flt, v0, v0 + n, single, zeroTest, rowLo⟩

/-- Rows with their coordinates, counted from `v0`. -/
def numbered (v0 : Int) (rows : List α) : List (Int × α) := rows.mapIdx fun i y => (v0 + i, y)

/-- How many rows beyond row `r` the result at row `r` depends on: two for each pair of lifting steps. -/
def lookahead : Filter α → Nat
  | .two _ _ => 2
  | .four _ _ _ _ => 4

/-- No lifting step of the filter changes anything when both neighbours are `z`. -/
def IsNeutral (flt : Filter α) (z : α) : Prop :=
  ∀ t, match flt with
    | .two hp lp => hp z z t = t ∧ lp z z t = t
    | .four fa fb fc fd => fa z z t = t ∧ fb z z t = t ∧ fc z z t = t ∧ fd z z t = t

theorem maxDl_lookahead (c : Cfg α) : 2 * c.maxDl = lookahead c.flt := by
  unfold Cfg.maxDl lookahead
  cases c.flt <;> rfl

/-! ## C30 -/

/-- C30: for every number of rows from one on, every start coordinate, every filter and every previous content of
the buffers, pushing the rows one at a time and flushing emits exactly the rows of the batch transform, each once,
in order, with its coordinate. -/
theorem C30_streaming_equals_batch (flt : Filter α) (single : α → α) (v0 : Int) (h0 : 0 ≤ v0) (rows : List α)
    (hr : rows ≠ []) (R T B : Int → Option α) :
    ∃ ys, analyseExt flt single v0 rows = some ys ∧ ys.length = rows.length ∧
      runForward (forwardCfg flt single v0 rows.length)
        (start (forwardCfg flt single v0 rows.length) R T B) rows = some (numbered v0 ys) := by
  have hpos : 0 < rows.length := List.length_pos_iff.2 hr
  generalize hc : forwardCfg flt single v0 rows.length = c
  have hv0 : c.v0 = v0 := by rw [← hc]; rfl
  have hv1 : c.v1 = c.v0 + rows.length := by rw [← hc]; rfl
  have hfw : c.forward = true := by rw [← hc]; rfl
  have hfl : c.flt = flt := by rw [← hc]; rfl
  have hsg : c.single = single := by rw [← hc]; rfl
  by_cases hw : rows.length = 1
  · obtain ⟨a, rfl⟩ := List.length_eq_one_iff.1 hw
    refine ⟨if v0 % 2 ≠ 0 then [single a] else [a], ?_, ?_, ?_⟩
    · simp [analyseExt]
    · split_ifs <;> rfl
    · have hv1' : c.v1 = c.v0 + 1 := by rw [hv1]; rfl
      unfold runForward
      simp only [pushAll, pushRow]
      rw [if_neg (by simp only [start]; omega), if_pos hv1']
      simp only [Option.bind_some, Option.map_some, flush, start]
      rw [if_pos (by simp [hv1'])]
      simp only [Function.update_self, Option.map_some, hsg, hv0]
      by_cases hp : v0 % 2 = 0 <;> simp [hp, numbered]
  · have hw2 : 2 ≤ rows.length := by omega
    obtain ⟨s, hs⟩ := ext_exists hw2
    obtain ⟨ys, e, hy⟩ := analyseExt_spec (flt := flt) (single := single) h0 hw2 hs
    refine ⟨ys, e, hy.1, ?_⟩
    have hw3 : c.v0 + 2 ≤ c.v1 := by omega
    have hsym := ext_src (c := c) hs hw2 hv1
    have hz : ∀ a, c.zeroTest a = false := by intro a; rw [← hc]; rfl
    obtain ⟨s1, e1, f1, a1, a2⟩ := pushAll_spec hw3 hfw hz hsym rows (start c R T B)
      (start_fwd (shift c.v0 s) (s 0) hw3 R T B) (by simp only [start]; omega) (by
        intro i hi
        have := hs.get (k := i) (by omega) (by omega)
        simp only [Int.toNat_natCast] at this
        simp only [start, shift]
        rw [this, show c.v0 + (i : Int) - c.v0 = i by ring])
    obtain ⟨s2, e2⟩ := flush_spec f1 hw3 (by rw [a1, hv1]; simp only [start])
    unfold runForward
    rw [e1, Option.bind_some, e2, Option.map_some]
    have hn : (start c R T B).nextOut = c.v0 := rfl
    rw [hn] at a2 ⊢
    have k1 := f1.good.outIn
    have k2 := f1.good.inV1
    rw [show s1.nextOut = c.v0 + ((s1.nextOut - c.v0).toNat : Int) by omega]
    rw [show c.v0 + ((s1.nextOut - c.v0).toNat : Int) - c.v0 = ((s1.nextOut - c.v0).toNat : Int) by ring,
      Int.toNat_natCast, ← finished_append]
    have hY := Y_forward (c := c) hfw (by omega) s
    rw [hfl, hv0] at hY
    have hl := hy.2
    rw [← hy.1] at hl
    rw [finished_mapIdx (ys := ys) (u := analyseAll flt (v0 % 2) s) _ _ hl (by rw [hv0]; exact hY), List.take_of_length_le,
      hv0]
    · rfl
    all_goals
      rw [hy.1]
      omega

/-- C30 while the rows still come in: after any number `k` of rows the rows emitted so far are the first `n` ones
of the batch result, where `n` lags behind `k` by at most two rows per pair of lifting steps, and by none at the
end. -/
theorem C30_emits_as_rows_arrive (flt : Filter α) (single : α → α) (v0 : Int) (h0 : 0 ≤ v0) (rows : List α)
    (hw2 : 2 ≤ rows.length) (R T B : Int → Option α) (ys : List α) (hys : analyseExt flt single v0 rows = some ys)
    (k : Nat) (hk : k ≤ rows.length) :
    ∃ s n, pushAll (forwardCfg flt single v0 rows.length)
        (start (forwardCfg flt single v0 rows.length) R T B) (rows.take k) = some (s, numbered v0 (ys.take n)) ∧
      n ≤ k ∧ k ≤ n + lookahead flt ∧ (k = rows.length → n = k) := by
  generalize hc : forwardCfg flt single v0 rows.length = c
  have hv0 : c.v0 = v0 := by rw [← hc]; rfl
  have hv1 : c.v1 = c.v0 + rows.length := by rw [← hc]; rfl
  have hfw : c.forward = true := by rw [← hc]; rfl
  have hfl : c.flt = flt := by rw [← hc]; rfl
  obtain ⟨s, hs⟩ := ext_exists hw2
  obtain ⟨ys', e, hy⟩ := analyseExt_spec (flt := flt) (single := single) h0 hw2 hs
  rw [hys] at e
  obtain rfl := Option.some.inj e
  have hw3 : c.v0 + 2 ≤ c.v1 := by omega
  have hsym := ext_src (c := c) hs hw2 hv1
  have hz : ∀ a, c.zeroTest a = false := by intro a; rw [← hc]; rfl
  have hlen : (rows.take k).length = k := by simp [hk]
  obtain ⟨s1, e1, f1, a1, a2⟩ := pushAll_spec hw3 hfw hz hsym (rows.take k) (start c R T B)
    (start_fwd (shift c.v0 s) (s 0) hw3 R T B) (by rw [hlen]; simp only [start]; omega) (by
      intro i hi
      rw [hlen] at hi
      have := hs.get (k := i) (by omega) (by omega)
      simp only [Int.toNat_natCast] at this
      simp only [start, shift]
      rw [List.getElem?_take, if_pos hi, this, show c.v0 + (i : Int) - c.v0 = i by ring])
  have hn : (start c R T B).nextOut = c.v0 := rfl
  have hni : (start c R T B).nextIn = c.v0 := rfl
  rw [hlen, hni] at a1
  rw [hn] at a2 e1
  have k1 := f1.good.outIn
  have k2 := f1.good.inV1
  have hY := Y_forward (c := c) hfw (by omega) s
  rw [hfl, hv0] at hY
  have hl := hy.2
  rw [← hy.1] at hl
  have hly := hy.1
  have hlag : s1.nextIn ≤ s1.nextOut + 2 * c.maxDl ∧ (s1.nextIn = c.v1 → s1.nextOut = s1.nextIn) := by
    have hm := (consts c).1
    constructor
    · by_contra hcon
      have := f1.settled s1.nextOut f1.good.orgOut (by omega) (Or.inl (by omega))
      rcases f1.stop with h | h <;> omega
    · intro h
      by_contra hcon
      have := f1.settled s1.nextOut f1.good.orgOut (by omega) (Or.inr h)
      rcases f1.stop with h | h <;> omega
  refine ⟨s1, (s1.nextOut - c.v0).toNat, ?_, by omega, ?_, by omega⟩
  · rw [e1, finished_mapIdx (ys := ys) (u := analyseAll flt (v0 % 2) s) _ (by omega) hl (by rw [hv0]; exact hY), hv0]
    rfl
  · have hm := maxDl_lookahead c
    rw [hfl] at hm
    omega

/-- A 9/7-like filter on integers for the examples. -/
def sample97 : Filter Int :=
  .four (fun a b t => t + 3 * (a + b)) (fun a b t => t - 2 * (a + b)) (fun a b t => t + 5 * (a + b))
    (fun a b t => t - 7 * (a + b))

example : runForward (forwardCfg rev53 double 3 4) (start (forwardCfg rev53 double 3 4) (fun _ => some 77)
      (fun _ => none) (fun _ => none)) [7, -2, 40, 9] = some [(3, 9), (4, 10), (5, 37), (6, 28)] ∧
    analyseExt rev53 double 3 [7, -2, 40, 9] = some [9, 10, 37, 28] := by decide +kernel

/-! ## C31 -/

/-- C31: for every number of rows from one on, every start coordinate, every filter and every previous content of
the buffers, `n` successive pulls return the first `n` rows of the batch transform and then null pointers.  The
source is asked for every row at most once, in order, and never more than two rows per pair of lifting steps ahead
of the row returned.  `z` is the row that the zero test recognises and that rows above `rowLo` are equal to; it
must be neutral as a neighbour in every lifting step that is skipped. -/
theorem C31_streaming_equals_batch (flt : Filter α) (single : α → α) (v0 : Int) (h0 : 0 ≤ v0) (rows : List α)
    (hr : rows ≠ []) (zeroTest : α → Bool) (rowLo : Int) (z : α)
    (hzt : ∀ a ∈ rows, zeroTest a = true → a = z)
    (hlo : ∀ i : Nat, i < rows.length → v0 + i < rowLo → rows[i]? = some z)
    (hneutral : IsNeutral flt z)
    (f : Int → α) (hf : ∀ i : Nat, i < rows.length → rows[i]? = some (f (v0 + i))) (R T B : Int → Option α) :
    ∃ ys, synthesiseCols flt true single v0 rows = some ys ∧ ys.length = rows.length ∧
      ∀ n : Nat, ∃ s k, pullMany (inverseCfg flt single v0 rows.length zeroTest rowLo) f n
          (start (inverseCfg flt single v0 rows.length zeroTest rowLo) R T B) =
        some (s, (ys.take n).map some ++ List.replicate (n - rows.length) none) ∧
        s.asked = (List.range k).map (fun (i : Nat) => v0 + i) ∧ k ≤ rows.length ∧
        k ≤ n + lookahead flt := by
  have hpos : 0 < rows.length := List.length_pos_iff.2 hr
  generalize hc : inverseCfg flt single v0 rows.length zeroTest rowLo = c
  have hv0 : c.v0 = v0 := by rw [← hc]; rfl
  have hv1 : c.v1 = c.v0 + rows.length := by rw [← hc]; rfl
  have hfw : c.forward = false := by rw [← hc]; rfl
  have hfl : c.flt = flt := by rw [← hc]; rfl
  have hsg : c.single = single := by rw [← hc]; rfl
  by_cases hw : rows.length = 1
  · obtain ⟨a, rfl⟩ := List.length_eq_one_iff.1 hw
    have hv1' : c.v1 = c.v0 + 1 := by rw [hv1]; rfl
    have ha := hf 0 (by simp)
    simp only [List.getElem?_cons_zero, Nat.cast_zero, add_zero, Option.some.injEq] at ha
    refine ⟨if v0 % 2 ≠ 0 then [single a] else [a], ?_, ?_, ?_⟩
    · simp [synthesiseCols]
    · split_ifs <;> rfl
    · intro n
      have done : ∀ (m : Nat) (s : St α), s.nextOut ≥ c.v1 →
          pullMany c f m s = some (s, List.replicate m none) := by
        intro m
        induction m with
        | zero => intro s _; rfl
        | succ m ih =>
          intro s h
          rw [pullMany, pullRow, if_pos h, Option.bind_some, ih s h]
          rfl
      cases n with
      | zero => exact ⟨start c R T B, 0, by simp [pullMany], rfl, by simp, by simp⟩
      | succ n =>
        rw [pullMany, pullRow, if_neg (by simp only [start]; omega), if_neg (by omega), if_pos hv1']
        simp only [Option.bind_some]
        rw [done n _ (by simp only [start]; omega), Option.map_some]
        refine ⟨_, 1, congrArg some (Prod.ext rfl ?_), by simp [start, hv0], by simp, by cases flt <;> simp [lookahead]⟩
        simp only [hv0, hsg, ← ha]
        by_cases hp : v0 % 2 = 0
        · have : ¬ v0 % 2 = 1 := by omega
          simp [hp]
        · have : v0 % 2 = 1 := by omega
          simp [this]
  · have hw2 : 2 ≤ rows.length := by omega
    obtain ⟨s, hs⟩ := ext_exists hw2
    obtain ⟨ys, e, hy⟩ := synthesiseExt_spec (flt := flt) h0 hw2 hs
    refine ⟨ys, by unfold synthesiseCols; rw [if_neg (by omega)]; exact e, hy.1, ?_⟩
    intro n
    have hw3 : c.v0 + 2 ≤ c.v1 := by omega
    have hsym := ext_src (c := c) hs hw2 hv1
    have hfx : ∀ r, c.v0 ≤ r → r < c.v1 → f r = shift c.v0 s r := by
      intro r a b
      have h1 := hs.get (k := r - c.v0) (by omega) (by omega)
      have h2 := hf (r - c.v0).toNat (by omega)
      rw [h1, show v0 + ((r - c.v0).toNat : Int) = r by omega] at h2
      exact (Option.some.inj h2).symm
    have hn : Neutral c z := by
      intro r cur t
      have := hneutral t
      unfold Cfg.step
      rw [hfl, hfw]
      cases flt with
      | two hp lp => simp only at this ⊢; split_ifs <;> simp only [this]
      | four fa fb fc fd => simp only at this ⊢; split_ifs <;> simp only [this]
    have hz : ZeroSafe c f z := by
      intro r a b h
      refine ⟨?_, hn⟩
      have h2 := hf (r - c.v0).toNat (by omega)
      rw [show v0 + ((r - c.v0).toNat : Int) = r by omega] at h2
      split_ifs at h with h3
      · have := hlo (r - c.v0).toNat (by omega) (by rw [← hc] at h3; simp only [inverseCfg] at h3; omega)
        rw [h2] at this
        exact Option.some.inj this
      · rw [← hc] at h
        exact hzt _ (List.mem_of_getElem? h2) h
    obtain ⟨s1, e1, i1, a1, a2⟩ := pullMany_spec hw3 hfw hsym hfx hz n (start c R T B)
      (start_inv (shift c.v0 s) z hw3 R T B) (by have := (consts c).1; simp only [start]; omega)
    have hY := Y_inverse (c := c) hfw (by omega) s
    have h1 := i1.good.org
    have h2 := i1.good.orgOut
    have h3 := i1.good.outIn
    have h4 := i1.good.inV1
    have hno : (start c R T B).nextOut = c.v0 := rfl
    rw [hno] at a2
    refine ⟨s1, (s1.nextIn - c.v0).toNat, ?_, by rw [i1.log, hv0]; rfl, by omega, ?_⟩
    · rw [e1]
      congr 2
      have hl := hy.1
      apply List.ext_getElem?
      intro i
      simp only [hno, hY, hfl]
      by_cases hi : i < n
      · by_cases hi2 : i < rows.length
        · have h5 := hy.2 i (by omega) (by omega)
          simp only [Int.toNat_natCast] at h5
          rw [List.getElem?_append_left (by simp; omega)]
          have h6 : v0 + (i : Int) < c.v1 := by omega
          simp [hi, List.getElem?_take, h5, shift, h6, hv0]
        · have h6 : ¬ c.v0 + (i : Int) < c.v1 := by omega
          rw [List.getElem?_append_right (by simp; omega)]
          simp [hi, h6, List.getElem?_replicate, hl]
          omega
      · rw [List.getElem?_eq_none (by simp; omega), List.getElem?_eq_none (by simp; omega)]
    · have hm := maxDl_lookahead c
      rw [hfl] at hm
      omega

example : (pullMany (inverseCfg rev53Inv halve 3 4 (fun a => a == 0) 3) (fun r => [9, 10, 37, 28].getD (r - 3).toNat 0)
      5 (start (inverseCfg rev53Inv halve 3 4 (fun a => a == 0) 3) (fun _ => some 5) (fun _ => none)
        (fun _ => none))).map (·.2) = some [some 7, some (-2), some 40, some 9, none] := by decide +kernel

example (a : Int) (h : (a == 0) = true) : a = 0 := by simpa using h
example : IsNeutral rev53Inv 0 := by intro t; simp [rev53Inv]
example : IsNeutral sample97 0 := by intro t; simp [sample97]

/-- C30 and C31 together: rows of `w` integers streamed through the reversible forward transform and back through
the inverse one come out unchanged, for every number of rows, every start coordinate, and whatever rows happen to
be zero on the way. -/
theorem C31_streaming_round_trip (v0 : Int) (h0 : 0 ≤ v0) (w : Nat) (rows : List (Fin w → Int)) (hr : rows ≠ [])
    (R T B R' T' B' : Int → Option (Fin w → Int)) :
    ∃ ys : List (Fin w → Int),
      runForward (forwardCfg (.two (fun a b t i => t i - (a i + b i) / 2) (fun a b t i => t i + (a i + b i + 2) / 4))
          (fun r i => r i * 2) v0 rows.length)
        (start (forwardCfg (.two (fun a b t i => t i - (a i + b i) / 2) (fun a b t i => t i + (a i + b i + 2) / 4))
          (fun r i => r i * 2) v0 rows.length) R T B) rows = some (numbered v0 ys) ∧
      ∀ f : Int → Fin w → Int, (∀ i : Nat, i < ys.length → ys[i]? = some (f (v0 + i))) →
        ∃ s, pullMany (inverseCfg
            (.two (fun a b t i => t i + (a i + b i) / 2) (fun a b t i => t i - (a i + b i + 2) / 4))
            (fun r i => r i / 2) v0 rows.length (fun r => decide (∀ i, r i = 0)) v0) f rows.length
          (start (inverseCfg
            (.two (fun a b t i => t i + (a i + b i) / 2) (fun a b t i => t i - (a i + b i + 2) / 4))
            (fun r i => r i / 2) v0 rows.length (fun r => decide (∀ i, r i = 0)) v0) R' T' B') =
          some (s, rows.map some) := by
  have hu : UndoesAll (fun _ : Fin w → Int => True)
      (.two (fun a b t i => t i - (a i + b i) / 2) (fun a b t i => t i + (a i + b i + 2) / 4))
      (.two (fun a b t i => t i + (a i + b i) / 2) (fun a b t i => t i - (a i + b i + 2) / 4)) := by
    refine .two ⟨?_, ?_, ?_⟩ ⟨?_, ?_, ?_⟩
    · intros; trivial
    · intro a b t _ _ _; funext i; rw [add_comm (a i) (b i)]
    · intro a b t _ _ _; funext i; ring
    · intros; trivial
    · intro a b t _ _ _; funext i; rw [add_comm (a i) (b i)]
    · intro a b t _ _ _; funext i; ring
  obtain ⟨y, e1, -, l, -, -, s, -⟩ := reconstruct1d hu (sg := fun r i => r i * 2) (sg' := fun r i => r i / 2)
    (fun a _ => ⟨trivial, by funext i; show a i * 2 / 2 = a i; omega⟩) h0 (x := rows) (fun _ _ => trivial) hr
  obtain ⟨ys, e2, -, e3⟩ := C30_streaming_equals_batch _ (fun r i => r i * 2) v0 h0 rows hr R T B
  rw [e1] at e2
  obtain rfl := Option.some.inj e2
  refine ⟨y, e3, ?_⟩
  intro f hf
  obtain ⟨zs, e4, -, e5⟩ := C31_streaming_equals_batch
    (.two (fun a b t i => t i + (a i + b i) / 2) (fun a b t i => t i - (a i + b i + 2) / 4))
    (fun r i => r i / 2) v0 h0 y (by rintro rfl; simp at l; exact hr (List.length_eq_zero_iff.1 l.symm))
    (fun r => decide (∀ i, r i = 0)) v0 (fun _ => 0)
    (fun a _ h => by funext i; exact of_decide_eq_true h i) (fun i _ h => by omega)
    (fun t => ⟨by funext i; simp, by funext i; simp⟩) f hf R' T' B'
  rw [s] at e4
  obtain rfl := Option.some.inj e4
  obtain ⟨s', -, e6, -⟩ := e5 rows.length
  rw [l] at e6
  refine ⟨s', ?_⟩
  rw [e6]
  simp

end Verif.Dwt.Stream
