import Verif.Simd.LiftImage
import Verif.Simd.LiftWords
import Verif.Simd.PropsLift
import Verif.Dwt.MachineLemmas

/-!
# The transform with the AVX2 kernels: lemmas
-/

namespace Verif.Simd.Lift

open Verif.Dwt (toInt32 join split Step Filter Lists Ext synthesiseRow analyseExt synthesiseCols rev53M rev53InvM doubleM halve ceilHalf readBack Bands Detail rowStep liftAll fetchRowM
  analyse2dM synthesise2dM analyseLevelsM synthesiseLevelsM)

/-- In the range of `int32_t`. -/
def IR (z : Int) : Prop := -2 ^ 31 ≤ z ∧ z < 2 ^ 31

theorem ir_toInt (b : BitVec 32) : IR b.toInt := by
  have h1 := b.toInt_lt
  have h2 := b.le_toInt
  unfold IR; omega

theorem ir_toInt32 (z : Int) : IR (toInt32 z) := by unfold IR toInt32; omega

theorem toInt_ofInt {z : Int} (h : IR z) : (BitVec.ofInt 32 z).toInt = z := by
  unfold IR at h
  rw [BitVec.toInt_ofInt, Int.bmod_def]
  split_ifs <;> omega

theorem words_toInt {x : List Int} (h : ∀ a ∈ x, IR a) : (words x).map BitVec.toInt = x := by
  unfold words
  rw [List.map_map]
  conv_rhs => rw [← List.map_id x]
  exact List.map_congr_left fun a ha => toInt_ofInt (h a ha)

/-- A row of `w` samples in range. -/
def Good (w : Nat) (r : List Int) : Prop := r.length = w ∧ ∀ x ∈ r, IR x

theorem words_length (x : List Int) : (words x).length = x.length := List.length_map _

theorem mapM_len {α β : Type} {f : α → Option β} {l : List α} {m : List β} (h : l.mapM f = some m) : m.length = l.length := by
  induction l generalizing m with
  | nil => simp at h; subst h; rfl
  | cons a l ih =>
    rw [List.mapM_cons] at h
    cases hf : f a with
    | none => simp [hf] at h
    | some b =>
      cases hl : l.mapM f with
      | none => simp [hf, hl] at h
      | some m' =>
        simp [hf, hl] at h
        subst h
        simp [ih hl]

theorem readBack_len {X : Mem} {left : Int} {w : Nat} {y : List (BitVec 32)} (h : readBack left w X = some y) : y.length = w := by
  unfold readBack at h
  simpa using mapM_len h

theorem good_toInt {y : List (BitVec 32)} {w : Nat} (h : y.length = w) : Good w (y.map BitVec.toInt) := by
  refine ⟨by simpa using h, fun x hx => ?_⟩
  obtain ⟨b, -, rfl⟩ := List.mem_map.1 hx
  exact ir_toInt b

/-! ## Filters that agree on good samples -/

theorem liftAll_on {α : Type} {P : α → Prop} {f g : Step α} (h : ∀ a b t, P a → P b → P t → f a b t = g a b t ∧ P (g a b t)) {p : Int} {s : Int → α} (hs : ∀ k, P (s k)) :
    liftAll p f s = liftAll p g s ∧ ∀ k, P (liftAll p g s k) := by
  refine ⟨funext fun k => ?_, fun k => ?_⟩
  · unfold liftAll
    split_ifs
    · exact (h _ _ _ (hs _) (hs _) (hs _)).1
    · rfl
  · unfold liftAll
    split_ifs
    · exact (h _ _ _ (hs _) (hs _) (hs _)).2
    · exact hs k

theorem lists_pred {α : Type} {P : α → Prop} {y : List α} {w : Nat} {s : Int → α} (h : Lists y w s) (hs : ∀ k, P (s k)) : ∀ a ∈ y, P a := by
  intro a ha
  obtain ⟨i, hi, rfl⟩ := List.mem_iff_getElem.1 ha
  have := h.2 i (by omega) (by rw [← h.1]; omega)
  simp only [Int.toNat_natCast, List.getElem?_eq_getElem hi, Option.some.injEq] at this
  rw [this]; exact hs _

section
variable {α : Type} {P : α → Prop} {f1 f2 g1 g2 : Step α} (h1 : ∀ a b t, P a → P b → P t → f1 a b t = g1 a b t ∧ P (g1 a b t))
  (h2 : ∀ a b t, P a → P b → P t → f2 a b t = g2 a b t ∧ P (g2 a b t)) {sg : α → α} (hsg : ∀ a, P a → P (sg a)) {i0 : Int} (h0 : 0 ≤ i0) {x : List α} (hx : ∀ a ∈ x, P a)
  (hne : x ≠ [])
include h1 h2 hsg h0 hx hne

theorem analyse_on : ∃ y, analyseExt (.two f1 f2) sg i0 x = some y ∧ analyseExt (.two g1 g2) sg i0 x = some y ∧ y.length = x.length ∧ ∀ a ∈ y, P a := by
  have hpos : 0 < x.length := List.length_pos_iff.2 hne
  by_cases hw : x.length = 1
  · refine ⟨if i0 % 2 ≠ 0 then x.map sg else x, ?_, ?_, ?_, ?_⟩
    · unfold analyseExt; rw [if_pos hw]
    · unfold analyseExt; rw [if_pos hw]
    · split_ifs <;> simp
    · split_ifs
      · intro a ha
        obtain ⟨b, hb, rfl⟩ := List.mem_map.1 ha
        exact hsg b (hx b hb)
      · exact hx
  · obtain ⟨s, hs⟩ := Dwt.ext_exists (x := x) (by omega)
    have hP := hs.pred hx
    obtain ⟨y, ey, ly⟩ := Dwt.analyseExt_spec (flt := .two f1 f2) (single := sg) h0 (by omega) hs
    obtain ⟨z, ez, lz⟩ := Dwt.analyseExt_spec (flt := .two g1 g2) (single := sg) h0 (by omega) hs
    have e1 := liftAll_on h1 (p := 1 - i0 % 2) hP
    have e2 := liftAll_on h2 (p := i0 % 2) e1.2
    have hall : Dwt.analyseAll (.two f1 f2) (i0 % 2) s = Dwt.analyseAll (.two g1 g2) (i0 % 2) s := by
      simp only [Dwt.analyseAll]
      rw [e1.1, e2.1]
    rw [hall] at ly
    rw [ly.unique lz] at ey
    exact ⟨z, ey, ez, lz.1, lists_pred lz (by simpa only [Dwt.analyseAll] using e2.2)⟩

theorem synthesise_on : ∃ y, synthesiseCols (.two f1 f2) true sg i0 x = some y ∧ synthesiseCols (.two g1 g2) true sg i0 x = some y ∧ y.length = x.length ∧ ∀ a ∈ y, P a := by
  have hpos : 0 < x.length := List.length_pos_iff.2 hne
  by_cases hw : x.length = 1
  · refine ⟨if i0 % 2 ≠ 0 then x.map sg else x, ?_, ?_, ?_, ?_⟩
    · unfold synthesiseCols; rw [if_pos ⟨hw, Or.inr rfl⟩]
    · unfold synthesiseCols; rw [if_pos ⟨hw, Or.inr rfl⟩]
    · split_ifs <;> simp
    · split_ifs
      · intro a ha
        obtain ⟨b, hb, rfl⟩ := List.mem_map.1 ha
        exact hsg b (hx b hb)
      · exact hx
  · obtain ⟨s, hs⟩ := Dwt.ext_exists (x := x) (by omega)
    have hP := hs.pred hx
    obtain ⟨y, ey, ly⟩ := Dwt.synthesiseExt_spec (flt := .two f1 f2) h0 (by omega) hs
    obtain ⟨z, ez, lz⟩ := Dwt.synthesiseExt_spec (flt := .two g1 g2) h0 (by omega) hs
    have e1 := liftAll_on h2 (p := i0 % 2) hP
    have e2 := liftAll_on h1 (p := 1 - i0 % 2) e1.2
    have hall : Dwt.synthesiseAll (.two f1 f2) (i0 % 2) s = Dwt.synthesiseAll (.two g1 g2) (i0 % 2) s := by
      simp only [Dwt.synthesiseAll]
      rw [e1.1, e2.1]
    rw [hall] at ly
    rw [ly.unique lz] at ey
    unfold synthesiseCols
    rw [if_neg (by omega), if_neg (by omega)]
    exact ⟨z, ey, ez, lz.1, lists_pred lz (by simpa only [Dwt.synthesiseAll] using e2.2)⟩

end

/-! ## Rows -/

theorem stepV_of {g : V 8 → V 8 → V 8 → V 8} {f : BitVec 32 → BitVec 32 → BitVec 32 → BitVec 32} (hgf : ∀ a b t : V 8, ∀ i, g a b t i = f (a i) (b i) (t i))
    {fm : Step Int} (hf : ∀ a b t, (f a b t).toInt = fm a.toInt b.toInt t.toInt) {w : Nat} {p q t : List Int} (hp : Good w p) (hq : Good w q) (ht : Good w t) :
    stepV (fun n => vertical g f n 0) p q t = rowStep fm p q t ∧ Good w (rowStep fm p q t) := by
  have hb : ∀ x : List Int, ∀ i (h : i < (words x).length), Dwt.bufOf (words x) (i : Int) = some (words x)[i] := by
    intro x i h
    rw [Dwt.bufOf, if_pos (by omega), Int.toNat_natCast, List.getElem?_eq_getElem h]
  obtain ⟨tgt', y, e, ey, r, -⟩ := vertical_rows hgf hf (p := words p) (q := words q) (t := words t) (by rw [words_length, words_length, hp.1, ht.1])
    (by rw [words_length, words_length, hq.1, ht.1]) (hb p) (hb q) (hb t)
  rw [words_toInt hp.2, words_toInt hq.2, words_toInt ht.2] at r
  rw [words_length] at e ey
  have hl := readBack_len ey
  unfold stepV
  simp only
  rw [e, Option.bind_some, ey, Option.map_some, Option.getD_some, r]
  refine ⟨rfl, ?_⟩
  rw [← r]
  exact good_toInt (by rw [hl, ht.1])

theorem fetchRowV_eq {u0 : Int} (h0 : 0 ≤ u0) {lp hp : List Int} {w : Nat} (hsum : lp.length + hp.length = w) (hshape : (lp.length : Int) = ceilHalf (u0 + w) - ceilHalf u0)
    (hl : ∀ a ∈ lp, IR a) (hh : ∀ a ∈ hp, IR a) {slot : Mem} (hslot : Allocated slot (-8) (w + 8)) :
    ∃ y, fetchRowV slot u0 lp hp = some y ∧ fetchRowM toInt32 u0 lp hp = some y ∧ Good w y := by
  unfold fetchRowV fetchRowM
  rw [hsum]
  by_cases c1 : 0 < w ∧ (∀ a ∈ lp, a = 0) ∧ ∀ a ∈ hp, a = 0
  · rw [if_pos c1, if_pos c1]
    exact ⟨_, rfl, rfl, by simp, fun x hx => by rw [List.eq_of_mem_replicate hx]; unfold IR; omega⟩
  rw [if_neg c1, if_neg c1]
  by_cases c2 : w = 0
  · rw [if_pos c2, if_pos c2]
    exact ⟨_, rfl, rfl, by simp [c2], fun x hx => by simp at hx⟩
  rw [if_neg c2, if_neg c2]
  have hjl := join_length u0 lp hp
  by_cases c3 : w = 1
  · rw [if_pos c3]
    unfold synthesiseRow
    rw [if_pos (show (join u0 lp hp).length = 1 by omega)]
    have hj : ∀ x ∈ join u0 lp hp, IR x := by
      intro x hx
      unfold join at hx
      split_ifs at hx <;> rcases (Dwt.mem_weave _ _ _).1 hx with h | h
      · exact hl x h
      · exact hh x h
      · exact hh x h
      · exact hl x h
    refine ⟨_, rfl, rfl, ?_, ?_⟩
    · split_ifs <;> simp [hjl, hsum]
    · split_ifs
      · intro x hx
        obtain ⟨b, hb, rfl⟩ := List.mem_map.1 hx
        have := hj b hb
        unfold IR halve at *; omega
      · exact hj
  · rw [if_neg c3]
    obtain ⟨slot', y, e, ey, r, -⟩ := C81_row_synthesis u0 h0 (words lp) (words hp) (by rw [words_length, words_length, ← Nat.cast_add, hsum]; exact hshape)
      (by rw [words_length, words_length]; omega) slot (by rw [words_length, words_length, ← Nat.cast_add, hsum]; exact hslot)
    rw [words_toInt hl, words_toInt hh] at r
    rw [words_length, words_length, hsum] at ey
    exact ⟨y.map BitVec.toInt, by rw [e, Option.bind_some, ey]; rfl, r, good_toInt (readBack_len ey)⟩

/-- The ring slots of a level with rows of `w` samples are large enough. -/
def RoomInv (m : Scratch) (_ : Int) (w : Nat) : Prop := ∀ i, Allocated (m.slot i) (-8) (w + 8)

/-- The scratch row and the planes of a level with rows of `w` samples are large enough. -/
def RoomFwd (m : Scratch) (u0 : Int) (w : Nat) : Prop := ∀ i, Allocated (m.tmp i) (-2) (w + 8) ∧
  Allocated (m.lp i) 0 (ceilHalf (u0 + w) - ceilHalf u0 - 1) ∧ Allocated (m.hp i) 0 ((u0 + w) / 2 - u0 / 2 - 1)

theorem rev53M_row {u0 : Int} (h0 : 0 ≤ u0) {x : List Int} {w : Nat} (hw : 0 < w) (hx : Good w x) :
    ∃ y, analyseExt (rev53M toInt32) (doubleM toInt32) u0 x = some y ∧ Good w y := by
  obtain ⟨y, -, e, l, p⟩ := analyse_on (P := IR) (f1 := fun a b t : Int => toInt32 (t - toInt32 (a + b) / 2)) (g1 := fun a b t : Int => toInt32 (t - toInt32 (a + b) / 2))
    (f2 := fun a b t : Int => toInt32 (t + toInt32 (toInt32 (a + b) + 2) / 4)) (g2 := fun a b t : Int => toInt32 (t + toInt32 (toInt32 (a + b) + 2) / 4))
    (fun _ _ _ _ _ _ => ⟨rfl, ir_toInt32 _⟩) (fun _ _ _ _ _ _ => ⟨rfl, ir_toInt32 _⟩) (sg := doubleM toInt32) (fun _ _ => ir_toInt32 _) h0 hx.2
    (by rw [← List.length_pos_iff, hx.1]; exact hw)
  exact ⟨y, e, by rw [l, hx.1], p⟩

theorem sinkRowV_eq {u0 : Int} (h0 : 0 ≤ u0) {x : List Int} {w : Nat} (hw : 0 < w) (hx : Good w x) {m : Scratch} (hm : RoomFwd m u0 w) (i : Nat) :
    sinkRowV m i u0 x = (analyseExt (rev53M toInt32) (doubleM toInt32) u0 x).map (split u0) := by
  have hl := hx.1
  unfold sinkRowV
  by_cases c1 : x.length = 1
  · rw [if_pos c1]
    unfold analyseExt
    rw [if_pos c1]; rfl
  rw [if_neg c1]
  by_cases c2 : x = []
  · rw [if_pos c2]
  rw [if_neg c2]
  obtain ⟨m2, m3, m4⟩ := hm i
  obtain ⟨l, h, e, r⟩ := C81_row_analysis u0 h0 (words x) (by rw [words_length]; omega) (m.tmp i) (m.lp i) (m.hp i) (by rw [words_length, hl]; exact m2)
    (by rw [words_length, hl]; exact m3) (by rw [words_length, hl]; exact m4)
  rw [words_toInt hx.2] at r
  rw [e, r]; rfl

/-! ## Images -/

theorem mapM_zipIdx {α β : Type} {f : Nat → α → Option β} {g : α → Option β} {l : List α} (h : ∀ a ∈ l, ∀ i, f i a = g a) (k : Nat) :
    (l.zipIdx k).mapM (fun r => f r.2 r.1) = l.mapM g := by
  induction l generalizing k with
  | nil => rfl
  | cons a l ih =>
    rw [List.zipIdx_cons, List.mapM_cons, List.mapM_cons, ih (fun b hb => h b (by simp [hb]))]
    simp only [h a (by simp) k]

theorem fetch_all {u0 : Int} (h0 : 0 ≤ u0) {w wl wh : Nat} (hw : wl + wh = w) (hwl : (wl : Int) = ceilHalf (u0 + w) - ceilHalf u0) {A B : List (List Int)}
    (hA : ∀ r ∈ A, Good wl r) (hB : ∀ r ∈ B, Good wh r) {slot : Nat → Mem} (hs : ∀ i, Allocated (slot i) (-8) (w + 8)) :
    ∃ R, (List.zip A B).zipIdx.mapM (fun r => fetchRowV (slot r.2) u0 r.1.1 r.1.2) = some R ∧ (List.zip A B).mapM (fun r => fetchRowM toInt32 u0 r.1 r.2) = some R ∧
      ∀ r ∈ R, Good w r := by
  have key : ∀ a ∈ List.zip A B, ∀ i, ∃ y, fetchRowV (slot i) u0 a.1 a.2 = some y ∧ fetchRowM toInt32 u0 a.1 a.2 = some y ∧ Good w y := by
    intro a ha i
    have g1 := hA _ (List.of_mem_zip ha).1
    have g2 := hB _ (List.of_mem_zip ha).2
    exact fetchRowV_eq h0 (by rw [g1.1, g2.1, hw]) (by rw [g1.1, hwl]) g1.2 g2.2 (hs i)
  obtain ⟨R, e, lR, hR⟩ := Dwt.mapM_some (f := fun r : List Int × List Int => fetchRowM toInt32 u0 r.1 r.2) (l := List.zip A B) fun a ha => (key a ha 0).imp fun y hy => hy.2.1
  refine ⟨R, ?_, e, ?_⟩
  · rw [mapM_zipIdx (f := fun i (a : List Int × List Int) => fetchRowV (slot i) u0 a.1 a.2) (g := fun r => fetchRowM toInt32 u0 r.1 r.2)]
    · exact e
    · intro a ha i
      obtain ⟨y, e1, e2, -⟩ := key a ha i
      rw [e1, e2]
  · intro r hr
    obtain ⟨i, hi, rfl⟩ := List.mem_iff_getElem.1 hr
    obtain ⟨y, -, e2, g⟩ := key (List.zip A B)[i] (List.getElem_mem (by omega)) 0
    have := hR i (by omega) hi
    rw [e2, Option.some.injEq] at this
    rw [← this]; exact g

theorem mem_join {α : Type} {i0 : Int} {a b : List α} {c : α} (h : c ∈ join i0 a b) : c ∈ a ∨ c ∈ b := by
  unfold join at h
  split_ifs at h <;> rcases (Dwt.mem_weave _ _ _).1 h with h | h <;> tauto

theorem good_halve {w : Nat} {r : List Int} (h : Good w r) : Good w (r.map halve) := by
  refine ⟨by simpa using h.1, fun x hx => ?_⟩
  obtain ⟨b, hb, rfl⟩ := List.mem_map.1 hx
  have := h.2 b hb
  unfold IR halve at *; omega

theorem good_double {w : Nat} {r : List Int} (h : Good w r) : Good w (r.map (doubleM toInt32)) := by
  refine ⟨by simpa using h.1, fun x hx => ?_⟩
  obtain ⟨b, hb, rfl⟩ := List.mem_map.1 hx
  exact ir_toInt32 _

/-- The bands of a level with rows of `w` samples. -/
structure GoodBands (u0 : Int) (w : Nat) (b : Bands) : Prop where
  ex : ∃ wl wh : Nat, wl + wh = w ∧ (wl : Int) = ceilHalf (u0 + w) - ceilHalf u0 ∧ (∀ r ∈ b.ll, Good wl r) ∧ (∀ r ∈ b.hl, Good wh r) ∧ (∀ r ∈ b.lh, Good wl r) ∧
    ∀ r ∈ b.hh, Good wh r

theorem synthesise2dV_eq {u0 v0 : Int} (hu : 0 ≤ u0) (hv : 0 ≤ v0) {w : Nat} {b : Bands} (hb : GoodBands u0 w b) {m : Scratch} (hm : RoomInv m u0 w) :
    ∃ rows, synthesise2dV m u0 v0 b = some rows ∧ synthesise2dM toInt32 u0 v0 b = some rows ∧ ∀ r ∈ rows, Good w r := by
  obtain ⟨wl, wh, hw, hwl, h1, h2, h3, h4⟩ := hb.ex
  obtain ⟨L, e1, e2, gL⟩ := fetch_all hu hw hwl h1 h2 (slot := fun i => m.slot (2 * i)) fun i => hm _
  obtain ⟨H, e3, e4, gH⟩ := fetch_all hu hw hwl h3 h4 (slot := fun i => m.slot (2 * i + 1)) fun i => hm _
  unfold synthesise2dV synthesise2dM
  simp only [Option.bind_eq_bind]
  rw [e1, e2, Option.bind_some, Option.bind_some, e3, e4, Option.bind_some, Option.bind_some]
  by_cases hj : join v0 L H = []
  · rw [if_pos hj, if_pos hj]
    exact ⟨[], rfl, rfl, fun r hr => by simp at hr⟩
  · rw [if_neg hj, if_neg hj]
    obtain ⟨y, a1, a2, -, a4⟩ := synthesise_on (P := Good w) (f1 := stepV verInvHp) (f2 := stepV verInvLp)
      (fun a b t ha hb ht => stepV_of (g := fun a b t => vadd t (vsrai (vadd a b) 1)) (fm := fun a b t => toInt32 (t + toInt32 (a + b) / 2)) (fun _ _ _ _ => rfl) toInt_hpInv ha hb ht)
      (fun a b t ha hb ht => stepV_of (g := fun a b t => vsub t (vsrai (vadd (vadd a b) (vset 2#32)) 2)) (fm := fun a b t => toInt32 (t - toInt32 (toInt32 (a + b) + 2) / 4)) (fun _ _ _ _ => rfl) toInt_lpInv ha hb ht)
      (sg := List.map halve) (fun a ha => good_halve ha) hv (x := join v0 L H) (fun a ha => (mem_join ha).elim (gL a) (gH a)) hj
    exact ⟨y, a1, a2, a4⟩

theorem good_split {u0 : Int} (h0 : 0 ≤ u0) {w : Nat} {r : List Int} (h : Good w r) :
    Good (ceilHalf (u0 + w) - ceilHalf u0).toNat (split u0 r).1 ∧ Good (w - (ceilHalf (u0 + w) - ceilHalf u0).toNat) (split u0 r).2 := by
  have hl := Dwt.length_split u0 h0 r
  obtain ⟨s1, s2⟩ := Dwt.split_subset u0 r
  rw [h.1] at hl
  exact ⟨⟨by omega, fun x hx => h.2 x (s1 x hx)⟩, ⟨by omega, fun x hx => h.2 x (s2 x hx)⟩⟩

theorem analyse2dV_eq {u0 v0 : Int} (hu : 0 ≤ u0) (hv : 0 ≤ v0) {w : Nat} (hw : 0 < w) {rows : List (List Int)} (hr : ∀ r ∈ rows, Good w r) {m : Scratch}
    (hm : RoomFwd m u0 w) : ∃ b, analyse2dV m u0 v0 rows = some b ∧ analyse2dM toInt32 u0 v0 rows = some b ∧ GoodBands u0 w b := by
  obtain ⟨v, e1, e2, gv⟩ : ∃ v, (if rows = [] then some [] else analyseExt colsFwd (List.map (doubleM toInt32)) v0 rows) = some v ∧
      (if rows = [] then some [] else analyseExt (rev53M toInt32).onRows (List.map (doubleM toInt32)) v0 rows) = some v ∧ ∀ r ∈ v, Good w r := by
    by_cases hn : rows = []
    · rw [if_pos hn, if_pos hn]
      exact ⟨[], rfl, rfl, fun r hr => by simp at hr⟩
    · rw [if_neg hn, if_neg hn]
      obtain ⟨y, a1, a2, -, a4⟩ := analyse_on (P := Good w) (f1 := stepV verFwdHp) (f2 := stepV verFwdLp)
        (fun a b t ha hb ht => stepV_of (g := fun a b t => vsub t (vsrai (vadd a b) 1)) (fm := fun a b t => toInt32 (t - toInt32 (a + b) / 2)) (fun _ _ _ _ => rfl) toInt_hpFwd ha hb ht)
        (fun a b t ha hb ht => stepV_of (g := fun a b t => vadd t (vsrai (vadd (vadd a b) (vset 2#32)) 2)) (fm := fun a b t => toInt32 (t + toInt32 (toInt32 (a + b) + 2) / 4)) (fun _ _ _ _ => rfl) toInt_lpFwd ha hb ht)
        (sg := List.map (doubleM toInt32)) (fun a ha => good_double ha) hv hr hn
      exact ⟨y, a1, a2, a4⟩
  obtain ⟨h, e3, lh, hh⟩ := Dwt.mapM_some (f := analyseExt (rev53M toInt32) (doubleM toInt32) u0) (l := v) fun r hr => (rev53M_row hu hw (gv r hr)).imp fun y hy => hy.1
  have gh : ∀ r ∈ h, Good w r := by
    intro r hr
    obtain ⟨i, hi, rfl⟩ := List.mem_iff_getElem.1 hr
    obtain ⟨y, ey, g⟩ := rev53M_row hu hw (gv _ (List.getElem_mem (by omega : i < v.length)))
    rw [hh i (by omega) hi, Option.some.injEq] at ey
    rw [ey]; exact g
  have e4 : v.zipIdx.mapM (fun r => sinkRowV m r.2 u0 r.1) = some (h.map (split u0)) := by
    rw [mapM_zipIdx (f := fun i a => sinkRowV m i u0 a) (g := fun x => (analyseExt (rev53M toInt32) (doubleM toInt32) u0 x).map (split u0))
      (fun a ha i => sinkRowV_eq hu hw (gv a ha) hm i)]
    apply Dwt.mapM_inverse (by simp [lh])
    intro i h1 h2
    rw [hh i h2 (by omega)]
    simp
  obtain ⟨s1, s2⟩ := Dwt.split_subset v0 h
  have d1 : analyse2dV m u0 v0 rows = (if rows = [] then some [] else analyseExt colsFwd (List.map (doubleM toInt32)) v0 rows).bind fun v =>
      (v.zipIdx.mapM fun r => sinkRowV m r.2 u0 r.1).bind fun h =>
        some ⟨(split v0 h).1.map Prod.fst, (split v0 h).1.map Prod.snd, (split v0 h).2.map Prod.fst, (split v0 h).2.map Prod.snd⟩ := by
    unfold analyse2dV
    split_ifs <;> rfl
  have d2 : analyse2dM toInt32 u0 v0 rows = (if rows = [] then some [] else analyseExt (rev53M toInt32).onRows (List.map (doubleM toInt32)) v0 rows).bind fun v =>
      (v.mapM (analyseExt (rev53M toInt32) (doubleM toInt32) u0)).bind fun h =>
        some ⟨(split v0 h).1.map (fun r => (split u0 r).1), (split v0 h).1.map (fun r => (split u0 r).2), (split v0 h).2.map (fun r => (split u0 r).1),
          (split v0 h).2.map (fun r => (split u0 r).2)⟩ := by
    unfold analyse2dM
    split_ifs <;> rfl
  rw [d1, d2, e1, e2, Option.bind_some, Option.bind_some, e3, e4, Option.bind_some, Option.bind_some, Dwt.split_map]
  refine ⟨_, rfl, ?_, ⟨(ceilHalf (u0 + w) - ceilHalf u0).toNat, w - (ceilHalf (u0 + w) - ceilHalf u0).toNat, by unfold ceilHalf; omega, by unfold ceilHalf; omega, ?_⟩⟩
  · simp [List.map_map, Function.comp_def]
  · simp only [List.map_map, List.mem_map, Function.comp_def]
    refine ⟨?_, ?_, ?_, ?_⟩
    all_goals rintro r ⟨q, hq, rfl⟩
    · exact (good_split hu (gh q (s1 q hq))).1
    · exact (good_split hu (gh q (s1 q hq))).2
    · exact (good_split hu (gh q (s2 q hq))).1
    · exact (good_split hu (gh q (s2 q hq))).2

/-! ## Levels -/

/-- The decomposition of an image with rows of `w` samples. -/
def Fits : Int → Nat → List (List Int) → List Detail → Prop
  | _, w, ll, [] => ∀ r ∈ ll, Good w r
  | u0, w, ll, d :: ds => ∃ wl wh : Nat, wl + wh = w ∧ (wl : Int) = ceilHalf (u0 + w) - ceilHalf u0 ∧ (∀ r ∈ d.hl, Good wh r) ∧ (∀ r ∈ d.lh, Good wl r) ∧
      (∀ r ∈ d.hh, Good wh r) ∧ Fits (ceilHalf u0) wl ll ds

/-- Every level has room. -/
def RoomAll (room : Scratch → Int → Nat → Prop) : List Scratch → Int → Nat → Prop
  | [], _, _ => True
  | m :: ms, u0, w => room m u0 w ∧ RoomAll room ms (ceilHalf u0) (ceilHalf (u0 + w) - ceilHalf u0).toNat

theorem synthesiseLevelsV_eq {ds : List Detail} : ∀ {ms : List Scratch} {u0 v0 : Int} {w : Nat} {ll : List (List Int)}, 0 ≤ u0 → 0 ≤ v0 → ms.length = ds.length →
    Fits u0 w ll ds → RoomAll RoomInv ms u0 w →
    ∃ rows, synthesiseLevelsV ms u0 v0 ll ds = some rows ∧ synthesiseLevelsM toInt32 u0 v0 ll ds = some rows ∧ ∀ r ∈ rows, Good w r := by
  induction ds with
  | nil =>
    intro ms u0 v0 w ll _ _ hl hf _
    obtain rfl := List.length_eq_zero_iff.1 hl
    exact ⟨ll, rfl, rfl, hf⟩
  | cons d ds ih =>
    intro ms u0 v0 w ll hu hv hl hf hm
    obtain ⟨m, ms, rfl⟩ := List.exists_cons_of_length_eq_add_one hl
    obtain ⟨wl, wh, hw, hwl, h2, h3, h4, h5⟩ := hf
    obtain ⟨m1, m2⟩ := hm
    rw [← hwl, Int.toNat_natCast] at m2
    obtain ⟨l, e1, e2, g⟩ := ih (ms := ms) (v0 := ceilHalf v0) (by unfold ceilHalf; omega) (by unfold ceilHalf; omega) (by simpa using hl) h5 m2
    obtain ⟨rows, a1, a2, a3⟩ := synthesise2dV_eq hu hv (b := ⟨l, d.hl, d.lh, d.hh⟩) ⟨⟨wl, wh, hw, hwl, g, h2, h3, h4⟩⟩ m1
    refine ⟨rows, ?_, ?_, a3⟩
    · rw [synthesiseLevelsV, e1, Option.bind_some, a1]
    · rw [synthesiseLevelsM, e2, Option.bind_some, a2]

theorem analyseLevelsV_eq {ms : List Scratch} : ∀ {u0 v0 : Int} {w : Nat} {rows : List (List Int)}, 0 ≤ u0 → 0 ≤ v0 → (∀ r ∈ rows, Good w r) →
    (∀ l < ms.length, (u0 + 2 ^ l - 1) / 2 ^ l < (u0 + w + 2 ^ l - 1) / 2 ^ l) → RoomAll RoomFwd ms u0 w →
    ∃ ll ds, analyseLevelsV ms u0 v0 rows = some (ll, ds) ∧ analyseLevelsM toInt32 ms.length u0 v0 rows = some (ll, ds) ∧ Fits u0 w ll ds ∧ ds.length = ms.length := by
  induction ms with
  | nil => intro u0 v0 w rows _ _ hg _ _; exact ⟨rows, [], rfl, rfl, hg, rfl⟩
  | cons m ms ih =>
    intro u0 v0 w rows hu hv hg hl hm
    have h0 := hl 0 (by simp)
    obtain ⟨m1, m2⟩ := hm
    obtain ⟨b, e1, e2, ⟨wl, wh, hw, hwl, g1, g2, g3, g4⟩⟩ := analyse2dV_eq hu hv (by simp at h0; omega) hg m1
    rw [← hwl, Int.toNat_natCast] at m2
    obtain ⟨ll, ds, a1, a2, a3, a4⟩ := ih (u0 := ceilHalf u0) (v0 := ceilHalf v0) (by unfold ceilHalf; omega) (by unfold ceilHalf; omega) g1 (fun l hl' => by
      have := hl (l + 1) (by simpa using hl')
      rw [show ceilHalf u0 + (wl : Int) = ceilHalf (u0 + w) by omega]
      have key : ∀ u : Int, (ceilHalf u + 2 ^ l - 1) / 2 ^ l = (u + 2 ^ (l + 1) - 1) / 2 ^ (l + 1) := by
        intro u
        unfold ceilHalf
        have : (u + 1) / 2 + 2 ^ l - 1 = (u + 2 ^ (l + 1) - 1) / 2 := by
          rw [pow_succ]; omega
        rw [this, Int.ediv_ediv_of_nonneg (by norm_num), pow_succ, mul_comm]
      rw [key, key]
      exact this) m2
    refine ⟨ll, ⟨b.hl, b.lh, b.hh⟩ :: ds, ?_, ?_, ⟨wl, wh, hw, hwl, g2, g3, g4, a3⟩, by simp [a4]⟩
    · rw [analyseLevelsV, e1, Option.bind_some, a1]; rfl
    · rw [List.length_cons, analyseLevelsM, e2, Option.bind_some, a2]; rfl

end Verif.Simd.Lift
