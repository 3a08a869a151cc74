import Verif.Packet.BitIO
/-
Model of the tag tree: topology, construction of the inner values, and the encoder's and decoder's traversals.
Source: /repo/source/core/codestream/codestream.hpp:440-594, /repo/source/core/coding/coding_units.cpp.
-/
namespace Verif.Packet

/-! ### Topology -/

/-- `ceil_int(a, 2)` (utils.hpp:38). -/
def half (a : Nat) : Nat := (a + 1) / 2

/-- codestream.hpp:521-531: widths and heights of the levels, leaves first. -/
def treeDims (w h : Nat) : List (Nat × Nat) :=
  if _h : w * h ≤ 1 then [(w, h)] else (w, h) :: treeDims (half w) (half h)
termination_by w + h
decreasing_by
  have hw : w ≠ 0 := by rintro rfl; simp at _h
  have hh : h ≠ 0 := by rintro rfl; simp at _h
  have : 2 ≤ w ∨ 2 ≤ h := by
    by_contra hc
    have : w = 1 ∧ h = 1 := by omega
    rw [this.1, this.2] at _h; simp at _h
  unfold half; omega

/-- codestream.hpp:552-562: the parent indices given to the nodes of one row from column `j` on; `pi` is
`parent_index`. -/
def rowParents (w : Nat) (pi j : Nat) : List Nat :=
  if j < w then pi :: rowParents w (if j % 2 = 1 ∧ j ≠ w - 1 then pi + 1 else pi) (j + 1) else []
termination_by w - j

/-- codestream.hpp:550-566: the rows of one level from row `i` on; `rp` is `row_parent_index`. -/
def levelParents (w h : Nat) (rp i : Nat) : List Nat :=
  if i < h then rowParents w rp 0 ++ levelParents w h (if i % 2 = 1 then rp + half w else rp) (i + 1) else []
termination_by h - i

/-- codestream.hpp:543-575: parent of every node in index order; `none` is the root's -1.  `parent_num` is the
number of nodes up to and including the current level.  (`get_level() > 0`, tested by the traversals, is true
exactly for the nodes that have a parent, so levels are not represented.) -/
def treeParents (w h parentNum : Nat) : List (Option Nat) :=
  if _h : w * h ≤ 1 then (if w * h = 1 then [none] else [])
  else (levelParents w h (parentNum + w * h) 0).map some ++ treeParents (half w) (half h) (parentNum + w * h)
termination_by w + h
decreasing_by
  have hw : w ≠ 0 := by rintro rfl; simp at _h
  have hh : h ≠ 0 := by rintro rfl; simp at _h
  have : 2 ≤ w ∨ 2 ≤ h := by
    by_contra hc
    have : w = 1 ∧ h = 1 := by omega
    rw [this.1, this.2] at _h; simp at _h
  unfold half; omega

/-- `num_nodes` (codestream.hpp:521-525). -/
def numNodes (w h : Nat) : Nat := ((treeDims w h).map fun d => d.1 * d.2).sum

/-- The tree of a `w` x `h` grid of code-blocks. -/
def parentsOf (w h : Nat) : List (Option Nat) := treeParents w h 0

/-- `get_parent_index()`. -/
def parentFn (ps : List (Option Nat)) (i : Nat) : Option Nat := (ps[i]?).join

/-- `add_child`: the children of node `p` in the order they were added. -/
def childrenOf (ps : List (Option Nat)) (p : Nat) : List Nat :=
  (List.range ps.length).filter fun i => parentFn ps i = some p

/-! Closed form of the parent function. -/

theorem rowParents_spec (w : Nat) (pi j : Nat) :
    (rowParents w pi j).length = w - j ∧
    ∀ k (hk : k < (rowParents w pi j).length), (rowParents w pi j)[k] + j / 2 = pi + (j + k) / 2 := by
  generalize hm : w - j = m
  induction m generalizing pi j with
  | zero => rw [rowParents, if_neg (by omega)]; simp
  | succ m ih =>
    rw [rowParents, if_pos (by omega)]
    generalize hq : (if j % 2 = 1 ∧ j ≠ w - 1 then pi + 1 else pi) = q
    obtain ⟨h1, h2⟩ := ih q (j + 1) (by omega)
    refine ⟨by simp [h1], ?_⟩
    intro k hk
    cases k with
    | zero => simp
    | succ k =>
      simp only [List.getElem_cons_succ]
      simp only [List.length_cons, h1] at hk
      have := h2 k (by omega)
      split_ifs at hq <;> omega

theorem rowParents_get (w : Nat) (pi : Nat) (k : Nat) (hk : k < w) : (rowParents w pi 0)[k]? = some (pi + k / 2) := by
  obtain ⟨h1, h2⟩ := rowParents_spec w pi 0
  have := h2 k (by omega)
  rw [List.getElem?_eq_getElem (by omega)]
  simp at this
  rw [this]

theorem levelParents_spec (w h : Nat) (rp i : Nat) :
    (levelParents w h rp i).length = w * (h - i) ∧
    ∀ y x, y < h - i → x < w → ∃ v, (levelParents w h rp i)[y * w + x]? = some v ∧
      v + half w * (i / 2) = rp + half w * ((i + y) / 2) + x / 2 := by
  generalize hm : h - i = m
  induction m generalizing rp i with
  | zero => rw [levelParents, if_neg (by omega)]; simp
  | succ m ih =>
    rw [levelParents, if_pos (by omega)]
    obtain ⟨h1, h2⟩ := ih (if i % 2 = 1 then rp + half w else rp) (i + 1) (by omega)
    have hl := (rowParents_spec w rp 0).1
    refine ⟨by rw [List.length_append, h1, hl]; ring_nf; omega, ?_⟩
    intro y x hy hx
    cases y with
    | zero =>
      refine ⟨rp + x / 2, ?_, by simp; omega⟩
      rw [List.getElem?_append_left (by omega)]
      simpa using rowParents_get w rp x hx
    | succ y =>
      obtain ⟨v, hv, he⟩ := h2 y x (by omega) hx
      refine ⟨v, ?_, ?_⟩
      · rw [List.getElem?_append_right (by rw [hl]; rw [Nat.add_mul]; omega), hl]
        rw [show (y + 1) * w + x - (w - 0) = y * w + x by rw [Nat.add_mul]; omega]
        exact hv
      · rw [show i + (y + 1) = i + 1 + y by omega]
        by_cases hi : i % 2 = 1
        · rw [if_pos hi] at he
          rw [show (i + 1) / 2 = i / 2 + 1 by omega, Nat.mul_add, Nat.mul_one] at he
          omega
        · rw [if_neg hi] at he
          rw [show (i + 1) / 2 = i / 2 by omega] at he
          omega

/-- Well-formed topology: every parent index is larger than its node, inside the tree, and no node has more than
four children (the size of `child_index`). -/
structure WfTree (ps : List (Option Nat)) : Prop where
  up : ∀ i p, parentFn ps i = some p → i < p ∧ p < ps.length
  four : ∀ p, (childrenOf ps p).length ≤ 4
  root : ∀ i, i < ps.length → parentFn ps i = none → i + 1 = ps.length

/-- Everything about one tree, with node indices shifted by `o`. -/
structure TreeSpec (w h o : Nat) (ps : List (Option Nat)) : Prop where
  len : 1 ≤ w → 1 ≤ h → 1 ≤ ps.length
  leaves : w * h ≤ ps.length
  up : ∀ i p : Nat, ps[i]? = some (some p) → o + i < p ∧ p < o + ps.length
  root : ∀ i : Nat, ps[i]? = some none → i + 1 = ps.length
  -- nodes sharing a parent occupy at most four grid positions
  four : ∀ p, ∃ l : List Nat, l.length ≤ 4 ∧ ∀ i : Nat, ps[i]? = some (some p) → i ∈ l
  inner : ∀ p, o + w * h ≤ p → p < o + ps.length → ∃ i : Nat, ps[i]? = some (some p)
  leafPar : ∀ i p : Nat, ps[i]? = some (some p) → o + w * h ≤ p

theorem treeParents_spec (w h o : Nat) (hw : 1 ≤ w) (hh : 1 ≤ h) : TreeSpec w h o (treeParents w h o) := by
  generalize hm : w + h = m
  induction m using Nat.strongRecOn generalizing w h o with
  | ind m ih =>
    rw [treeParents]
    by_cases h1 : w * h ≤ 1
    · rw [dif_pos h1]
      have hwh : w * h = 1 := by
        have : 1 * 1 ≤ w * h := Nat.mul_le_mul hw hh
        omega
      rw [if_pos hwh]
      refine ⟨by simp, by simp [hwh], ?_, ?_, ?_, ?_, ?_⟩
      · intro i p hi
        cases i <;> simp at hi
      · intro i hi
        cases i with
        | zero => rfl
        | succ i => simp at hi
      · intro p
        refine ⟨[], by simp, ?_⟩
        intro i hi
        cases i <;> simp at hi
      · intro p hp1 hp2
        simp at hp2; omega
      · intro i p hi
        cases i <;> simp at hi
    · rw [dif_neg h1]
      have h2w : half w ≤ w := by unfold half; omega
      have h2h : half h ≤ h := by unfold half; omega
      have hlt : half w + half h < w + h := by
        have : 2 ≤ w ∨ 2 ≤ h := by
          by_contra hc
          have : w = 1 ∧ h = 1 := by omega
          rw [this.1, this.2] at h1; simp at h1
        unfold half; omega
      have hI := ih (half w + half h) (by omega) (half w) (half h) (o + w * h) (by unfold half; omega)
        (by unfold half; omega) rfl
      obtain ⟨hl, hg⟩ := levelParents_spec w h (o + w * h) 0
      rw [Nat.sub_zero] at hl
      generalize htp : treeParents (half w) (half h) (o + w * h) = tp at hI
      -- the level's own nodes, by coordinates
      have hlev : ∀ i, i < w * h → ((levelParents w h (o + w * h) 0).map some ++ tp)[i]? =
          some (some (o + w * h + half w * (i / w / 2) + i % w / 2)) := by
        intro i hi
        have hx : i % w < w := Nat.mod_lt _ (by omega)
        have hy : i / w < h - 0 := by
          rw [Nat.sub_zero]; exact Nat.div_lt_of_lt_mul hi
        obtain ⟨v, hv, he⟩ := hg (i / w) (i % w) hy hx
        rw [show i / w * w + i % w = i by rw [Nat.mul_comm]; exact Nat.div_add_mod i w] at hv
        rw [List.getElem?_append_left (by simp [hl, hi]), List.getElem?_map, hv]
        simp at he ⊢
        omega
      have hup : ∀ i, w * h ≤ i → ((levelParents w h (o + w * h) 0).map some ++ tp)[i]? = tp[i - w * h]? := by
        intro i hi
        rw [List.getElem?_append_right (by simp [hl, hi])]
        simp [hl]
      have hlen : ((levelParents w h (o + w * h) 0).map some ++ tp).length = w * h + tp.length := by simp [hl]
      have hbnd : ∀ i, i < w * h → half w * (i / w / 2) + i % w / 2 < half w * half h := by
        intro i hi
        have hx : i % w < w := Nat.mod_lt _ (by omega)
        have hy : i / w < h := Nat.div_lt_of_lt_mul hi
        have a : i % w / 2 < half w := by unfold half; omega
        have b : i / w / 2 + 1 ≤ half h := by unfold half; omega
        calc half w * (i / w / 2) + i % w / 2 < half w * (i / w / 2) + half w := by omega
          _ = half w * (i / w / 2 + 1) := by ring
          _ ≤ half w * half h := Nat.mul_le_mul_left _ b
      refine ⟨?_, ?_, ?_, ?_, ?_, ?_, ?_⟩
      · intro _ _; rw [hlen]; have := hI.leaves; omega
      · rw [hlen]; omega
      · intro i p hi
        by_cases hw : i < w * h
        · rw [hlev i hw] at hi
          simp only [Option.some.injEq] at hi
          have := hbnd i hw
          have := hI.leaves
          rw [hlen]; omega
        · rw [hup i (by omega)] at hi
          have := hI.up _ _ hi
          rw [hlen]; omega
      · intro i hi
        by_cases hw : i < w * h
        · rw [hlev i hw] at hi; simp at hi
        · rw [hup i (by omega)] at hi
          have := hI.root _ hi
          rw [hlen]; omega
      · intro p
        by_cases hp : p < o + w * h + half w * half h
        · -- parent in the next level: children in this level only
          let q := p - (o + w * h)
          let Y := q / half w
          let X := q % half w
          refine ⟨[2 * Y * w + 2 * X, 2 * Y * w + (2 * X + 1), (2 * Y + 1) * w + 2 * X,
            (2 * Y + 1) * w + (2 * X + 1)], by simp, ?_⟩
          intro i hi
          by_cases hw' : i < w * h
          · rw [hlev i hw'] at hi
            simp only [Option.some.injEq] at hi
            have hq : q = half w * (i / w / 2) + i % w / 2 := by
              show p - (o + w * h) = _; omega
            have hxl : i % w / 2 < half w := by
              have : i % w < w := Nat.mod_lt _ (by omega)
              unfold half; omega
            have hY : Y = i / w / 2 := by
              show q / half w = _
              rw [hq, Nat.mul_add_div (by omega), Nat.div_eq_of_lt hxl, Nat.add_zero]
            have hX : X = i % w / 2 := by
              show q % half w = _
              rw [hq, Nat.mul_add_mod, Nat.mod_eq_of_lt hxl]
            have hdm : i = i / w * w + i % w := by rw [Nat.mul_comm]; exact (Nat.div_add_mod i w).symm
            have hy2 : i / w = 2 * Y ∨ i / w = 2 * Y + 1 := by omega
            have hx2 : i % w = 2 * X ∨ i % w = 2 * X + 1 := by omega
            rcases hy2 with hy | hy <;> rcases hx2 with hx | hx <;> rw [hy, hx] at hdm <;>
              rw [hdm] <;> simp
          · rw [hup i (by omega)] at hi
            have := hI.leafPar _ _ hi
            omega
        · obtain ⟨l, hl4, hl⟩ := hI.four p
          refine ⟨l.map (· + w * h), by simpa using hl4, ?_⟩
          intro i hi
          by_cases hw' : i < w * h
          · rw [hlev i hw'] at hi
            simp only [Option.some.injEq] at hi
            have := hbnd i hw'
            omega
          · rw [hup i (by omega)] at hi
            have := hl _ hi
            rw [List.mem_map]
            exact ⟨_, this, by omega⟩
      · intro p hp1 hp2
        rw [hlen] at hp2
        by_cases hp : p < o + w * h + half w * half h
        · let q := p - (o + w * h)
          have hq : q < half w * half h := by show p - (o + w * h) < _; omega
          have hhw : 0 < half w := by unfold half; omega
          have hY : q / half w < half h := Nat.div_lt_of_lt_mul hq
          have hX : q % half w < half w := Nat.mod_lt _ hhw
          have hx2 : 2 * (q % half w) < w := by unfold half at hX hq hY ⊢; omega
          have hy2 : 2 * (q / half w) < h := by unfold half at hX hq hY ⊢; omega
          refine ⟨2 * (q / half w) * w + 2 * (q % half w), ?_⟩
          have hlt2 : 2 * (q / half w) * w + 2 * (q % half w) < w * h := by
            calc 2 * (q / half w) * w + 2 * (q % half w) < 2 * (q / half w) * w + w := by omega
              _ = w * (2 * (q / half w) + 1) := by ring
              _ ≤ w * h := Nat.mul_le_mul_left _ (by omega)
          rw [hlev _ hlt2]
          have e1 : (2 * (q / half w) * w + 2 * (q % half w)) / w = 2 * (q / half w) := by
            rw [Nat.mul_comm _ w, Nat.mul_add_div (by omega), Nat.div_eq_of_lt hx2, Nat.add_zero]
          have e2 : (2 * (q / half w) * w + 2 * (q % half w)) % w = 2 * (q % half w) := by
            rw [Nat.mul_comm _ w, Nat.mul_add_mod, Nat.mod_eq_of_lt hx2]
          rw [e1, e2]
          have := Nat.div_add_mod q (half w)
          simp only [Option.some.injEq]
          rw [show 2 * (q / half w) / 2 = q / half w by omega, show 2 * (q % half w) / 2 = q % half w by omega,
            Nat.add_assoc, this]
          show o + w * h + (p - (o + w * h)) = p
          omega
        · obtain ⟨i, hi⟩ := hI.inner p (by omega) (by omega)
          refine ⟨i + w * h, ?_⟩
          rw [hup _ (by omega)]
          rw [show i + w * h - w * h = i by omega]
          exact hi
      · intro i p hi
        by_cases hw' : i < w * h
        · rw [hlev i hw'] at hi
          simp only [Option.some.injEq] at hi
          omega
        · rw [hup i (by omega)] at hi
          have := hI.leafPar _ _ hi
          omega

theorem parentFn_some {ps : List (Option Nat)} {i p : Nat} : parentFn ps i = some p ↔ ps[i]? = some (some p) := by
  unfold parentFn
  cases h : ps[i]? with
  | none => simp
  | some x => simp

theorem parentFn_none {ps : List (Option Nat)} {i : Nat} (hi : i < ps.length) :
    parentFn ps i = none ↔ ps[i]? = some none := by
  unfold parentFn
  rw [List.getElem?_eq_getElem hi]
  simp

/-- The tree of any non-empty grid is well formed. -/
theorem parentsOf_wf (w h : Nat) (hw : 1 ≤ w) (hh : 1 ≤ h) : WfTree (parentsOf w h) := by
  have hs := treeParents_spec w h 0 hw hh
  refine ⟨?_, ?_, ?_⟩
  · intro i p hi
    have := hs.up i p (parentFn_some.1 hi)
    exact ⟨by omega, by show p < (treeParents w h 0).length; omega⟩
  · intro p
    obtain ⟨l, hl, hm⟩ := hs.four p
    refine le_trans ?_ hl
    apply List.Subperm.length_le
    apply List.subperm_of_subset
    · exact List.nodup_range.filter _
    · intro i hi
      have := (List.mem_filter.1 hi).2
      exact hm i (parentFn_some.1 (of_decide_eq_true this))
  · intro i hi hn
    exact hs.root i ((parentFn_none hi).1 hn)

/-! ### Values -/

/-- codestream.hpp:581-594 `build` on a fresh tree whose leaves have been set: inner nodes, in index order, get
the minimum of their children's values.  A node without children would read an uninitialised child index; the
model gives it 0 and `buildFrom_min` together with `TreeSpec.inner` shows it does not happen. -/
def buildFrom (ps : List (Option Nat)) (vals : List Nat) : Nat → List Nat
  | 0 => vals
  | n + 1 =>
    let cs := (childrenOf ps vals.length).map fun c => vals.getD c 0
    buildFrom ps (vals ++ [cs.foldl min (cs.headD 0)]) n

def buildVals (ps : List (Option Nat)) (leaves : List Nat) : List Nat :=
  buildFrom ps leaves (ps.length - leaves.length)

theorem foldl_min_le (l : List Nat) (a : Nat) : l.foldl min a ≤ a ∧ ∀ x ∈ l, l.foldl min a ≤ x := by
  induction l generalizing a with
  | nil => simp
  | cons b l ih =>
    obtain ⟨h1, h2⟩ := ih (min a b)
    simp only [List.foldl_cons]
    refine ⟨by omega, ?_⟩
    intro x hx
    rcases List.mem_cons.1 hx with rfl | hx
    · omega
    · exact h2 x hx

theorem buildFrom_spec (ps : List (Option Nat)) (hwf : WfTree ps) (n : Nat) : ∀ (vals : List Nat),
    vals.length + n = ps.length →
    (buildFrom ps vals n).length = ps.length ∧
    (∀ i, i < vals.length → (buildFrom ps vals n).getD i 0 = vals.getD i 0) ∧
    (∀ i p, vals.length ≤ p → parentFn ps i = some p →
      (buildFrom ps vals n).getD p 0 ≤ (buildFrom ps vals n).getD i 0) := by
  induction n with
  | zero =>
    intro vals h
    refine ⟨by simpa [buildFrom] using h, fun _ _ => rfl, ?_⟩
    intro i p hp hi
    have := hwf.up i p hi
    omega
  | succ n ih =>
    intro vals h
    simp only [buildFrom]
    generalize hcs : ((childrenOf ps vals.length).map fun c => vals.getD c 0) = cs
    obtain ⟨h1, h2, h3⟩ := ih (vals ++ [cs.foldl min (cs.headD 0)]) (by simp; omega)
    refine ⟨h1, ?_, ?_⟩
    · intro i hi
      rw [h2 i (by simp; omega)]
      simp [List.getD_eq_getElem?_getD, List.getElem?_append_left hi]
    · intro i p hp hi
      by_cases hpe : p = vals.length
      · have hup := hwf.up i p hi
        subst hpe
        rw [h2 _ (by simp), h2 i (by simp; omega)]
        have e1 : (vals ++ [cs.foldl min (cs.headD 0)]).getD vals.length 0 = cs.foldl min (cs.headD 0) := by
          simp [List.getD_eq_getElem?_getD]
        have e2 : (vals ++ [cs.foldl min (cs.headD 0)]).getD i 0 = vals.getD i 0 := by
          simp [List.getD_eq_getElem?_getD, List.getElem?_append_left hup.1]
        rw [e1, e2]
        apply (foldl_min_le cs _).2
        rw [← hcs, List.mem_map]
        refine ⟨i, ?_, rfl⟩
        unfold childrenOf
        rw [List.mem_filter]
        exact ⟨by simp; omega, by simpa using hi⟩
      · exact h3 i p (by simp; omega) hi

/-- The values of a tree: leaves as set, and no parent exceeds its child. -/
theorem buildVals_spec (w h : Nat) (hw : 1 ≤ w) (hh : 1 ≤ h) (leaves : List Nat) (hl : leaves.length = w * h) :
    (∀ i, i < w * h → (buildVals (parentsOf w h) leaves).getD i 0 = leaves.getD i 0) ∧
    (∀ i p, parentFn (parentsOf w h) i = some p →
      (buildVals (parentsOf w h) leaves).getD p 0 ≤ (buildVals (parentsOf w h) leaves).getD i 0) := by
  have hs := treeParents_spec w h 0 hw hh
  have hlen : leaves.length + ((parentsOf w h).length - leaves.length) = (parentsOf w h).length := by
    have := hs.leaves
    unfold parentsOf; omega
  obtain ⟨h1, h2, h3⟩ := buildFrom_spec (parentsOf w h) (parentsOf_wf w h hw hh) _ leaves hlen
  refine ⟨fun i hi => h2 i (by omega), ?_⟩
  intro i p hi
  apply h3 i p _ hi
  have := hs.leafPar i p (parentFn_some.1 hi)
  omega

/-- The path from a leaf to the root (coding_units.cpp:2199-2210 / 1713-1726), leaf first. -/
def pathUp (ps : List (Option Nat)) : Nat → Nat → List Nat
  | 0, i => [i]
  | fuel + 1, i =>
    match parentFn ps i with
    | none => [i]
    | some p => i :: pathUp ps fuel p

/-- `tree_path` traversed from its end: root first. -/
def rootPath (ps : List (Option Nat)) (i : Nat) : List Nat := (pathUp ps ps.length i).reverse

end Verif.Packet
