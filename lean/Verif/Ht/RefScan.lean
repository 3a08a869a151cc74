import Verif.Ht.RefSpec
import Mathlib.Data.List.Pairwise
import Mathlib.Tactic.Ring

/-! # Refinement passes: the scan and the membership test, lemmas -/

namespace Verif.Ht

theorem Before.irrefl (x : Nat × Nat) : ¬ Before x x := by unfold Before; omega
theorem Before.asymm {x y : Nat × Nat} (h : Before x y) : ¬ Before y x := by unfold Before at *; omega

/-- The samples in the order of the SigProp pass. -/
def spScan (w h : Nat) : List (Nat × Nat) := (groups w h).flatMap fun g => groupScan g.1 g.2.1 g.2.2.1 g.2.2.2

theorem mem_groupScan {i0 j0 wd ht : Nat} {x : Nat × Nat} :
    x ∈ groupScan i0 j0 wd ht ↔ (i0 ≤ x.1 ∧ x.1 < i0 + ht) ∧ j0 ≤ x.2 ∧ x.2 < j0 + wd := by
  obtain ⟨i, j⟩ := x
  simp only [groupScan, List.mem_flatMap, List.mem_range, List.mem_map, Prod.mk.injEq]
  constructor
  · rintro ⟨a, ha, c, hc, rfl, rfl⟩; omega
  · rintro ⟨⟨h1, h2⟩, h3, h4⟩; exact ⟨j - j0, by omega, i - i0, by omega, by omega, by omega⟩

theorem pairwise_groupScan {i0 j0 wd ht : Nat} (h4 : ht ≤ 4) (hi : i0 % 4 = 0) : (groupScan i0 j0 wd ht).Pairwise Before := by
  unfold groupScan
  rw [List.pairwise_flatMap]
  constructor
  · intro j _
    rw [List.pairwise_map]
    refine List.Pairwise.imp_of_mem ?_ List.pairwise_lt_range
    intro a c ha hc hac
    rw [List.mem_range] at ha hc
    unfold Before; dsimp only; omega
  · refine List.Pairwise.imp_of_mem ?_ List.pairwise_lt_range
    intro a c ha hc hac x hx y hy
    rw [List.mem_map] at hx hy
    obtain ⟨u, hu, rfl⟩ := hx
    obtain ⟨v, hv, rfl⟩ := hy
    rw [List.mem_range] at hu hv
    unfold Before; dsimp only; omega

/-- One row of stripe groups. -/
def groupRow (w i0 ht : Nat) : List (Nat × Nat × Nat × Nat) :=
  (List.range (w / 4)).map (fun n2 => (i0, 4 * n2, 4, ht)) ++ (if w % 4 ≠ 0 then [(i0, 4 * (w / 4), w % 4, ht)] else [])

theorem groups_eq (w h : Nat) :
    groups w h = (List.range (h / 4)).flatMap (fun n1 => groupRow w (4 * n1) 4) ++ groupRow w (4 * (h / 4)) (h % 4) := rfl

theorem mem_groupRow {w i0 ht : Nat} {g : Nat × Nat × Nat × Nat} (hg : g ∈ groupRow w i0 ht) :
    g.1 = i0 ∧ g.2.2.2 = ht ∧ g.2.1 % 4 = 0 ∧ g.2.2.1 ≤ 4 ∧ g.2.1 + g.2.2.1 ≤ w := by
  simp only [groupRow, List.mem_append, List.mem_map, List.mem_range] at hg
  rcases hg with ⟨a, ha, rfl⟩ | hg
  · dsimp only; omega
  · split_ifs at hg with h
    · rw [List.mem_singleton] at hg; subst hg; dsimp only; omega
    · simp at hg

theorem flatMap_range_groupScan (i0 ht n : Nat) :
    (List.range n).flatMap (fun n2 => groupScan i0 (4 * n2) 4 ht) = groupScan i0 0 (4 * n) ht := by
  induction n with
  | zero => simp [groupScan]
  | succ n ih =>
    rw [List.range_succ, List.flatMap_append, ih]
    unfold groupScan
    rw [show 4 * (n + 1) = 4 * n + 4 by ring, List.range_add, List.flatMap_append]
    simp [List.flatMap_map]

theorem groupRow_scan (w i0 ht : Nat) :
    (groupRow w i0 ht).flatMap (fun g => groupScan g.1 g.2.1 g.2.2.1 g.2.2.2) = groupScan i0 0 w ht := by
  unfold groupRow
  rw [List.flatMap_append, List.flatMap_map]
  simp only
  rw [flatMap_range_groupScan]
  split_ifs with h
  · simp only [List.flatMap_cons, List.flatMap_nil, List.append_nil]
    unfold groupScan
    conv_rhs => rw [show w = 4 * (w / 4) + w % 4 by omega, List.range_add, List.flatMap_append]
    simp [List.flatMap_map]
  · simp only [List.flatMap_nil, List.append_nil]
    rw [show 4 * (w / 4) = w by omega]

theorem spScan_eq_magScan (w h : Nat) : spScan w h = magScan w h := by
  unfold spScan magScan
  rw [groups_eq, List.flatMap_append, List.flatMap_assoc, groupRow_scan]
  simp only [groupRow_scan]

theorem mem_magScan {w h : Nat} {x : Nat × Nat} : x ∈ magScan w h ↔ x.1 < h ∧ x.2 < w := by
  simp only [magScan, List.mem_append, List.mem_flatMap, List.mem_range, mem_groupScan]
  constructor
  · rintro (⟨a, ha, h1⟩ | h1) <;> omega
  · rintro ⟨h1, h2⟩
    by_cases hc : x.1 / 4 < h / 4
    · exact Or.inl ⟨x.1 / 4, hc, by omega⟩
    · exact Or.inr (by omega)

theorem pairwise_magScan (w h : Nat) : (magScan w h).Pairwise Before := by
  unfold magScan
  rw [List.pairwise_append]
  refine ⟨?_, pairwise_groupScan (by omega) (by omega), ?_⟩
  · rw [List.pairwise_flatMap]
    refine ⟨fun a _ => pairwise_groupScan (by omega) (by omega), ?_⟩
    refine List.Pairwise.imp_of_mem ?_ List.pairwise_lt_range
    intro a c ha hc hac x hx y hy
    rw [mem_groupScan] at hx hy
    unfold Before; omega
  · intro x hx y hy
    simp only [List.mem_flatMap, List.mem_range, mem_groupScan] at hx hy
    obtain ⟨a, ha, hx⟩ := hx
    unfold Before; omega

/-- What has been visited when `x` is reached. -/
theorem mem_pre {w h : Nat} {pre post : List (Nat × Nat)} {x : Nat × Nat} (hs : magScan w h = pre ++ x :: post)
    (y : Nat × Nat) : y ∈ pre ↔ (y.1 < h ∧ y.2 < w) ∧ Before y x := by
  have hp := pairwise_magScan w h
  rw [hs, List.pairwise_append] at hp
  obtain ⟨-, h2, h3⟩ := hp
  rw [List.pairwise_cons] at h2
  rw [← mem_magScan, hs]
  constructor
  · intro hy; exact ⟨by simp [hy], h3 y hy x (by simp)⟩
  · rintro ⟨hy, hb⟩
    rw [List.mem_append, List.mem_cons] at hy
    rcases hy with hy | rfl | hy
    · exact hy
    · exact absurd hb (Before.irrefl _)
    · exact absurd hb (h2.1 y hy).asymm

/-! ## The membership test -/

theorem RBlk.getSt_of {b : RBlk} {r c : Nat} (h : b.inSt r c) : b.getSt r c = some (b.st r c) := if_pos h

theorem rup8_ge (n : Nat) : n ≤ rup8 n := by unfold rup8; omega

theorem and_or3 {r1 r2 r3 k1 k2 k3 : Bool} (h1 : r1 = true → k1 = true) (h2 : r2 = true → k2 = true) (h3 : r3 = true → k3 = true) :
    ((r1 || r2 || r3) && (k1 || k2 || k3)) = (r1 || r2 || r3) := by
  cases r1 <;> cases r2 <;> cases r3 <;> simp_all

theorem and_or2 {r1 r2 k1 k2 : Bool} (h1 : r1 = true → k1 = true) (h2 : r2 = true → k2 = true) :
    ((r1 || r2) && (k1 || k2)) = (r1 || r2) := by
  cases r1 <;> cases r2 <;> simp_all

/-- Bit 0 or bit 3 of a state. -/
def hot (b : RBlk) (r c : Nat) : Bool := (b.st r c).testBit 0 || (b.st r c).testBit 3

theorem and1_toNat (t : Nat) : t &&& 1 = (t.testBit 0).toNat := by
  rw [Nat.and_one_is_mod, Nat.testBit_zero]
  rcases Nat.mod_two_eq_zero_or_one t with h | h <;> simp [h]

theorem calcMbr_eq {b : RBlk} (hk : ∀ r c, (b.st r c).testBit 3 = true → (b.st r c).testBit 4 = true) {i j : Nat}
    (hi : i < b.h) (hj : j < b.w) (cc : Bool) :
    calcMbr b i j cc = some (hot b i j || hot b i (j + 1) || hot b i (j + 2) || hot b (i + 1) j || hot b (i + 1) (j + 2) ||
      (cc && (hot b (i + 2) j || hot b (i + 2) (j + 1) || hot b (i + 2) (j + 2)))).toNat := by
  have e : ∀ r c, r ≤ i + 2 → c ≤ j + 2 → b.getSt r c = some (b.st r c) := by
    intro r c h1 h2
    apply RBlk.getSt_of
    have := rup8_ge b.h; have := rup8_ge b.w
    unfold RBlk.inSt; omega
  unfold calcMbr
  rw [e i j (by omega) (by omega), e i (j + 1) (by omega) (by omega), e i (j + 2) (by omega) (by omega),
    e (i + 1) j (by omega) (by omega), e (i + 1) (j + 2) (by omega) (by omega), e (i + 2) j (by omega) (by omega),
    e (i + 2) (j + 1) (by omega) (by omega), e (i + 2) (j + 2) (by omega) (by omega)]
  simp only [Option.bind_eq_bind, Option.bind_some, Option.pure_def, Option.some.injEq]
  rw [and1_toNat]
  congr 1
  have hcc : cc.toNat.testBit 0 = cc := by cases cc <;> rfl
  simp only [Nat.testBit_or, Nat.testBit_and, Nat.testBit_shiftRight, hcc, Nat.add_zero, hot]
  rw [and_or3 (hk _ _) (hk _ _) (hk _ _), and_or2 (hk _ _) (hk _ _), and_or3 (hk _ _) (hk _ _) (hk _ _)]
  generalize (b.st i j).testBit 0 = a1
  generalize (b.st i (j + 1)).testBit 0 = a2
  generalize (b.st i (j + 2)).testBit 0 = a3
  generalize (b.st (i + 1) j).testBit 0 = a4
  generalize (b.st (i + 1) (j + 2)).testBit 0 = a5
  generalize (b.st (i + 2) j).testBit 0 = a6
  generalize (b.st (i + 2) (j + 1)).testBit 0 = a7
  generalize (b.st (i + 2) (j + 2)).testBit 0 = a8
  cases cc
  · simp only [Bool.and_false, Bool.or_false, Bool.false_and]
    ac_rfl
  · simp only [Bool.and_true, Bool.true_and]
    ac_rfl

open Classical in
/-- The scratch bits when `done` has been visited. -/
structure PInv (b0 : RBlk) (done : List (Nat × Nat)) (b : RBlk) : Prop where
  w : b.w = b0.w
  h : b.h = b0.h
  ca : b.causal = b0.causal
  s0 : ∀ r c, (b.st r c).testBit 0 = (b0.st r c).testBit 0
  s3 : ∀ i j, (b.st (i + 1) (j + 1)).testBit 3 = decide ((i, j) ∈ done ∧ Member b0 (i, j) ∧ b0.mag (i, j) = true)
  s4 : ∀ i j, (b.st (i + 1) (j + 1)).testBit 4 = decide ((i, j) ∈ done)
  e3 : ∀ r c, r = 0 ∨ c = 0 → (b.st r c).testBit 3 = false

theorem PInv.start {b0 : RBlk} (h : Fresh b0) : PInv b0 [] b0 :=
  ⟨rfl, rfl, rfl, fun _ _ => rfl, fun _ _ => by rw [h.r3]; simp, fun _ _ => by rw [h.r4]; simp, fun _ _ _ => h.r3 _ _⟩

theorem PInv.k {b0 : RBlk} {done : List (Nat × Nat)} {b : RBlk} (h : PInv b0 done b) (r c : Nat)
    (h3 : (b.st r c).testBit 3 = true) : (b.st r c).testBit 4 = true := by
  by_cases hb : r = 0 ∨ c = 0
  · rw [h.e3 r c hb] at h3; simp at h3
  · obtain ⟨i, rfl⟩ : ∃ i, r = i + 1 := ⟨r - 1, by omega⟩
    obtain ⟨j, rfl⟩ : ∃ j, c = j + 1 := ⟨c - 1, by omega⟩
    rw [h.s3] at h3
    rw [h.s4]
    simp only [decide_eq_true_eq] at *
    exact h3.1

theorem Member.has {b : RBlk} {x : Nat × Nat} (h : Member b x) : b.has x := by cases h <;> assumption
theorem Member.insig {b : RBlk} {x : Nat × Nat} (h : Member b x) : b.sig x = false := by cases h <;> assumption

open Classical in
theorem hot_iff {b0 : RBlk} (hf : Fresh b0) {done : List (Nat × Nat)} {b : RBlk} (h : PInv b0 done b) (r c : Nat) :
    hot b r c = true ↔ ∃ y : Nat × Nat, r = y.1 + 1 ∧ c = y.2 + 1 ∧ b0.has y ∧
      (b0.sig y = true ∨ (y ∈ done ∧ Member b0 y ∧ b0.mag y = true)) := by
  unfold hot
  rw [h.s0, Bool.or_eq_true]
  constructor
  · intro hh
    have hb : ¬ (r = 0 ∨ c = 0) := by
      intro hb
      rcases hh with hh | hh
      · rw [hf.out r c (by omega)] at hh; simp at hh
      · rw [h.e3 r c hb] at hh; simp at hh
    obtain ⟨i, rfl⟩ : ∃ i, r = i + 1 := ⟨r - 1, by omega⟩
    obtain ⟨j, rfl⟩ : ∃ j, c = j + 1 := ⟨c - 1, by omega⟩
    refine ⟨(i, j), rfl, rfl, ?_⟩
    rcases hh with hh | hh
    · refine ⟨?_, Or.inl hh⟩
      by_contra hc
      rw [hf.out (i + 1) (j + 1) (by unfold RBlk.has at hc; dsimp only at hc; omega)] at hh
      simp at hh
    · rw [h.s3, decide_eq_true_eq] at hh
      exact ⟨hh.2.1.has, Or.inr hh⟩
  · rintro ⟨⟨i, j⟩, rfl, rfl, hy, hh⟩
    rcases hh with hh | hh
    · exact Or.inl hh
    · right; rw [h.s3, decide_eq_true_eq]; exact hh

open Classical in
/-- In a state the scan can reach, the test finds the members. -/
theorem mbrAt_eq {b0 : RBlk} (hf : Fresh b0) {pre post : List (Nat × Nat)} {b : RBlk} {i j iEnd : Nat}
    (hs : magScan b0.w b0.h = pre ++ (i, j) :: post) (h : PInv b0 pre b) (hE : iEnd = min (4 * (i / 4) + 4) b0.h) :
    mbrAt b i j iEnd = some (decide (Member b0 (i, j))).toNat := by
  have hin : i < b0.h ∧ j < b0.w := by
    have : (i, j) ∈ magScan b0.w b0.h := by rw [hs]; simp
    exact mem_magScan.mp this
  unfold mbrAt
  rw [RBlk.getSt_of (by have := rup8_ge b.h; have := rup8_ge b.w; have := h.w; have := h.h; unfold RBlk.inSt; omega)]
  simp only [Option.bind_eq_bind, Option.bind_some, Nat.shiftRight_zero, and1_toNat, h.s0]
  by_cases hsig : b0.sig (i, j) = true
  · have hnm : ¬ Member b0 (i, j) := fun hm => by rw [hm.insig] at hsig; simp at hsig
    rw [show (b0.st (i + 1) (j + 1)).testBit 0 = true from hsig]
    simp [hnm]
  · have hsig : b0.sig (i, j) = false := by simpa using hsig
    rw [show (b0.st (i + 1) (j + 1)).testBit 0 = false from hsig]
    rw [if_pos (show false.toNat = 0 from rfl), calcMbr_eq h.k (by rw [h.h]; exact hin.1) (by rw [h.w]; exact hin.2)]
    congr 2
    rw [Bool.eq_iff_iff, decide_eq_true_eq]
    have hmem : Member b0 (i, j) ↔ ∃ y, Nbr b0 (i, j) y ∧ (b0.sig y = true ∨ (y ∈ pre ∧ Member b0 y ∧ b0.mag y = true)) := by
      constructor
      · intro hm
        cases hm with
        | base _ _ h3 h4 => exact ⟨_, h3, Or.inl h4⟩
        | step _ _ h3 h4 h5 h6 => exact ⟨_, h3, Or.inr ⟨(mem_pre hs _).mpr ⟨h5.has, h4⟩, h5, h6⟩⟩
      · rintro ⟨y, hn, hy | ⟨h1, h2, h3⟩⟩
        · exact .base hin hsig hn hy
        · exact .step hin hsig hn ((mem_pre hs _).mp h1).2 h2 h3
    rw [hmem]
    have hld : looksDown b i iEnd = true → (b0.causal = true → i + 1 < b0.h → (i + 1) / 4 ≤ i / 4) := by
      unfold looksDown
      rw [h.ca]
      cases b0.causal
      · simp
      · simp only [Bool.not_true, Bool.false_or, decide_eq_true_eq, true_implies]
        intro h1 h2; omega
    have hld' : i + 1 < b0.h → (b0.causal = true → (i + 1) / 4 ≤ i / 4) → looksDown b i iEnd = true := by
      unfold looksDown
      rw [h.ca]
      cases b0.causal
      · simp
      · simp only [Bool.not_true, Bool.false_or, decide_eq_true_eq, true_implies]
        intro h1 h2; omega
    simp only [Bool.or_eq_true, Bool.and_eq_true, hot_iff hf h]
    constructor
    · have key : ∀ y : Nat × Nat, b0.has y → y ≠ (i, j) → y.1 ≤ i + 1 → i ≤ y.1 + 1 → y.2 ≤ j + 1 → j ≤ y.2 + 1 →
          (y.1 = i + 1 → (b0.causal = true → i + 1 < b0.h → (i + 1) / 4 ≤ i / 4)) → Nbr b0 (i, j) y := by
        intro y h1 h2 h3 h4 h5 h6 h7
        refine ⟨h1, h2, h3, h4, h5, h6, fun hc => ?_⟩
        by_cases hy : y.1 = i + 1
        · have := h7 hy hc (by have := h1.1; omega)
          rw [hy]; exact this
        · dsimp only; omega
      have ne : ∀ y : Nat × Nat, (y.1 ≠ i ∨ y.2 ≠ j) → y ≠ (i, j) := by
        rintro y hy rfl; simp at hy
      rintro (((((⟨y, h1, h2, h3, h4⟩ | ⟨y, h1, h2, h3, h4⟩) | ⟨y, h1, h2, h3, h4⟩) | ⟨y, h1, h2, h3, h4⟩) |
        ⟨y, h1, h2, h3, h4⟩) | ⟨hcc, ((⟨y, h1, h2, h3, h4⟩ | ⟨y, h1, h2, h3, h4⟩) | ⟨y, h1, h2, h3, h4⟩)⟩)
      · exact ⟨y, key y h3 (ne y (by omega)) (by omega) (by omega) (by omega) (by omega) (by omega), h4⟩
      · exact ⟨y, key y h3 (ne y (by omega)) (by omega) (by omega) (by omega) (by omega) (by omega), h4⟩
      · exact ⟨y, key y h3 (ne y (by omega)) (by omega) (by omega) (by omega) (by omega) (by omega), h4⟩
      · exact ⟨y, key y h3 (ne y (by omega)) (by omega) (by omega) (by omega) (by omega) (by omega), h4⟩
      · exact ⟨y, key y h3 (ne y (by omega)) (by omega) (by omega) (by omega) (by omega) (by omega), h4⟩
      · exact ⟨y, key y h3 (ne y (by omega)) (by omega) (by omega) (by omega) (by omega) (fun _ => hld hcc), h4⟩
      · exact ⟨y, key y h3 (ne y (by omega)) (by omega) (by omega) (by omega) (by omega) (fun _ => hld hcc), h4⟩
      · exact ⟨y, key y h3 (ne y (by omega)) (by omega) (by omega) (by omega) (by omega) (fun _ => hld hcc), h4⟩
    · rintro ⟨⟨u, v⟩, ⟨h1, h2, h3, h4, h5, h6, h7⟩, hy⟩
      dsimp only at h3 h4 h5 h6 h7
      have hcc : u = i + 1 → looksDown b i iEnd = true := by
        rintro rfl; exact hld' h1.1 h7
      have c1 : u + 1 = i ∨ u = i ∨ u = i + 1 := by omega
      have c2 : v + 1 = j ∨ v = j ∨ v = j + 1 := by omega
      rcases c1 with c1 | c1 | c1 <;> rcases c2 with c2 | c2 | c2
      · exact Or.inl <| Or.inl <| Or.inl <| Or.inl <| Or.inl ⟨_, c1.symm, c2.symm, h1, hy⟩
      · exact Or.inl <| Or.inl <| Or.inl <| Or.inl <| Or.inr ⟨_, c1.symm, by rw [c2], h1, hy⟩
      · exact Or.inl <| Or.inl <| Or.inl <| Or.inr ⟨_, c1.symm, by rw [c2], h1, hy⟩
      · exact Or.inl <| Or.inl <| Or.inr ⟨_, by rw [c1], c2.symm, h1, hy⟩
      · exact absurd (by rw [c1, c2]) h2
      · exact Or.inl <| Or.inr ⟨_, by rw [c1], by rw [c2], h1, hy⟩
      · exact Or.inr ⟨hcc c1, Or.inl <| Or.inl ⟨_, by rw [c1], c2.symm, h1, hy⟩⟩
      · exact Or.inr ⟨hcc c1, Or.inl <| Or.inr ⟨_, by rw [c1], by rw [c2], h1, hy⟩⟩
      · exact Or.inr ⟨hcc c1, Or.inr ⟨_, by rw [c1], by rw [c2], h1, hy⟩⟩

end Verif.Ht
