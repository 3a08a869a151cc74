import Verif.Ebcot.BlockCode
import Verif.Tactics
/-
What is known about the magnitudes behind a number of passes.
-/
namespace Verif.Ebcot
open Std (Src St Modes)

/-! The scan visits every coefficient once. -/

theorem mem_scan (w h : Nat) (y : Nat × Nat) : y ∈ Std.scan w h ↔ (1 ≤ y.1 ∧ y.1 ≤ h) ∧ 1 ≤ y.2 ∧ y.2 ≤ w := by
  obtain ⟨r, c⟩ := y
  unfold Std.scan Std.columns Std.rowsOf
  simp only [List.mem_flatMap, List.mem_map, List.mem_range, Prod.mk.injEq]
  constructor
  · rintro ⟨x, ⟨s, hs, c', hc, rfl⟩, i, hi, rfl, rfl⟩
    simp only at hi ⊢
    omega
  · rintro ⟨⟨h1, h2⟩, h3, h4⟩
    exact ⟨(4 * ((r - 1) / 4) + 1, c - 1 + 1, min 4 (h - 4 * ((r - 1) / 4))), ⟨(r - 1) / 4, by omega, c - 1, by omega, rfl⟩, (r - 1) % 4, by simp only; omega, by simp only; omega, by simp only; omega⟩

theorem nodup_scan (w h : Nat) : (Std.scan w h).Nodup := by
  unfold Std.scan
  rw [List.nodup_flatMap]
  constructor
  · intro x _
    unfold Std.rowsOf
    exact List.nodup_range.map_on (by intro a _ b _ e; simp at e; omega)
  · unfold Std.columns
    rw [List.pairwise_flatMap]
    constructor
    · intro s _
      rw [List.pairwise_map]
      refine List.nodup_range.imp fun {a b} hab => ?_
      simp only [Function.onFun, Std.rowsOf, List.disjoint_left, List.mem_map, List.mem_range]
      rintro y ⟨i, -, rfl⟩ ⟨j, -, e⟩
      simp only [Prod.mk.injEq] at e
      omega
    · refine List.nodup_range.imp fun {a b} hab => ?_
      intro x hx y hy
      simp only [List.mem_map, List.mem_range] at hx hy
      obtain ⟨c, -, rfl⟩ := hx
      obtain ⟨c', -, rfl⟩ := hy
      simp only [Function.onFun, Std.rowsOf, List.disjoint_left, List.mem_map, List.mem_range]
      rintro y ⟨i, hi, rfl⟩ ⟨j, hj, e⟩
      simp only [Prod.mk.injEq] at e hi hj
      omega

/-! Passes change what they visit. -/

def SameAt (y : Nat × Nat) (S S' : St) : Prop :=
  S'.sig y.1 y.2 = S.sig y.1 y.2 ∧ S'.vis y.1 y.2 = S.vis y.1 y.2 ∧ S'.val y.1 y.2 = S.val y.1 y.2 ∧ S'.last y.1 y.2 = S.last y.1 y.2

theorem SameAt.refl (y : Nat × Nat) (S : St) : SameAt y S S := ⟨rfl, rfl, rfl, rfl⟩
theorem SameAt.trans {y : Nat × Nat} {S S' S'' : St} (h1 : SameAt y S S') (h2 : SameAt y S' S'') : SameAt y S S'' :=
  ⟨h2.1.trans h1.1, h2.2.1.trans h1.2.1, h2.2.2.1.trans h1.2.2.1, h2.2.2.2.trans h1.2.2.2⟩

/-- A predicate on what is known about one coefficient. -/
def Local (P : Nat × Nat → St → Prop) : Prop := ∀ y S S', SameAt y S S' → P y S → P y S'

theorem runs_same {α : Type} (f : α → St → St × List (Nat × Nat)) (pos : α → List (Nat × Nat)) (hf : ∀ x S y, y ∉ pos x → SameAt y S (f x S).1) (l : List α) (S : St)
    (y : Nat × Nat) (hy : y ∉ l.flatMap pos) : SameAt y S (Std.runs f l S).1 := by
  induction l generalizing S with
  | nil => exact SameAt.refl _ _
  | cons x l ih =>
    simp only [List.flatMap_cons, List.mem_append, not_or] at hy
    exact (hf x S y hy.1).trans (ih _ hy.2)

theorem runs_local {α : Type} (f : α → St → St × List (Nat × Nat)) (pos : α → List (Nat × Nat)) (hf : ∀ x S y, y ∉ pos x → SameAt y S (f x S).1)
    {P Q : Nat × Nat → St → Prop} (hP : Local P) (hQ : Local Q) (l : List α) (hstep : ∀ x ∈ l, ∀ S, (∀ y ∈ pos x, P y S) → ∀ y ∈ pos x, Q y (f x S).1)
    (S : St) (hd : (l.flatMap pos).Nodup) (h : ∀ y ∈ l.flatMap pos, P y S) : ∀ y ∈ l.flatMap pos, Q y (Std.runs f l S).1 := by
  induction l generalizing S with
  | nil => intro y hy; simp at hy
  | cons x l ih =>
    simp only [List.flatMap_cons] at hd h ⊢
    rw [List.nodup_append] at hd
    intro y hy
    rcases List.mem_append.1 hy with hy | hy
    · have h1 := hstep x (List.mem_cons_self ..) S (fun y hy => h y (List.mem_append_left _ hy)) y hy
      refine hQ _ _ _ (runs_same f pos hf l _ y fun c => hd.2.2 y hy y c rfl) h1
    · refine ih (fun x hx => hstep x (List.mem_cons_of_mem _ hx)) _ hd.2.1 (fun y hy => ?_) y hy
      exact hP _ _ _ (hf x S y fun c => hd.2.2 y c y hy rfl) (h y (List.mem_append_right _ hy))

/-! What is known. -/

/-- The value has all the bits of the magnitude from bit-plane `last` on, and the coefficient is significant if there is one. -/
def Exact (B : Src) (y : Nat × Nat) (S : St) : Prop :=
  S.val y.1 y.2 = B.mag y.1 y.2 / 2 ^ S.last y.1 y.2 * 2 ^ S.last y.1 y.2 ∧ (S.sig y.1 y.2 = true ↔ S.val y.1 y.2 ≠ 0)

def Q0 (B : Src) (p : Nat) (y : Nat × Nat) (S : St) : Prop := Exact B y S ∧ S.last y.1 y.2 = p
def Q1 (B : Src) (p : Nat) (y : Nat × Nat) (S : St) : Prop := Exact B y S ∧ S.last y.1 y.2 = if S.vis y.1 y.2 then p else p + 1
def Q2 (B : Src) (p : Nat) (y : Nat × Nat) (S : St) : Prop := Exact B y S ∧ S.last y.1 y.2 = if S.vis y.1 y.2 ∨ S.sig y.1 y.2 then p else p + 1

theorem exact_local (B : Src) : Local (Exact B) := by
  intro y S S' h
  unfold Exact
  rw [h.1, h.2.2.1, h.2.2.2]
  exact id

theorem q0_local (B : Src) (p : Nat) : Local (Q0 B p) := by
  intro y S S' h hq
  exact ⟨exact_local B _ _ _ h hq.1, by rw [h.2.2.2]; exact hq.2⟩
theorem q1_local (B : Src) (p : Nat) : Local (Q1 B p) := by
  intro y S S' h hq
  exact ⟨exact_local B _ _ _ h hq.1, by rw [h.2.2.2, h.2.1]; exact hq.2⟩
theorem q2_local (B : Src) (p : Nat) : Local (Q2 B p) := by
  intro y S S' h hq
  exact ⟨exact_local B _ _ _ h hq.1, by rw [h.2.2.2, h.2.1, h.1]; exact hq.2⟩

theorem next_bit (m p : Nat) : m / 2 ^ (p + 1) * 2 ^ (p + 1) ||| m / 2 ^ p % 2 * 2 ^ p = m / 2 ^ p * 2 ^ p := by
  have hlt : m / 2 ^ p % 2 * 2 ^ p < 2 ^ (p + 1) := by
    have : m / 2 ^ p % 2 < 2 := Nat.mod_lt _ (by norm_num)
    rw [pow_succ, mul_comm (2 ^ p) 2]
    exact Nat.mul_lt_mul_of_pos_right this (by positivity)
  rw [mul_comm (m / 2 ^ (p + 1)), ← Nat.two_pow_add_eq_or_of_lt hlt]
  have e : m / 2 ^ (p + 1) = m / 2 ^ p / 2 := by rw [pow_succ, Nat.div_div_eq_div_mul]
  have := Nat.div_add_mod (m / 2 ^ p) 2
  rw [e]
  calc _ = (2 * (m / 2 ^ p / 2) + m / 2 ^ p % 2) * 2 ^ p := by ring
    _ = _ := by rw [this]

theorem put_at {α : Type} (f : Nat → Nat → α) (r c : Nat) (v : α) : Std.put f r c v r c = v := by simp [Std.put]

theorem put_off {α : Type} (f : Nat → Nat → α) {r c : Nat} (v : α) {y : Nat × Nat} (h : y ≠ (r, c)) : Std.put f r c v y.1 y.2 = f y.1 y.2 := by
  unfold Std.put
  rw [if_neg]
  rintro ⟨e1, e2⟩
  exact h (Prod.ext e1 e2)

/-- Bit `p` of a coefficient is coded, and it becomes significant if that is 1. -/
theorem coded_exact {B : Src} {p r c : Nat} {S S' : St} (h : Exact B (r, c) S) (hl : S.last r c = p + 1)
    (h1 : S'.val r c = S.val r c ||| Std.bitAt B p r c * 2 ^ p) (h2 : S'.last r c = p)
    (h3 : S'.sig r c = (S.sig r c || decide (Std.bitAt B p r c = 1))) : Exact B (r, c) S' := by
  obtain ⟨e1, e2⟩ := h
  simp only at e1 e2
  rw [hl] at e1
  have hb : Std.bitAt B p r c = B.mag r c / 2 ^ p % 2 := rfl
  refine ⟨?_, ?_⟩
  · simp only [h1, h2]
    rw [e1, hb, next_bit]
  · simp only [h3, h1, Bool.or_eq_true, decide_eq_true_eq, e2]
    rcases (show Std.bitAt B p r c = 0 ∨ Std.bitAt B p r c = 1 by rw [hb]; omega) with q | q
    · simp [q]
    · rw [q]
      have : S.val r c ||| 1 * 2 ^ p ≠ 0 := by
        intro c0
        have := congrArg (fun v => v.testBit p) c0
        simp at this
      simp [this]

/-! The passes on one coefficient. -/

theorem sigE_off (raw : Bool) (B : Src) (p : Nat) (x : Nat × Nat) (S : St) (y : Nat × Nat) (hy : y ∉ [x]) : SameAt y S (Std.sigE raw B p x S).1 := by
  obtain ⟨r, c⟩ := x
  have hy' : y ≠ (r, c) := by simpa using hy
  simp only [Std.sigE]
  split_ifs <;> simp [SameAt, Std.signif, Std.coded, put_off _ _ hy']

theorem magE_off (B : Src) (p : Nat) (x : Nat × Nat) (S : St) (y : Nat × Nat) (hy : y ∉ [x]) : SameAt y S (Std.magE B p x S).1 := by
  obtain ⟨r, c⟩ := x
  have hy' : y ≠ (r, c) := by simpa using hy
  simp only [Std.magE]
  split_ifs <;> simp [SameAt, Std.coded, put_off _ _ hy']

theorem cleanE_off (B : Src) (p : Nat) (x : Nat × Nat) (S : St) (y : Nat × Nat) (hy : y ∉ [x]) : SameAt y S (Std.cleanE B p x S).1 := by
  obtain ⟨r, c⟩ := x
  have hy' : y ≠ (r, c) := by simpa using hy
  simp only [Std.cleanE]
  split_ifs <;> simp [SameAt, Std.signif, Std.coded, put_off _ _ hy']

theorem sigE_q (raw : Bool) (B : Src) (p : Nat) (x : Nat × Nat) (S : St) (h : Q0 B (p + 1) x S) : Q1 B p x (Std.sigE raw B p x S).1 := by
  obtain ⟨r, c⟩ := x
  obtain ⟨h1, h2⟩ := h
  simp only at h2
  simp only [Std.sigE]
  split_ifs with q1 q2
  · refine ⟨coded_exact h1 h2 ?_ ?_ ?_, ?_⟩ <;> simp [Std.signif, Std.coded, put_at, q2]
  · refine ⟨coded_exact h1 h2 ?_ ?_ ?_, ?_⟩ <;> simp [Std.coded, put_at, q2]
  · exact ⟨h1, by simp [put_at, h2]⟩

theorem magE_q (B : Src) (p : Nat) (x : Nat × Nat) (S : St) (h : Q1 B p x S) : Q2 B p x (Std.magE B p x S).1 := by
  obtain ⟨r, c⟩ := x
  obtain ⟨h1, h2⟩ := h
  simp only at h2
  simp only [Std.magE]
  by_cases q1 : S.sig r c = true ∧ S.vis r c = false
  · rw [if_pos q1]
    rw [q1.2] at h2
    refine ⟨coded_exact h1 (by simpa using h2) ?_ ?_ ?_, ?_⟩ <;> simp [Std.coded, put_at, q1.1]
  · rw [if_neg q1]
    refine ⟨h1, ?_⟩
    simp only
    rw [h2]
    cases hv : S.vis r c
    · have : S.sig r c = false := by simpa [hv] using q1
      simp [this]
    · simp

theorem cleanE_q (B : Src) (p : Nat) (x : Nat × Nat) (S : St) (h : Q2 B p x S) : Q0 B p x (Std.cleanE B p x S).1 := by
  obtain ⟨r, c⟩ := x
  obtain ⟨h1, h2⟩ := h
  simp only at h2
  simp only [Std.cleanE]
  split_ifs with q1 q2
  · rw [q1.1, q1.2] at h2
    refine ⟨coded_exact h1 (by simpa using h2) ?_ ?_ ?_, ?_⟩ <;> simp [Std.signif, Std.coded, put_at, q2]
  · rw [q1.1, q1.2] at h2
    refine ⟨coded_exact h1 (by simpa using h2) ?_ ?_ ?_, ?_⟩ <;> simp [Std.coded, put_at, q2]
  · refine ⟨h1, ?_⟩
    simp only
    rw [h2, if_pos]
    by_contra c0
    simp only [not_or, Bool.not_eq_true] at c0
    exact q1 ⟨c0.2, c0.1⟩

/-! The cleanup pass on a column. -/

theorem skip_spec (B : Src) (p r c : Nat) : ∀ n S,
    (∀ y, (∀ i, i < n → y ≠ (r + i, c)) → SameAt y S (Std.skip B p r c n S)) ∧
    ∀ i, i < n → (Std.skip B p r c n S).val (r + i) c = (S.val (r + i) c ||| Std.bitAt B p (r + i) c * 2 ^ p) ∧ (Std.skip B p r c n S).last (r + i) c = p ∧
      (Std.skip B p r c n S).sig (r + i) c = S.sig (r + i) c := by
  intro n
  induction n with
  | zero => intro S; exact ⟨fun y _ => SameAt.refl _ _, fun i hi => by omega⟩
  | succ n ih =>
    intro S
    obtain ⟨i1, i2⟩ := ih S
    refine ⟨fun y hy => ?_, fun i hi => ?_⟩
    · refine (i1 y fun i hi => hy i (by omega)).trans ?_
      have := hy n (by omega)
      simp [Std.skip, SameAt, Std.coded, put_off _ _ this]
    · simp only [Std.skip]
      by_cases e : i = n
      · subst e
        have := i1 (r + i, c) (fun j hj => by simp; omega)
        obtain ⟨a1, a2, a3, a4⟩ := this
        simp only at a1 a3
        simp [Std.coded, put_at, a1, a3]
      · obtain ⟨b1, b2, b3⟩ := i2 i (by omega)
        have hne : ((r + i, c) : Nat × Nat) ≠ (r + n, c) := by simp; omega
        have o := fun (α : Type) (f : Nat → Nat → α) v => put_off f v hne
        simp only at o
        simp [Std.coded, o, b1, b2, b3]

theorem firstOne_bits (B : Src) (p r c : Nat) : (∀ i, i < Std.firstOne B p r c → Std.bitAt B p (r + i) c = 0) ∧
    Std.firstOne B p r c ≤ 4 ∧ (Std.firstOne B p r c < 4 → Std.bitAt B p (r + Std.firstOne B p r c) c = 1) := by
  have hb : ∀ j, Std.bitAt B p j c = 0 ∨ Std.bitAt B p j c = 1 := fun j => by unfold Std.bitAt; omega
  have h0 := hb r; have h1 := hb (r + 1); have h2 := hb (r + 2); have h3 := hb (r + 3)
  unfold Std.firstOne
  split_ifs with q0 q1 q2 q3
  all_goals refine ⟨fun i hi => ?_, by omega, fun hi => ?_⟩
  all_goals first
    | omega
    | (simpa using q0)
    | assumption
    | (rcases (show i = 0 ∨ i = 1 ∨ i = 2 ∨ i = 3 by omega) with rfl | rfl | rfl | rfl <;> first | omega | (simp only [Nat.add_zero]; omega))

theorem cleanColE_off (B : Src) (p : Nat) (x : Nat × Nat × Nat) (S : St) (y : Nat × Nat) (hy : y ∉ Std.rowsOf x) : SameAt y S (Std.cleanColE B p x S).1 := by
  obtain ⟨f1, f2, f3⟩ := firstOne_bits B p x.1 x.2.1
  have hy' : x.2.2 = 4 → ∀ i, i < 4 → y ≠ (x.1 + i, x.2.1) := by
    intro h4 i hi e
    refine hy ?_
    unfold Std.rowsOf
    rw [h4]
    exact List.mem_map.2 ⟨i, List.mem_range.2 hi, e.symm⟩
  have hflat : ∀ l : List (Nat × Nat), l.flatMap (fun x => [x]) = l := fun l => by simp
  unfold Std.cleanColE
  simp only
  split_ifs with q1 q2
  · rw [q2]
    exact (skip_spec B p x.1 x.2.1 _ S).1 y fun i hi => hy' q1.1 i (by omega)
  · have hne := hy' q1.1 (Std.firstOne B p x.1 x.2.1) (by omega)
    refine ((skip_spec B p x.1 x.2.1 (Std.firstOne B p x.1 x.2.1) S).1 y fun i hi => hy' q1.1 i (by omega)).trans ?_
    refine SameAt.trans (S' := Std.signif (x.1 + Std.firstOne B p x.1 x.2.1) x.2.1 (Std.coded B p (x.1 + Std.firstOne B p x.1 x.2.1) x.2.1
      (Std.skip B p x.1 x.2.1 (Std.firstOne B p x.1 x.2.1) S))) ?_ (runs_same _ (fun x => [x]) (cleanE_off B p) _ _ y ?_)
    · simp [SameAt, Std.signif, Std.coded, put_off _ _ hne]
    · rw [hflat]
      exact fun c => hy (List.mem_of_mem_drop c)
  · refine runs_same _ (fun x => [x]) (cleanE_off B p) _ _ y ?_
    rw [hflat]
    exact hy

theorem cleanColE_q (B : Src) (p : Nat) (x : Nat × Nat × Nat) (S : St) (h : ∀ y ∈ Std.rowsOf x, Q2 B p y S) :
    ∀ y ∈ Std.rowsOf x, Q0 B p y (Std.cleanColE B p x S).1 := by
  obtain ⟨f1, f2, f3⟩ := firstOne_bits B p x.1 x.2.1
  have hflat : ∀ l : List (Nat × Nat), l.flatMap (fun x => [x]) = l := fun l => by simp
  have hnd : (Std.rowsOf x).Nodup := by
    unfold Std.rowsOf
    exact List.nodup_range.map_on (by intro a _ b _ e; simp at e; omega)
  have hrun : ∀ l S, l.Nodup → (∀ y ∈ l, Q2 B p y S) → ∀ y ∈ l, Q0 B p y (Std.runs (Std.cleanE B p) l S).1 := by
    intro l S h1 h2
    have := runs_local (Std.cleanE B p) (fun x => [x]) (cleanE_off B p) (q2_local B p) (q0_local B p) l
      (fun x _ S hx y hy => by
        rw [List.mem_singleton] at hy
        subst hy
        exact cleanE_q B p _ S (hx _ (List.mem_singleton.2 rfl))) S (by rw [hflat]; exact h1) (by rw [hflat]; exact h2)
    rw [hflat] at this
    exact this
  unfold Std.cleanColE
  set i := Std.firstOne B p x.1 x.2.1 with hi
  by_cases q1 : Std.runOk B S x
  · rw [if_pos q1]
    obtain ⟨q4, q5⟩ := q1
    obtain ⟨s1, s2⟩ := skip_spec B p x.1 x.2.1 i S
    have hrow : ∀ j, j < 4 → (x.1 + j, x.2.1) ∈ Std.rowsOf x := by
      intro j hj
      unfold Std.rowsOf
      rw [q4]
      exact List.mem_map.2 ⟨j, List.mem_range.2 hj, rfl⟩
    have hlast : ∀ j, j < 4 → Exact B (x.1 + j, x.2.1) S ∧ S.last (x.1 + j) x.2.1 = p + 1 ∧ S.sig (x.1 + j) x.2.1 = false := by
      intro j hj
      obtain ⟨a1, a2⟩ := h _ (hrow j hj)
      obtain ⟨b1, b2, -⟩ := q5 _ (hrow j hj)
      simp only at a2 b1 b2
      rw [b1, b2] at a2
      exact ⟨a1, by simpa using a2, b1⟩
    have hskip : ∀ j, j < i → Q0 B p (x.1 + j, x.2.1) (Std.skip B p x.1 x.2.1 i S) := by
      intro j hj
      obtain ⟨c1, c2, c3⟩ := s2 j hj
      obtain ⟨a1, a2, a3⟩ := hlast j (by omega)
      exact ⟨coded_exact a1 a2 c1 c2 (by rw [c3, f1 j hj]; simp), c2⟩
    have hmem : ∀ y ∈ Std.rowsOf x, ∃ j, j < 4 ∧ y = (x.1 + j, x.2.1) := by
      intro y hy
      unfold Std.rowsOf at hy
      rw [q4] at hy
      obtain ⟨j, hj, rfl⟩ := List.mem_map.1 hy
      exact ⟨j, List.mem_range.1 hj, rfl⟩
    simp only
    by_cases q6 : i = 4
    · rw [if_pos q6]
      intro y hy
      obtain ⟨j, hj, rfl⟩ := hmem y hy
      exact hskip j (by omega)
    · rw [if_neg q6]
      simp only
      set S1 := Std.signif (x.1 + i) x.2.1 (Std.coded B p (x.1 + i) x.2.1 (Std.skip B p x.1 x.2.1 i S)) with hS1
      have hsame : ∀ j, j ≠ i → SameAt (x.1 + j, x.2.1) (Std.skip B p x.1 x.2.1 i S) S1 := by
        intro j hj
        have hne : ((x.1 + j, x.2.1) : Nat × Nat) ≠ (x.1 + i, x.2.1) := by simp; omega
        have o := fun (α : Type) (f : Nat → Nat → α) v => put_off f v hne
        simp only at o
        simp [hS1, SameAt, Std.signif, Std.coded, o]
      have hat : Q0 B p (x.1 + i, x.2.1) S1 := by
        obtain ⟨a1, a2, a3⟩ := hlast i (by omega)
        have hs := s1 (x.1 + i, x.2.1) (fun j hj => by simp; omega)
        obtain ⟨b1, b2, b3, b4⟩ := hs
        simp only at b1 b2 b3 b4
        have hbit := f3 (by omega)
        refine ⟨coded_exact a1 a2 ?_ ?_ ?_, ?_⟩ <;> simp [hS1, Std.signif, Std.coded, put_at, b3, hbit]
      have hrest : ∀ j, i < j → j < 4 → Q2 B p (x.1 + j, x.2.1) S1 := by
        intro j h1 h2
        refine q2_local B p _ _ _ ((s1 (x.1 + j, x.2.1) (fun j' hj => by simp; omega)).trans (hsame j (by omega))) (h _ (hrow j h2))
      have hdrop : ∀ j, j < 4 → ((x.1 + j, x.2.1) ∈ (Std.rowsOf x).drop (i + 1) ↔ i < j) := by
        intro j hj
        unfold Std.rowsOf
        rw [q4, ← List.map_drop, List.mem_map]
        have : ∀ a i, a ∈ (List.range 4).drop (i + 1) ↔ i < a ∧ a < 4 := by
          intro a i
          rw [List.mem_drop_iff_getElem]
          simp only [List.length_range, List.getElem_range]
          constructor
          · rintro ⟨j, h, rfl⟩; omega
          · rintro ⟨h1, h2⟩; exact ⟨a - (i + 1), by omega, by omega⟩
        constructor
        · rintro ⟨a, ha, e⟩
          simp only [Prod.mk.injEq, and_true] at e
          have := (this a i).1 ha
          omega
        · intro h
          exact ⟨j, (this j i).2 ⟨h, hj⟩, rfl⟩
      have hsub : ∀ y ∈ (Std.rowsOf x).drop (i + 1), Q2 B p y S1 := by
        intro y hy
        obtain ⟨j, hj, rfl⟩ := hmem y (List.mem_of_mem_drop hy)
        exact hrest j ((hdrop j hj).1 hy) hj
      intro y hy
      obtain ⟨j, hj, rfl⟩ := hmem y hy
      by_cases hji : i < j
      · exact hrun _ S1 (hnd.sublist (List.drop_sublist _ _)) hsub _ ((hdrop j hj).2 hji)
      · refine q0_local B p _ _ _ (runs_same _ (fun x => [x]) (cleanE_off B p) _ S1 _ ?_) ?_
        · rw [hflat]
          exact fun c => hji ((hdrop j hj).1 c)
        · by_cases e : j = i
          · rw [e]; exact hat
          · exact q0_local B p _ _ _ (hsame j e) (hskip j (by omega))
  · rw [if_neg q1]
    exact hrun _ S hnd h

/-! The passes. -/

def InBlk (B : Src) (y : Nat × Nat) : Prop := (1 ≤ y.1 ∧ y.1 ≤ B.h) ∧ 1 ≤ y.2 ∧ y.2 ≤ B.w

theorem sigPass_q (raw : Bool) (B : Src) (p : Nat) (S : St) (h : ∀ y, InBlk B y → Q0 B (p + 1) y S) : ∀ y, InBlk B y → Q1 B p y (Std.sigPassE raw B p S).1 := by
  have hflat : ∀ l : List (Nat × Nat), l.flatMap (fun x => [x]) = l := fun l => by simp
  have := runs_local (Std.sigE raw B p) (fun x => [x]) (sigE_off raw B p) (q0_local B (p + 1)) (q1_local B p) (Std.scan B.w B.h)
    (fun x _ S hx y hy => by
      rw [List.mem_singleton] at hy
      subst hy
      exact sigE_q raw B p _ S (hx _ (List.mem_singleton.2 rfl))) S (by rw [hflat]; exact nodup_scan _ _)
    (by rw [hflat]; exact fun y hy => h y ((mem_scan _ _ _).1 hy))
  rw [hflat] at this
  exact fun y hy => this y ((mem_scan _ _ _).2 hy)

theorem magPass_q (B : Src) (p : Nat) (S : St) (h : ∀ y, InBlk B y → Q1 B p y S) : ∀ y, InBlk B y → Q2 B p y (Std.magPassE B p S).1 := by
  have hflat : ∀ l : List (Nat × Nat), l.flatMap (fun x => [x]) = l := fun l => by simp
  have := runs_local (Std.magE B p) (fun x => [x]) (magE_off B p) (q1_local B p) (q2_local B p) (Std.scan B.w B.h)
    (fun x _ S hx y hy => by
      rw [List.mem_singleton] at hy
      subst hy
      exact magE_q B p _ S (hx _ (List.mem_singleton.2 rfl))) S (by rw [hflat]; exact nodup_scan _ _)
    (by rw [hflat]; exact fun y hy => h y ((mem_scan _ _ _).1 hy))
  rw [hflat] at this
  exact fun y hy => this y ((mem_scan _ _ _).2 hy)

theorem cleanPass_q (B : Src) (p : Nat) (S : St) (h : ∀ y, InBlk B y → Q2 B p y S) : ∀ y, InBlk B y → Q0 B p y (Std.cleanPassE B p S).1 := by
  have := runs_local (Std.cleanColE B p) Std.rowsOf (cleanColE_off B p) (q2_local B p) (q0_local B p) (Std.columns B.w B.h)
    (fun x _ S hx => cleanColE_q B p x S hx) S (nodup_scan _ _) (fun y hy => h y ((mem_scan _ _ _).1 hy))
  exact fun y hy => this y ((mem_scan _ _ _).2 hy)

/-- What holds behind pass `z`. -/
theorem stAt_q (B : Src) (M : Modes) (top : Nat) (hm : ∀ y, InBlk B y → B.mag y.1 y.2 < 2 ^ (top + 1)) : ∀ z, z ≤ 3 * top → ∀ y, InBlk B y →
    (z % 3 = 0 → Q0 B (Std.planeOf top z) y (Std.stAt B M top (z + 1))) ∧ (z % 3 = 1 → Q1 B (Std.planeOf top z) y (Std.stAt B M top (z + 1))) ∧
    (z % 3 = 2 → Q2 B (Std.planeOf top z) y (Std.stAt B M top (z + 1))) := by
  intro z
  induction z with
  | zero =>
    intro _ y hy
    refine ⟨fun _ => ?_, fun h => by omega, fun h => by omega⟩
    refine cleanPass_q B (Std.planeOf top 0) (Std.initSt top) (fun y hy => ?_) y hy
    have h0 : Std.planeOf top 0 = top := rfl
    rw [h0]
    refine ⟨⟨?_, ?_⟩, ?_⟩
    · show 0 = _
      rw [show (Std.initSt top).last y.1 y.2 = top + 1 from rfl, Nat.div_eq_of_lt (hm y hy), Nat.zero_mul]
    · simp [Std.initSt]
    · simp [Std.initSt]
  | succ z ih =>
    intro hz
    have ih := ih (by omega)
    intro y hy
    have hst : Std.stAt B M top (z + 1 + 1) = (Std.passE B M top (z + 1) (Std.stAt B M top (z + 1))).1 := rfl
    rw [hst]
    unfold Std.passE
    refine ⟨fun h => ?_, fun h => ?_, fun h => ?_⟩
    · rw [if_pos h]
      refine cleanPass_q B _ _ (fun y hy => ?_) y hy
      have := (ih y hy).2.2 (by omega)
      rwa [show Std.planeOf top z = Std.planeOf top (z + 1) by unfold Std.planeOf; omega] at this
    · rw [if_neg (by omega), if_pos h]
      refine sigPass_q _ B _ _ (fun y hy => ?_) y hy
      have := (ih y hy).1 (by omega)
      rwa [show Std.planeOf top z = Std.planeOf top (z + 1) + 1 by unfold Std.planeOf; omega] at this
    · rw [if_neg (by omega), if_neg (by omega)]
      refine magPass_q B _ _ (fun y hy => ?_) y hy
      have := (ih y hy).2.1 (by omega)
      rwa [show Std.planeOf top z = Std.planeOf top (z + 1) by unfold Std.planeOf; omega] at this

end Verif.Ebcot
