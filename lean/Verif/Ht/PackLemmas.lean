import Verif.Ht.Packed
import Verif.Ht.RefPasses

/-! # Packed refinement passes: bits, loops and the packed significance, lemmas -/

namespace Verif.Ht

/-! ## Bits -/

theorem not32_testBit {x k : Nat} (h : k < 32) : (not32 x).testBit k = !x.testBit k := by
  unfold not32
  rw [Nat.testBit_xor, show (0xFFFFFFFF : Nat) = 2 ^ 32 - 1 from rfl, Nat.testBit_two_pow_sub_one]
  simp [h]

theorem shl32_testBit (x n k : Nat) : (shl32 x n).testBit k = (decide (k < 32) && (decide (n ≤ k) && x.testBit (k - n))) := by
  unfold shl32
  rw [Nat.testBit_mod_two_pow, Nat.testBit_shiftLeft]

theorem ctz32_eq {x k : Nat} (hk : k < 32) (h : x.testBit k = true) (hl : ∀ j < k, x.testBit j = false) : ctz32 x = k := by
  have : (List.range 32).find? (fun k => x.testBit k) = some k := by
    rw [List.find?_range_eq_some]
    refine ⟨h, by simpa using hk, fun j hj => by simp [hl j hj]⟩
  unfold ctz32
  rw [this]; rfl

theorem clear_low {x k : Nat} (h : x.testBit k = true) (hl : ∀ j < k, x.testBit j = false) (j : Nat) :
    (x &&& (x - 1)).testBit j = (x.testBit j && decide (j ≠ k)) := by
  have hmod : x % 2 ^ k = 0 := by
    apply Nat.eq_of_testBit_eq
    intro i
    rw [Nat.testBit_mod_two_pow, Nat.zero_testBit]
    by_cases hi : i < k
    · simp [hl i hi]
    · simp [hi]
  have hd : x / 2 ^ k % 2 = 1 := by
    rw [Nat.testBit_eq_decide_div_mod_eq] at h
    simpa using h
  obtain ⟨q, hq⟩ : ∃ q, x = 2 ^ k * (2 * q + 1) := by
    refine ⟨x / 2 ^ k / 2, ?_⟩
    have e1 := Nat.div_add_mod x (2 ^ k)
    have e2 := Nat.div_add_mod (x / 2 ^ k) 2
    rw [hd] at e2
    rw [e2]
    omega
  have hpos : 0 < 2 ^ k := Nat.pow_pos (by decide)
  have hx1 : x - 1 = 2 ^ k * (2 * q) + (2 ^ k - 1) := by
    rw [hq, Nat.mul_add, Nat.mul_one]; omega
  rw [Nat.testBit_and]
  by_cases hj : j < k
  · rw [hl j hj]; simp
  · rw [hx1, Nat.testBit_two_pow_mul_add _ (by omega), if_neg hj, hq, Nat.testBit_two_pow_mul]
    have hge : j ≥ k := by omega
    by_cases he : j = k
    · subst he; simp
    · obtain ⟨m, hm⟩ : ∃ m, j - k = m + 1 := ⟨j - k - 1, by omega⟩
      rw [hm, Nat.testBit_add_one, Nat.testBit_add_one]
      have e1 : 2 * q / 2 = q := by omega
      have e2 : (2 * q + 1) / 2 = q := by omega
      rw [e1, e2]; simp [hge, he]

theorem ne_zero_of_testBit {x k : Nat} (h : x.testBit k = true) : x ≠ 0 := by
  rintro rfl; simp at h

theorem eq_zero_of_testBits {x : Nat} (h : ∀ k, x.testBit k = false) : x = 0 :=
  Nat.eq_of_testBit_eq fun i => by rw [h i, Nat.zero_testBit]

theorem foldlM_congr_mem {σ α : Type} {f g : σ → α → Option σ} : ∀ (xs : List α) (s : σ), (∀ x ∈ xs, ∀ s, f s x = g s x) →
    xs.foldlM f s = xs.foldlM g s
  | [], _, _ => rfl
  | x :: xs, s, h => by
    rw [List.foldlM_cons, List.foldlM_cons, h x (by simp)]
    congr 1
    funext t
    exact foldlM_congr_mem xs t fun y hy => h y (by simp [hy])

theorem eachBit_eq {σ : Type} (f : σ → Nat → Option σ) : ∀ (xs : List Nat) (n m : Nat) (s : σ), xs.Pairwise (· < ·) →
    (∀ k ∈ xs, k < 32) → (∀ k, m.testBit k = true → k ∈ xs) → xs.length < n →
    eachBit f n m s = xs.foldlM (fun s k => if m.testBit k = true then f s k else some s) s
  | [], n + 1, m, s, _, _, hm, _ => by
    have : m = 0 := eq_zero_of_testBits fun k => by
      by_contra h
      have := hm k (by simpa using h)
      simp at this
    subst this
    simp [eachBit]
  | k :: xs, n + 1, m, s, hp, h32, hm, hn => by
    rw [List.pairwise_cons] at hp
    rw [List.foldlM_cons]
    by_cases hk : m.testBit k = true
    · have hl : ∀ j < k, m.testBit j = false := by
        intro j hj
        by_contra h
        have := hm j (by simpa using h)
        rw [List.mem_cons] at this
        rcases this with rfl | this
        · omega
        · have := hp.1 j this; omega
      have hc := clear_low hk hl
      rw [eachBit, if_neg (ne_zero_of_testBit hk), ctz32_eq (h32 k (by simp)) hk hl, if_pos hk]
      show (f s k).bind _ = (f s k).bind _
      congr 1
      funext t
      rw [eachBit_eq f xs n _ t hp.2 (fun j hj => h32 j (by simp [hj])) ?_ (by simp at hn; omega)]
      · apply foldlM_congr_mem
        intro j hj s
        have := hp.1 j hj
        rw [hc, decide_eq_true (show j ≠ k by omega), Bool.and_true]
      · intro j hj
        rw [hc, Bool.and_eq_true, decide_eq_true_eq] at hj
        have := hm j hj.1
        simp only [List.mem_cons] at this
        tauto
    · rw [if_neg hk]
      show _ = (some s).bind _
      rw [Option.bind_some, eachBit_eq f xs (n + 1) m s hp.2 (fun j hj => h32 j (by simp [hj])) ?_ (by simp at hn; omega)]
      intro j hj
      have := hm j hj
      rw [List.mem_cons] at this
      rcases this with rfl | this
      · exact absurd hj hk
      · exact this

/-! ## Positions within a group -/

/-- The bit positions of a group in their order. -/
def kScan (sw sh : Nat) : List Nat := (bitScan sw sh).map fun x => 4 * x.1 + x.2

theorem mem_kScan {sw sh k : Nat} (h4 : sh ≤ 4) : k ∈ kScan sw sh ↔ k / 4 < sw ∧ k % 4 < sh := by
  simp only [kScan, bitScan, List.mem_map, List.mem_flatMap, List.mem_range, Prod.exists, Prod.mk.injEq]
  constructor
  · rintro ⟨a, b, ⟨c, hc, d, hd, rfl, rfl⟩, rfl⟩; omega
  · rintro ⟨h1, h2⟩
    exact ⟨k / 4, k % 4, ⟨k / 4, h1, k % 4, h2, rfl, rfl⟩, by omega⟩

theorem pairwise_kScan {sw sh : Nat} (h4 : sh ≤ 4) : (kScan sw sh).Pairwise (· < ·) := by
  unfold kScan bitScan
  rw [List.map_flatMap, List.pairwise_flatMap]
  constructor
  · intro c _
    rw [List.map_map, List.pairwise_map]
    refine List.Pairwise.imp_of_mem ?_ List.pairwise_lt_range
    intro a d _ _ hh
    simp only [Function.comp_def]; omega
  · refine List.Pairwise.imp_of_mem ?_ List.pairwise_lt_range
    intro a d _ _ hh x hx y hy
    simp only [List.map_map, List.mem_map, List.mem_range, Function.comp_def] at hx hy
    obtain ⟨r, hr, rfl⟩ := hx
    obtain ⟨r', hr', rfl⟩ := hy
    omega

theorem length_kScan (sw sh : Nat) : (kScan sw sh).length = sw * sh := by
  have := groupScan_length 0 0 sw sh
  simp only [groupScan, List.length_flatMap, List.length_map] at this
  simp only [kScan, bitScan, List.length_map, List.length_flatMap]
  exact this

theorem groupScan_eq_kScan {i0 j0 sw sh : Nat} (h4 : sh ≤ 4) :
    groupScan i0 j0 sw sh = (kScan sw sh).map fun k => (i0 + k % 4, j0 + k / 4) := by
  unfold groupScan kScan bitScan
  rw [List.map_map, List.map_flatMap]
  congr 1
  funext c
  rw [List.map_map]
  apply List.map_congr_left
  intro r hr
  rw [List.mem_range] at hr
  simp only [Function.comp_def, Prod.mk.injEq]
  omega

theorem part_le (n q : Nat) : part n q ≤ 4 := by unfold part; split_ifs <;> omega
theorem lt_part {n q r : Nat} (h : r < 4) : r < part n q ↔ q * 4 + r < n := by unfold part; split_ifs <;> omega
theorem lt_quads {n q : Nat} : q < quads n ↔ q * 4 < n := by unfold quads; omega

theorem kScan_lt {sw sh k : Nat} (h4 : sh ≤ 4) (hw : sw ≤ 4) (h : k ∈ kScan sw sh) : k < 16 := by
  rw [mem_kScan h4] at h; omega

/-! ## The packed significance -/

theorem packGroup_fold {b : RBlk} {qy qx : Nat} : ∀ (xs : List (Nat × Nat)) (s : Nat),
    (∀ x ∈ xs, x.1 < 4 ∧ x.2 < 4 ∧ qy * 4 + x.2 < b.h ∧ qx * 4 + x.1 < b.w) →
    ∃ v, xs.foldlM (fun s (x : Nat × Nat) => (b.getSt (qy * 4 + 1 + x.2) (qx * 4 + x.1 + 1)).map fun v =>
        s ||| ((v &&& 1) <<< (x.1 * 4 + x.2)) % 2 ^ 16) s = some v ∧
      ∀ k, v.testBit k = (s.testBit k || decide (∃ x ∈ xs, k = x.1 * 4 + x.2 ∧ (b.st (qy * 4 + 1 + x.2) (qx * 4 + x.1 + 1)).testBit 0 = true))
  | [], s, _ => ⟨s, rfl, fun k => by simp⟩
  | x :: xs, s, h => by
    obtain ⟨h1, h2, h3, h4⟩ := h x (by simp)
    have hin : b.inSt (qy * 4 + 1 + x.2) (qx * 4 + x.1 + 1) := by
      have := rup8_ge b.h; have := rup8_ge b.w
      unfold RBlk.inSt; omega
    obtain ⟨v, e, hv⟩ := packGroup_fold (b := b) (qy := qy) (qx := qx) xs
      (s ||| ((b.st (qy * 4 + 1 + x.2) (qx * 4 + x.1 + 1) &&& 1) <<< (x.1 * 4 + x.2)) % 2 ^ 16) (fun y hy => h y (by simp [hy]))
    refine ⟨v, ?_, fun k => ?_⟩
    · rw [List.foldlM_cons, RBlk.getSt_of hin]
      exact e
    · rw [hv, Nat.testBit_or, Nat.testBit_mod_two_pow, Nat.testBit_shiftLeft, and1_toNat, Bool.or_assoc]
      congr 1
      rw [Bool.eq_iff_iff]
      simp only [Bool.or_eq_true, Bool.and_eq_true, decide_eq_true_eq, List.mem_cons, exists_eq_or_imp]
      generalize ht : (b.st (qy * 4 + 1 + x.2) (qx * 4 + x.1 + 1)).testBit 0 = t
      apply or_congr ?_ Iff.rfl
      constructor
      · rintro ⟨_, hk, ht'⟩
        rcases Nat.eq_zero_or_pos (k - (x.1 * 4 + x.2)) with h0 | h0
        · rw [h0] at ht'
          exact ⟨by omega, by cases t <;> simp at ht' ⊢⟩
        · obtain ⟨m, hm⟩ : ∃ m, k - (x.1 * 4 + x.2) = m + 1 := ⟨_, (Nat.sub_add_cancel h0).symm⟩
          rw [hm, Nat.testBit_add_one] at ht'
          cases t <;> simp at ht'
      · rintro ⟨rfl, rfl⟩
        refine ⟨by omega, le_refl _, by simp⟩

theorem mem_bitScan {sw sh : Nat} {x : Nat × Nat} : x ∈ bitScan sw sh ↔ x.1 < sw ∧ x.2 < sh := by
  obtain ⟨a, c⟩ := x
  simp only [bitScan, List.mem_flatMap, List.mem_map, List.mem_range, Prod.mk.injEq]
  constructor
  · rintro ⟨u, hu, v, hv, rfl, rfl⟩; exact ⟨hu, hv⟩
  · rintro ⟨h1, h2⟩; exact ⟨a, h1, c, h2, rfl, rfl⟩

/-- What an element of the packed significance says. -/
def IsSig (b : RBlk) (qy qx v : Nat) : Prop :=
  ∀ k, v.testBit k = (decide (k < 16) && (b.st (qy * 4 + k % 4 + 1) (qx * 4 + k / 4 + 1)).testBit 0)

theorem packGroup_eq {b : RBlk} (hf : Fresh b) (qy qx : Nat) : ∃ v, packGroup b qy qx = some v ∧ IsSig b qy qx v := by
  have h4 := part_le b.h qy
  have w4 := part_le b.w qx
  obtain ⟨v, e, hv⟩ := packGroup_fold (b := b) (qy := qy) (qx := qx) (bitScan (part b.w qx) (part b.h qy)) 0 (by
    intro x hx
    rw [mem_bitScan] at hx
    have h1 : x.1 < 4 := by omega
    have h2 : x.2 < 4 := by omega
    exact ⟨h1, h2, (lt_part h2).mp hx.2, (lt_part h1).mp hx.1⟩)
  refine ⟨v, e, fun k => ?_⟩
  rw [hv, Nat.zero_testBit, Bool.false_or, Bool.eq_iff_iff]
  simp only [Bool.and_eq_true, decide_eq_true_eq]
  constructor
  · rintro ⟨x, hx, rfl, ht⟩
    rw [mem_bitScan] at hx
    have h1 : x.1 < 4 := by omega
    have h2 : x.2 < 4 := by omega
    refine ⟨by omega, ?_⟩
    rw [show (x.1 * 4 + x.2) % 4 = x.2 by omega, show (x.1 * 4 + x.2) / 4 = x.1 by omega,
      show qy * 4 + x.2 + 1 = qy * 4 + 1 + x.2 by omega]
    exact ht
  · rintro ⟨hk, ht⟩
    refine ⟨(k / 4, k % 4), ?_, by dsimp only; omega, ?_⟩
    · rw [mem_bitScan, lt_part (by omega), lt_part (by omega)]
      by_contra hc
      rw [hf.out _ _ (by omega)] at ht
      simp at ht
    · dsimp only
      rw [show qy * 4 + 1 + k % 4 = qy * 4 + k % 4 + 1 by omega]
      exact ht

theorem storeAll {α : Type} (n : Nat) (addr : α → Nat) (val : α → Nat) : ∀ (xs : List α) (a : Nat → Nat), (∀ x ∈ xs, addr x < n) →
    ∃ a', xs.foldlM (fun a x => stA n a (addr x) (val x)) a = some a' ∧
      ∀ i, (a' i = a i ∧ ∀ x ∈ xs, addr x ≠ i) ∨ ∃ x ∈ xs, addr x = i ∧ a' i = val x
  | [], a, _ => ⟨a, rfl, fun i => Or.inl ⟨rfl, by simp⟩⟩
  | x :: xs, a, h => by
    obtain ⟨a', e, ha⟩ := storeAll n addr val xs (fun k => if k = addr x then val x else a k) (fun y hy => h y (by simp [hy]))
    refine ⟨a', ?_, fun i => ?_⟩
    · rw [List.foldlM_cons, stA, if_pos (h x (by simp))]; exact e
    · rcases ha i with ⟨h1, h2⟩ | ⟨y, hy, h1, h2⟩
      · by_cases hx : addr x = i
        · exact Or.inr ⟨x, by simp, hx, by rw [h1, if_pos hx.symm]⟩
        · refine Or.inl ⟨by rw [h1, if_neg (Ne.symm hx)], ?_⟩
          intro y hy
          rw [List.mem_cons] at hy
          rcases hy with rfl | hy
          · exact hx
          · exact h2 y hy
      · exact Or.inr ⟨y, by simp [hy], h1, h2⟩

theorem storeAll_none {α : Type} (n : Nat) (addr : α → Nat) (val : α → Nat) : ∀ (xs : List α) (a : Nat → Nat),
    (∃ x ∈ xs, n ≤ addr x) → xs.foldlM (fun a x => stA n a (addr x) (val x)) a = none
  | [], _, h => by simp at h
  | x :: xs, a, h => by
    rw [List.foldlM_cons, stA]
    by_cases hx : addr x < n
    · rw [if_pos hx]
      refine storeAll_none n addr val xs _ ?_
      obtain ⟨y, hy, hn⟩ := h
      rw [List.mem_cons] at hy
      rcases hy with rfl | hy
      · omega
      · exact ⟨y, hy, hn⟩
    · rw [if_neg hx]; rfl

theorem mem_packScan {w h : Nat} {q : Nat × Nat} : q ∈ packScan w h ↔ q.1 ≤ quads h ∧ q.2 ≤ quads w := by
  obtain ⟨a, c⟩ := q
  simp only [packScan, List.mem_append, List.mem_flatMap, List.mem_map, List.mem_range, List.mem_singleton, Prod.mk.injEq]
  constructor
  · rintro (⟨u, hu, (⟨v, hv, rfl, rfl⟩ | ⟨rfl, rfl⟩)⟩ | ⟨v, hv, rfl, rfl⟩) <;> omega
  · rintro ⟨h1, h2⟩
    by_cases ha : a < quads h
    · refine Or.inl ⟨a, ha, ?_⟩
      by_cases hc : c < quads w
      · exact Or.inl ⟨c, hc, rfl, rfl⟩
      · exact Or.inr ⟨rfl, by omega⟩
    · exact Or.inr ⟨c, by omega, by omega, rfl⟩

theorem mstr_gt (w : Nat) : quads w < mstrOf w := by unfold mstrOf; omega

/-- The packed significance of the block and its border. -/
def Packs (b : RBlk) (sg : Nat → Nat) : Prop :=
  ∀ qy qx, qy ≤ quads b.h → qx ≤ quads b.w → IsSig b qy qx (sg (qy * mstrOf b.w + qx))

/-- The value stored for a group. -/
noncomputable def packVal (b : RBlk) (q : Nat × Nat) : Nat := if q.1 < quads b.h ∧ q.2 < quads b.w then (packGroup b q.1 q.2).getD 0 else 0

theorem packSigma_fold {b : RBlk} (hf : Fresh b) : packSigma b =
    (packScan b.w b.h).foldlM (fun a q => stA sigmaLen a (q.1 * mstrOf b.w + q.2) (packVal b q)) (fun _ => 0) := by
  unfold packSigma
  apply foldlM_congr_mem
  intro q _ a
  unfold packVal
  by_cases hq : q.1 < quads b.h ∧ q.2 < quads b.w
  · rw [if_pos hq, if_pos hq]
    obtain ⟨v, e, -⟩ := packGroup_eq hf q.1 q.2
    rw [e]; rfl
  · rw [if_neg hq, if_neg hq]; rfl

theorem packVal_sig {b : RBlk} (hf : Fresh b) (q : Nat × Nat) : IsSig b q.1 q.2 (packVal b q) := by
  unfold packVal
  by_cases hq : q.1 < quads b.h ∧ q.2 < quads b.w
  · rw [if_pos hq]
    obtain ⟨v, e, h⟩ := packGroup_eq hf q.1 q.2
    rw [e]; exact h
  · rw [if_neg hq]
    intro k
    rw [Nat.zero_testBit, hf.out _ _ (by rw [lt_quads, lt_quads] at hq; omega)]
    simp

theorem packSigma_eq {b : RBlk} (hf : Fresh b) (hfit : quads b.h * mstrOf b.w + quads b.w < sigmaLen) :
    ∃ sg, packSigma b = some sg ∧ Packs b sg := by
  rw [packSigma_fold hf]
  obtain ⟨sg, e, h⟩ := storeAll sigmaLen (fun q : Nat × Nat => q.1 * mstrOf b.w + q.2) (packVal b) (packScan b.w b.h) (fun _ => 0) (by
    intro q hq
    rw [mem_packScan] at hq
    have := Nat.mul_le_mul_right (mstrOf b.w) hq.1
    omega)
  refine ⟨sg, e, fun qy qx hy hx => ?_⟩
  rcases h (qy * mstrOf b.w + qx) with ⟨-, h2⟩ | ⟨⟨a, c⟩, hq, h1, h2⟩
  · exact absurd rfl (h2 (qy, qx) (mem_packScan.mpr ⟨hy, hx⟩))
  · have hm := mstr_gt b.w
    rw [mem_packScan] at hq
    dsimp only at h1 hq
    have hac : a = qy ∧ c = qx := by
      have e1 : (a * mstrOf b.w + c) / mstrOf b.w = a := by
        rw [Nat.mul_comm, Nat.mul_add_div (by omega), Nat.div_eq_of_lt (by omega)]; rfl
      have e2 : (qy * mstrOf b.w + qx) / mstrOf b.w = qy := by
        rw [Nat.mul_comm, Nat.mul_add_div (by omega), Nat.div_eq_of_lt (by omega)]; rfl
      have : a = qy := by rw [← e1, ← e2, h1]
      subst this
      omega
    obtain ⟨rfl, rfl⟩ := hac
    rw [h2]
    exact packVal_sig hf _

theorem packSigma_none {b : RBlk} (hf : Fresh b) (hfit : sigmaLen ≤ quads b.h * mstrOf b.w + quads b.w) : packSigma b = none := by
  rw [packSigma_fold hf]
  exact storeAll_none _ _ _ _ _ ⟨(quads b.h, quads b.w), mem_packScan.mpr ⟨le_refl _, le_refl _⟩, hfit⟩

end Verif.Ht
