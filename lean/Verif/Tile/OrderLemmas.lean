import Verif.Tile.OrderSpec
/-
Lemmas for C26: lists, and one axis.
-/
namespace Verif.Tile

/-! ### Lists -/

theorem sorted_ext : ∀ {a b : List Nat}, a.Pairwise (· < ·) → b.Pairwise (· < ·) → (∀ x, x ∈ a ↔ x ∈ b) → a = b
  | [], [], _, _, _ => rfl
  | [], y :: b, _, _, h => by have := (h y).2 (by simp); simp at this
  | x :: a, [], _, _, h => by have := (h x).1 (by simp); simp at this
  | x :: a, y :: b, ha, hb, h => by
    rw [List.pairwise_cons] at ha hb
    have hxy : x = y := by
      have h1 := (h x).1 (by simp)
      have h2 := (h y).2 (by simp)
      rw [List.mem_cons] at h1 h2
      rcases h1 with h1 | h1
      · exact h1
      · rcases h2 with h2 | h2
        · exact h2.symm
        · have := hb.1 x h1; have := ha.1 y h2; omega
    subst hxy
    congr 1
    refine sorted_ext ha.2 hb.2 fun z => ?_
    have hz := h z
    rw [List.mem_cons, List.mem_cons] at hz
    constructor
    · intro hm
      have hlt := ha.1 z hm
      rcases hz.1 (.inr hm) with h' | h'
      · omega
      · exact h'
    · intro hm
      have hlt := hb.1 z hm
      rcases hz.2 (.inr hm) with h' | h'
      · omega
      · exact h'

theorem rng_sorted (a b : Nat) : (rng a b).Pairwise (· < ·) := by
  unfold rng; exact List.pairwise_lt_range'

theorem mem_rng {a b x : Nat} : x ∈ rng a b ↔ a ≤ x ∧ x < b := by
  unfold rng; rw [List.mem_range'_1]; omega

theorem rng_nodup (a b : Nat) : (rng a b).Nodup := List.nodup_range'

theorem flatMap_ite {α β : Type} [DecidableEq α] {l : List α} (hn : l.Nodup) (a : α) (g : List β) :
    (l.flatMap fun b => if b = a then g else []) = if a ∈ l then g else [] := by
  induction l with
  | nil => simp
  | cons b l ih =>
    rw [List.nodup_cons] at hn
    rw [List.flatMap_cons, ih hn.2]
    by_cases h : b = a
    · subst h; simp [hn.1]
    · rw [if_neg h]; simp only [List.mem_cons, List.nil_append]
      have : ¬ a = b := fun e => h e.symm
      simp [this]

theorem flatMap_filter_nil {α β : Type} {l : List α} {p : α → Bool} {g : α → List β}
    (h : ∀ a ∈ l, p a = false → g a = []) : (l.filter p).flatMap g = l.flatMap g := by
  induction l with
  | nil => rfl
  | cons a l ih =>
    have ih := ih fun b hb => h b (by simp [hb])
    by_cases hp : p a = true
    · rw [List.filter_cons_of_pos hp, List.flatMap_cons, List.flatMap_cons, ih]
    · rw [List.filter_cons_of_neg hp, List.flatMap_cons, ih, h a (by simp) (by simpa using hp), List.nil_append]

theorem flatMap_congr' {α β : Type} {l : List α} {f g : α → List β} (h : ∀ a ∈ l, f a = g a) :
    l.flatMap f = l.flatMap g := by
  induction l with
  | nil => rfl
  | cons a l ih =>
    rw [List.flatMap_cons, List.flatMap_cons, h a (by simp), ih fun b hb => h b (by simp [hb])]

theorem flatMap_range_mul (w h : Nat) : ((List.range h).flatMap fun j => (List.range w).map fun i => i + w * j) = List.range (w * h) := by
  induction h with
  | zero => simp
  | succ h ih =>
    rw [List.range_succ, List.flatMap_append, ih, Nat.mul_add, Nat.mul_one, List.range_add]
    simp only [List.flatMap_cons, List.flatMap_nil, List.append_nil]
    congr 1
    exact List.map_congr_left fun i _ => Nat.add_comm _ _

/-- Two axes of hits make the row-by-row numbering. -/
theorem grid_range {xs ys : List Nat} {ax ay : Nat → Prop} [DecidablePred ax] [DecidablePred ay] {kx ky : Nat → Nat} {w h : Nat}
    (hx : (xs.filter fun x => decide (ax x)).map kx = List.range w)
    (hy : (ys.filter fun y => decide (ay y)).map ky = List.range h) :
    (ys.flatMap fun y => xs.flatMap fun x => if ay y ∧ ax x then [kx x + w * ky y] else []) = List.range (w * h) := by
  have e1 : ∀ (y : Nat), (xs.flatMap fun x => if ay y ∧ ax x then [kx x + w * ky y] else []) =
      if ay y then (List.range w).map fun i => i + w * ky y else [] := by
    intro y
    by_cases hy' : ay y
    · rw [if_pos hy', ← hx, List.map_map]
      simp only [hy', true_and]
      clear hx
      induction xs with
      | nil => rfl
      | cons x xs ih =>
        rw [List.flatMap_cons, ih]
        by_cases hax : ax x <;> simp [hax]
    · rw [if_neg hy']; simp [hy']
  simp only [e1]
  rw [← flatMap_range_mul, ← hy]
  clear hy hx e1
  induction ys with
  | nil => rfl
  | cons y ys ih =>
    rw [List.flatMap_cons, ih]
    by_cases hay : ay y <;> simp [hay]

/-! ### One axis -/

theorem cdiv_mul {m n D : Nat} (h : D = m * n) (hm : 0 < m) (hn : 0 < n) (t : Nat) : cdiv (cdiv t m) n = cdiv t D := by
  subst h
  apply Nat.le_antisymm
  · rw [cdiv_le hn, cdiv_le hm]
    have := (cdiv_le (a := t) (b := m * n) (k := cdiv t (m * n)) (by positivity)).1 (Nat.le_refl _)
    calc t ≤ _ := this
      _ = _ := by ring
  · rw [cdiv_le (by positivity)]
    have h1 := (cdiv_le (a := cdiv t m) (b := n) (k := cdiv (cdiv t m) n) hn).1 (Nat.le_refl _)
    have h2 := (cdiv_le (a := t) (b := m) (k := cdiv t m) hm).1 (Nat.le_refl _)
    calc t ≤ cdiv t m * m := h2
      _ ≤ (cdiv (cdiv t m) n * n) * m := Nat.mul_le_mul_right _ h1
      _ = _ := by ring

theorem cdiv_exact {a D : Nat} (hD : 0 < D) : cdiv (a * D) D = a := by
  apply Nat.le_antisymm
  · rw [cdiv_le hD]
  · have := (cdiv_le (a := a * D) (b := D) (k := cdiv (a * D) D) hD).1 (Nat.le_refl _)
    exact Nat.le_of_mul_le_mul_right this hD

theorem dvd_shift (tr0 pp d : Nat) : 2 ^ (pp + d) ∣ tr0 * 2 ^ d ↔ 2 ^ pp ∣ tr0 := by
  rw [Nat.pow_add]
  exact Nat.mul_dvd_mul_iff_right (Nat.two_pow_pos d)

section axis
variable {s : Span} {sub pp d : Nat}

theorem tr_eq (hsub : 0 < sub) (t : Nat) : tr t sub d = cdiv t (sub * 2 ^ d) :=
  cdiv_mul rfl hsub (Nat.two_pow_pos d) t

theorem atPrec_iff (x : Nat) : AtPrec s sub pp d x ↔ (sub * 2 ^ d) * 2 ^ pp ∣ x ∨ (x = s.1 ∧ ¬ 2 ^ pp ∣ tr s.1 sub d) := by
  unfold AtPrec
  rw [dvd_shift, show sub * 2 ^ (pp + d) = sub * 2 ^ d * 2 ^ pp by rw [Nat.pow_add]; ring]

/-- At a multiple, the index is the multiple less the offset of the first precinct. -/
theorem kAt_mul (hsub : 0 < sub) (m : Nat) : kAt s sub pp d (sub * 2 ^ d * 2 ^ pp * m) = m - tr s.1 sub d / 2 ^ pp := by
  unfold kAt
  have hD : 0 < sub * 2 ^ d := Nat.mul_pos hsub (Nat.two_pow_pos d)
  rw [show sub * 2 ^ d * 2 ^ pp * m = (m * 2 ^ pp) * (sub * 2 ^ d) by ring, cdiv_exact hD,
    Nat.mul_div_cancel _ (Nat.two_pow_pos pp)]

theorem kAt_first (hsub : 0 < sub) : kAt s sub pp d s.1 = 0 := by
  unfold kAt; rw [← tr_eq hsub, Nat.sub_self]

theorem first_le (hsub : 0 < sub) {m : Nat} (h : s.1 ≤ sub * 2 ^ d * 2 ^ pp * m) : tr s.1 sub d ≤ m * 2 ^ pp := by
  have hD : 0 < sub * 2 ^ d := Nat.mul_pos hsub (Nat.two_pow_pos d)
  rw [tr_eq hsub, cdiv_le hD]
  calc s.1 ≤ _ := h
    _ = _ := by ring

/-- On one axis the points that start a precinct are numbered 0, 1, 2, ... -/
theorem axis_hits (hsub : 0 < sub) (hlt : tr s.1 sub d < tr s.2 sub d) (hs : s.1 < s.2) {xs : List Nat}
    (hsort : xs.Pairwise (· < ·))
    (hmem : ∀ x, x ∈ xs → s.1 ≤ x ∧ x < s.2)
    (hall : ∀ x, s.1 ≤ x → x < s.2 → AtPrec s sub pp d x → x ∈ xs) :
    (xs.filter fun x => decide (AtPrec s sub pp d x)).map (kAt s sub pp d) = List.range (nprec s sub pp d) := by
  have hD : 0 < sub * 2 ^ d := Nat.mul_pos hsub (Nat.two_pow_pos d)
  have hb : 0 < 2 ^ pp := Nat.two_pow_pos pp
  have hM : 0 < sub * 2 ^ d * 2 ^ pp := Nat.mul_pos hD hb
  apply sorted_ext
  · rw [List.pairwise_map]
    refine (hsort.filter _).imp_of_mem ?_
    intro x x' hx hx' hlt'
    rw [List.mem_filter, decide_eq_true_eq, atPrec_iff] at hx hx'
    obtain ⟨b1, -⟩ := hmem _ hx.1
    rcases hx'.2 with ⟨m', rfl⟩ | ⟨rfl, -⟩
    · rw [kAt_mul hsub]
      rcases hx.2 with ⟨m, rfl⟩ | ⟨rfl, hnd⟩
      · rw [kAt_mul hsub]
        have h1 := Nat.div_le_of_le_mul (Nat.mul_comm m (2 ^ pp) ▸ first_le hsub b1)
        have h2 : m < m' := Nat.lt_of_mul_lt_mul_left hlt'
        omega
      · rw [kAt_first hsub]
        have h1 := first_le (s := s) hsub (Nat.le_of_lt hlt')
        have h2 : tr s.1 sub d ≠ m' * 2 ^ pp := fun e => hnd (e ▸ Nat.dvd_mul_left _ _)
        have h3 : tr s.1 sub d / 2 ^ pp < m' := by rw [Nat.div_lt_iff_lt_mul hb]; omega
        omega
    · omega
  · exact List.pairwise_lt_range
  · intro k
    rw [List.mem_range, List.mem_map]
    unfold nprec
    rw [if_pos hlt]
    constructor
    · rintro ⟨x, hx, rfl⟩
      rw [List.mem_filter, decide_eq_true_eq, atPrec_iff] at hx
      obtain ⟨b1, b2⟩ := hmem _ hx.1
      have h0 : tr s.1 sub d / 2 ^ pp < cdiv (tr s.2 sub d) (2 ^ pp) := by
        rw [lt_cdiv hb]
        have := Nat.div_mul_le_self (tr s.1 sub d) (2 ^ pp); omega
      rcases hx.2 with ⟨m, rfl⟩ | ⟨rfl, -⟩
      · rw [kAt_mul hsub]
        have h1 : m < cdiv (tr s.2 sub d) (2 ^ pp) := by
          rw [lt_cdiv hb, tr_eq hsub, lt_cdiv hD]
          calc m * 2 ^ pp * (sub * 2 ^ d) = _ := by ring
            _ < _ := b2
        omega
      · rw [kAt_first hsub]; omega
    · intro hk
      by_cases hc : k = 0 ∧ ¬ 2 ^ pp ∣ tr s.1 sub d
      · refine ⟨s.1, ?_, by rw [kAt_first hsub, hc.1]⟩
        have ha : AtPrec s sub pp d s.1 := (atPrec_iff _).2 (.inr ⟨rfl, hc.2⟩)
        rw [List.mem_filter, decide_eq_true_eq]
        exact ⟨hall _ (Nat.le_refl _) hs ha, ha⟩
      · have h1 : k + tr s.1 sub d / 2 ^ pp < cdiv (tr s.2 sub d) (2 ^ pp) := by omega
        generalize hm : k + tr s.1 sub d / 2 ^ pp = m at h1
        refine ⟨sub * 2 ^ d * 2 ^ pp * m, ?_, by rw [kAt_mul hsub]; omega⟩
        have ha : AtPrec s sub pp d (sub * 2 ^ d * 2 ^ pp * m) := (atPrec_iff _).2 (.inl (Nat.dvd_mul_right _ _))
        rw [List.mem_filter, decide_eq_true_eq]
        refine ⟨hall _ ?_ ?_ ha, ha⟩
        · have h2 : tr s.1 sub d ≤ m * 2 ^ pp := by
            rcases Nat.eq_zero_or_pos k with rfl | hk0
            · have hd : 2 ^ pp ∣ tr s.1 sub d := by by_contra h; exact hc ⟨rfl, h⟩
              rw [← hm, Nat.zero_add, Nat.div_mul_cancel hd]
            · have h3 := Nat.lt_div_mul_add hb (a := tr s.1 sub d)
              have h4 : (1 + tr s.1 sub d / 2 ^ pp) * 2 ^ pp ≤ m * 2 ^ pp := Nat.mul_le_mul_right _ (by omega)
              rw [Nat.add_mul, Nat.one_mul] at h4
              omega
          rw [tr_eq hsub, cdiv_le hD] at h2
          calc s.1 ≤ _ := h2
            _ = _ := by ring
        · rw [lt_cdiv hb, tr_eq hsub, lt_cdiv hD] at h1
          calc sub * 2 ^ d * 2 ^ pp * m = _ := by ring
            _ < _ := h1

end axis

/-! ### The points examined -/

theorem multiples_spec {p0 p1 k : Nat} (hr : p1 + 2 ^ k ≤ 2 ^ 32) :
    ∀ n x, p1 - x ≤ n → 2 ^ k ∣ x → ∃ t, multiples p0 p1 k x = .ok t ∧ t.Pairwise (· < ·) ∧
      ∀ z, z ∈ t ↔ x ≤ z ∧ z < p1 ∧ p0 < z ∧ 2 ^ k ∣ z := by
  intro n
  have hk := Nat.two_pow_pos k
  induction n with
  | zero =>
    intro x hx _
    refine ⟨[], ?_, List.Pairwise.nil, ?_⟩
    · rw [multiples, if_neg (by omega)]; rfl
    · intro z; constructor
      · intro h; simp at h
      · intro h; omega
  | succ n ih =>
    intro x hx hd
    by_cases hlt : x < p1
    · obtain ⟨t, h1, h2, h3⟩ := ih (x + 2 ^ k) (by omega) (Nat.dvd_add hd (Nat.dvd_refl _))
      have step : ∀ z, x < z → 2 ^ k ∣ z → x + 2 ^ k ≤ z := by
        intro z hz hdz
        have := Nat.le_of_dvd (by omega) (Nat.dvd_sub hdz hd)
        omega
      refine ⟨if p0 < x then x :: t else t, ?_, ?_, ?_⟩
      · rw [multiples, if_pos hlt, if_pos (by omega), h1]; rfl
      · split
        · rw [List.pairwise_cons]
          exact ⟨fun z hz => by have := ((h3 z).1 hz).1; omega, h2⟩
        · exact h2
      · intro z
        split
        · rename_i hp
          rw [List.mem_cons, h3]
          constructor
          · rintro (rfl | h)
            · exact ⟨Nat.le_refl _, hlt, hp, hd⟩
            · exact ⟨by omega, h.2⟩
          · rintro ⟨a, b⟩
            rcases Nat.eq_or_lt_of_le a with rfl | a
            · exact .inl rfl
            · exact .inr ⟨step z a b.2.2, b⟩
        · rename_i hp
          rw [h3]
          constructor
          · rintro ⟨a, b⟩; exact ⟨by omega, b⟩
          · rintro ⟨a, b⟩
            refine ⟨step z ?_ b.2.2, b⟩
            omega
    · refine ⟨[], ?_, List.Pairwise.nil, ?_⟩
      · rw [multiples, if_neg hlt]; rfl
      · intro z; constructor
        · intro h; simp at h
        · intro h; omega

/-- The points examined: the start of the tile, and the multiples of the smallest precinct size inside it. -/
theorem examin_spec {s : Span} {k : Nat} (hs : s.1 < s.2) (hr : s.2 + 2 ^ k ≤ 2 ^ 32) :
    examin s k = .ok ((rng s.1 s.2).filter fun x => decide (x = s.1 ∨ 2 ^ k ∣ x)) := by
  obtain ⟨t, h1, h2, h3⟩ := multiples_spec (p0 := s.1) hr s.2 0 (by omega) (Nat.dvd_zero _)
  have e : s.1 :: t = (rng s.1 s.2).filter fun x => decide (x = s.1 ∨ 2 ^ k ∣ x) := by
    apply sorted_ext
    · rw [List.pairwise_cons]; exact ⟨fun z hz => ((h3 z).1 hz).2.2.1, h2⟩
    · exact (rng_sorted _ _).filter _
    · intro z
      rw [List.mem_filter, mem_rng, List.mem_cons, h3, decide_eq_true_eq]
      constructor
      · rintro (rfl | h)
        · exact ⟨⟨Nat.le_refl _, hs⟩, .inl rfl⟩
        · exact ⟨⟨by omega, h.2.1⟩, .inr h.2.2.2⟩
      · rintro ⟨h, h' | h'⟩
        · exact .inl h'
        · rcases Nat.eq_or_lt_of_le h.1 with e | e
          · exact .inl e.symm
          · exact .inr ⟨by omega, h.2, e, h'⟩
  unfold examin
  rw [h1, ← e]
  rfl

theorem foldl_min_le {α : Type} (f : α → Nat) : ∀ (l : List α) (m : Nat),
    l.foldl (fun m a => min m (f a)) m ≤ m ∧ ∀ a ∈ l, l.foldl (fun m a => min m (f a)) m ≤ f a
  | [], m => ⟨Nat.le_refl _, by simp⟩
  | a :: l, m => by
    have ih := foldl_min_le f l (min m (f a))
    rw [List.foldl_cons]
    refine ⟨by have := ih.1; omega, ?_⟩
    intro b hb
    rw [List.mem_cons] at hb
    rcases hb with rfl | hb
    · have := ih.1; omega
    · exact ih.2 b hb

theorem foldl_min_le' {α : Type} (F : Nat → α → Nat) (h : ∀ m a, F m a ≤ m) : ∀ (l : List α) (m : Nat), l.foldl F m ≤ m
  | [], m => Nat.le_refl _
  | a :: l, m => by rw [List.foldl_cons]; exact Nat.le_trans (foldl_min_le' F h l _) (h m a)

theorem minPP_le (T : TileP) (pp : Comp → Nat → Nat) {c r : Nat} (hc : c < T.ncomp) (hr : r ≤ (T.comp c).NL) :
    minPP T pp ≤ pp (T.comp c) r := by
  have aux : ∀ (l : List Nat) (m : Nat), c ∈ l → l.foldl (fun m c => (List.range ((T.comp c).NL + 1)).foldl
      (fun m r => min m (pp (T.comp c) r)) m) m ≤ pp (T.comp c) r := by
    intro l
    induction l with
    | nil => intro m h; simp at h
    | cons a l ih =>
      intro m h
      rw [List.foldl_cons]
      rw [List.mem_cons] at h
      rcases h with rfl | h
      · refine Nat.le_trans (foldl_min_le' _ (fun m a => (foldl_min_le _ _ _).1) l _) ?_
        exact (foldl_min_le _ _ _).2 r (by rw [List.mem_range]; omega)
      · exact ih _ h
  exact aux _ _ (List.mem_range.2 hc)

end Verif.Tile
