import Verif.Jpip.GeoLemmas
/-
Lemmas about the view-window resolver.
-/
namespace Verif.Jpip

/-! ## Discard level -/

/-- Frame size after discarding `r` levels (ISO/IEC 15444-9 C.4.1, Eq. C-1). -/
def frame (h : MainHdr) (r : Nat) : Nat × Nat :=
  (cdiv h.xsiz (2 ^ r) - cdiv h.xosiz (2 ^ r), cdiv h.ysiz (2 ^ r) - cdiv h.yosiz (2 ^ r))

theorem fsizAt_eq {i : Index} (lg : Legal i.hdr) {r : Nat} (hr : r ≤ 31) : i.fsizAt r = some (frame i.hdr r) := by
  obtain ⟨x1, x2, x3, x4, x5, y1, y2, y3, y4, y5, hc⟩ := lg
  have hp : 0 < 2 ^ r := Nat.two_pow_pos _
  have hl : 2 ^ r ≤ 2 ^ 31 := two_pow_le hr
  simp only [Index.fsizAt, shl1_eq (show r < 32 by omega), Option.bind_eq_bind, Option.bind_some]
  rw [ceilDiv32_eq hp (by omega), ceilDiv32_eq hp (by omega), ceilDiv32_eq hp (by omega), ceilDiv32_eq hp (by omega)]
  have a := cdiv_le_self (a := i.hdr.xsiz) hp
  have b := cdiv_le_self (a := i.hdr.ysiz) hp
  simp only [Option.bind_some, Option.pure_def, frame]
  rw [sub32_eq (cdiv_mono (by omega)) (by omega), sub32_eq (cdiv_mono (by omega)) (by omega)]

/-- Discarding more levels never enlarges a side of the frame. -/
theorem cdiv_sub_anti {a b r r' : Nat} (h : r ≤ r') :
    cdiv b (2 ^ r') - cdiv a (2 ^ r') ≤ cdiv b (2 ^ r) - cdiv a (2 ^ r) := by
  obtain ⟨d, rfl⟩ := Nat.exists_eq_add_of_le h
  have p1 : 0 < 2 ^ r := Nat.two_pow_pos _
  have p2 : 0 < 2 ^ (r + d) := Nat.two_pow_pos _
  have pd : 0 < 2 ^ d := Nat.two_pow_pos _
  -- a multiple of the coarse step in [a, b) is one of the fine step
  by_cases hlt : cdiv a (2 ^ (r + d)) < cdiv b (2 ^ (r + d))
  · have h1 : cdiv a (2 ^ r) ≤ cdiv a (2 ^ (r + d)) * 2 ^ d := by
      rw [cdiv_le p1, Nat.mul_assoc, ← Nat.pow_add, Nat.add_comm d r]
      exact (cdiv_le p2).1 (Nat.le_refl _)
    have h2 : (cdiv b (2 ^ (r + d)) - 1) * 2 ^ d + 1 ≤ cdiv b (2 ^ r) := by
      rw [Nat.add_one_le_iff, lt_cdiv p1, Nat.mul_assoc, ← Nat.pow_add, Nat.add_comm d r]
      exact (lt_cdiv p2).1 (by omega)
    have h3 : (cdiv b (2 ^ (r + d)) - 1 - cdiv a (2 ^ (r + d))) * 1 ≤
        (cdiv b (2 ^ (r + d)) - 1 - cdiv a (2 ^ (r + d))) * 2 ^ d := Nat.mul_le_mul_left _ pd
    rw [Nat.sub_mul _ _ (2 ^ d), Nat.mul_one] at h3
    have h4 := Nat.mul_le_mul_right (2 ^ d) (show cdiv a (2 ^ (r + d)) ≤ cdiv b (2 ^ (r + d)) - 1 by omega)
    omega
  · omega

theorem downLoop_spec {f : Nat → Option (Nat × Nat)} {g : Nat → Nat × Nat} {rx ry rmax : Nat}
    (hf : ∀ r ≤ rmax, f r = some (g r)) : ∀ n r, n + r = rmax + 1 → ∃ q, downLoop f rx ry rmax n r = some q ∧
      ((r ≤ q ∧ q ≤ rmax ∧ ((g q).1 ≤ rx ∧ (g q).2 ≤ ry) ∧ ∀ r', r ≤ r' → r' < q → ¬((g r').1 ≤ rx ∧ (g r').2 ≤ ry)) ∨
       (q = rmax ∧ ∀ r', r ≤ r' → r' ≤ rmax → ¬((g r').1 ≤ rx ∧ (g r').2 ≤ ry)))
  | 0, r, h => ⟨rmax, rfl, Or.inr ⟨rfl, fun r' h1 h2 => by omega⟩⟩
  | n + 1, r, h => by
    simp only [downLoop, hf r (by omega), Option.bind_eq_bind, Option.bind_some]
    by_cases hc : (g r).1 ≤ rx ∧ (g r).2 ≤ ry
    · rw [if_pos hc]
      exact ⟨r, rfl, Or.inl ⟨Nat.le_refl _, by omega, hc, fun r' h1 h2 => by omega⟩⟩
    · rw [if_neg hc]
      obtain ⟨q, h1, h2⟩ := downLoop_spec hf n (r + 1) (by omega)
      refine ⟨q, h1, ?_⟩
      rcases h2 with ⟨a, b, c, d⟩ | ⟨a, b⟩
      · refine Or.inl ⟨by omega, b, c, fun r' e1 e2 => ?_⟩
        by_cases hr : r' = r
        · rw [hr]; exact hc
        · exact d r' (by omega) e2
      · refine Or.inr ⟨a, fun r' e1 e2 => ?_⟩
        by_cases hr : r' = r
        · rw [hr]; exact hc
        · exact b r' (by omega) e2

theorem upLoop_spec {f : Nat → Option (Nat × Nat)} {g : Nat → Nat × Nat} {rx ry : Nat} : ∀ n,
    (∀ r < n, f r = some (g r)) → ∃ q, upLoop f rx ry n = some q ∧
      ((q < n ∧ (rx ≤ (g q).1 ∧ ry ≤ (g q).2) ∧ ∀ r', r' < n → (rx ≤ (g r').1 ∧ ry ≤ (g r').2) → r' ≤ q) ∨
       (q = 0 ∧ ∀ r' < n, ¬(rx ≤ (g r').1 ∧ ry ≤ (g r').2)))
  | 0, _ => ⟨0, rfl, Or.inr ⟨rfl, fun r' h => by omega⟩⟩
  | n + 1, hf => by
    simp only [upLoop, hf n (by omega), Option.bind_eq_bind, Option.bind_some]
    by_cases hc : rx ≤ (g n).1 ∧ ry ≤ (g n).2
    · rw [if_pos hc]
      exact ⟨n, rfl, Or.inl ⟨by omega, hc, fun r' h1 _ => by omega⟩⟩
    · rw [if_neg hc]
      obtain ⟨q, h1, h2⟩ := upLoop_spec n fun r hr => hf r (by omega)
      refine ⟨q, h1, ?_⟩
      rcases h2 with ⟨a, b, c⟩ | ⟨a, b⟩
      · refine Or.inl ⟨by omega, b, fun r' e1 e2 => ?_⟩
        by_cases hr : r' = n
        · subst hr; exact absurd e2 hc
        · exact c r' (by omega) e2
      · refine Or.inr ⟨a, fun r' e1 => ?_⟩
        by_cases hr : r' = n
        · rw [hr]; exact hc
        · exact b r' (by omega)

theorem closestLoop_spec {f : Nat → Option (Nat × Nat)} {g : Nat → Nat × Nat} {T : Nat} : ∀ n r bd b,
    (∀ r' < n + r, f r' = some (g r')) → b < r → bd = absDiff ((g b).1 * (g b).2) T →
    (∀ r' < r, absDiff ((g b).1 * (g b).2) T ≤ absDiff ((g r').1 * (g r').2) T ∧
      (absDiff ((g b).1 * (g b).2) T = absDiff ((g r').1 * (g r').2) T → b ≤ r')) →
    ∃ q, closestLoop f T n r bd b = some q ∧ q < n + r ∧
      ∀ r' < n + r, absDiff ((g q).1 * (g q).2) T ≤ absDiff ((g r').1 * (g r').2) T ∧
        (absDiff ((g q).1 * (g q).2) T = absDiff ((g r').1 * (g r').2) T → q ≤ r')
  | 0, r, bd, b, _, hb, _, h => ⟨b, rfl, by omega, fun r' hr => h r' (by omega)⟩
  | n + 1, r, bd, b, hf, hb, hbd, h => by
    simp only [closestLoop, hf r (by omega), Option.bind_eq_bind, Option.bind_some]
    by_cases hc : absDiff ((g r).1 * (g r).2) T < bd
    · rw [if_pos hc]
      obtain ⟨q, a1, a2, a3⟩ := closestLoop_spec n (r + 1) (absDiff ((g r).1 * (g r).2) T) r
        (fun r' hr => hf r' (by omega)) (by omega) rfl (fun r' hr => by
          by_cases e : r' = r
          · subst e; exact ⟨Nat.le_refl _, fun _ => Nat.le_refl _⟩
          · have := (h r' (by omega)).1
            constructor <;> omega)
      exact ⟨q, a1, by omega, fun r' hr => a3 r' (by omega)⟩
    · rw [if_neg hc]
      obtain ⟨q, a1, a2, a3⟩ := closestLoop_spec n (r + 1) bd b
        (fun r' hr => hf r' (by omega)) (by omega) hbd (fun r' hr => by
          by_cases e : r' = r
          · subst e; exact ⟨by omega, fun _ => by omega⟩
          · exact h r' (by omega))
      exact ⟨q, a1, by omega, fun r' hr => a3 r' (by omega)⟩

/-! ## `max_NL` -/

theorem le_foldl_max : ∀ (l : List Nat) (a x : Nat), x ∈ l ∨ x ≤ a → x ≤ l.foldl max a
  | [], a, x, h => by simpa using h
  | y :: l, a, x, h => by
    rw [List.foldl_cons]
    refine le_foldl_max l _ x ?_
    rcases h with h | h
    · rcases List.mem_cons.1 h with rfl | h
      · right; omega
      · left; exact h
    · right; omega

theorem foldl_max_le : ∀ (l : List Nat) (a B : Nat), (∀ x ∈ l, x ≤ B) → a ≤ B → l.foldl max a ≤ B
  | [], a, B, _, h => h
  | y :: l, a, B, h, ha => by
    rw [List.foldl_cons]
    exact foldl_max_le l _ B (fun x hx => h x (by simp [hx])) (by have := h y (by simp); omega)

theorem foldl_max_mem : ∀ (l : List Nat) (a : Nat), l.foldl max a = a ∨ l.foldl max a ∈ l
  | [], a => Or.inl rfl
  | y :: l, a => by
    rw [List.foldl_cons]
    rcases foldl_max_mem l (max a y) with h | h
    · rw [h]
      rcases Nat.le_total a y with h' | h'
      · right; rw [Nat.max_eq_right h']; simp
      · left; exact Nat.max_eq_left h'
    · right; simp [h]

end Verif.Jpip
