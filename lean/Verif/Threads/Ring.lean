import Verif.Threads.Pool

/-!
# The ring holds a queue
-/

namespace Verif.Threads

variable {τ : Type}

/-- The contents of the ring, oldest first. -/
def Ring.items (r : Ring τ) : List (Option τ) := (List.range (r.tail - r.head)).map fun k => r.slots ((r.head + k) % ringCap)

/-- The ring is not overfull. -/
def Ring.Ok (r : Ring τ) : Prop := r.head ≤ r.tail ∧ r.tail - r.head ≤ ringCap

theorem mod_ne {a b c : Nat} (h : a < b) (h2 : b < a + c) : a % c ≠ b % c := by
  intro e
  have := Nat.le_of_dvd (by omega) (Nat.dvd_of_mod_eq_zero (Nat.sub_mod_eq_zero_of_mod_eq e.symm))
  omega

theorem Ring.items_length (r : Ring τ) : r.items.length = r.size := by simp [Ring.items, Ring.size]

theorem Ring.isEmpty_iff {r : Ring τ} (h : r.Ok) : r.isEmpty = true ↔ r.items = [] := by
  rw [← List.length_eq_zero_iff, r.items_length]
  have := h.1
  simp only [Ring.isEmpty, beq_iff_eq, Ring.size]
  omega

theorem Ring.isEmpty_false {r : Ring τ} (h : r.Ok) : r.isEmpty = false ↔ r.items ≠ [] := by
  rw [← Bool.not_eq_true, Ring.isEmpty_iff h]

theorem Ring.put_spec {r : Ring τ} (h : r.Ok) (hs : r.size < ringCap) (t : τ) :
    (r.put t).Ok ∧ (r.put t).items = r.items ++ [some t] := by
  obtain ⟨h1, h2⟩ := h
  simp only [Ring.size] at hs
  refine ⟨⟨?_, ?_⟩, ?_⟩
  · simp only [Ring.put]; omega
  · simp only [Ring.put]; omega
  · simp only [Ring.put, Ring.items]
    rw [show r.tail + 1 - r.head = (r.tail - r.head) + 1 by omega, List.range_succ, List.map_append]
    congr 1
    · refine List.map_congr_left fun k hk => ?_
      rw [List.mem_range] at hk
      rw [Function.update_of_ne (mod_ne (by omega) (by omega))]
    · simp [show r.head + (r.tail - r.head) = r.tail by omega]

theorem Ring.get_spec {r : Ring τ} (h : r.Ok) (he : r.isEmpty = false) :
    r.get.1.Ok ∧ r.items = r.get.2 :: r.get.1.items := by
  obtain ⟨h1, h2⟩ := h
  simp only [Ring.isEmpty, beq_eq_false_iff_ne, ne_eq] at he
  refine ⟨⟨?_, ?_⟩, ?_⟩
  · simp only [Ring.get]; omega
  · simp only [Ring.get]; omega
  · simp only [Ring.get, Ring.items]
    rw [show r.tail - r.head = (r.tail - (r.head + 1)) + 1 by omega, List.range_succ_eq_map, List.map_cons, List.map_map]
    simp only [Nat.add_zero, List.cons.injEq, true_and]
    refine List.map_congr_left fun k hk => ?_
    rw [List.mem_range] at hk
    simp only [Function.comp]
    rw [Function.update_of_ne (mod_ne (by omega) (by omega)).symm]
    congr 2
    omega

theorem Ring.putAll_spec (ts : List τ) (r : Ring τ) (h : r.Ok) :
    (r.putAll ts).1.Ok ∧ r.tail ≤ (r.putAll ts).1.tail ∧
    (r.putAll ts).1.items = r.items ++ (ts.take ((r.putAll ts).1.tail - r.tail)).map some ∧
    ((r.putAll ts).2 = true → (r.putAll ts).1.items = r.items ++ ts.map some) := by
  induction ts generalizing r with
  | nil => simp [Ring.putAll, h]
  | cons t ts ih =>
    unfold Ring.putAll
    split_ifs with hc
    · simp [h]
    · obtain ⟨p1, p2⟩ := Ring.put_spec h (by omega) t
      obtain ⟨i1, i2, i3, i4⟩ := ih _ p1
      have e : (r.put t).tail = r.tail + 1 := rfl
      rw [e] at i2 i3
      refine ⟨i1, by omega, ?_, fun h => ?_⟩
      · rw [i3, p2, show ((r.put t).putAll ts).1.tail - r.tail = (((r.put t).putAll ts).1.tail - (r.tail + 1)) + 1 by omega]
        simp
      · rw [i4 h, p2]; simp

theorem Ring.drain_spec (k : Nat) (r : Ring τ) (h : r.Ok) :
    (r.drain k).1.Ok ∧ r.items = (r.drain k).2 ++ (r.drain k).1.items ∧
    (k ≠ 0 → r.items ≠ [] → (r.drain k).2 ≠ []) := by
  induction k generalizing r with
  | zero => simp [Ring.drain, h]
  | succ k ih =>
    unfold Ring.drain
    split_ifs with he
    · refine ⟨h, by simp, fun _ hn => absurd ((Ring.isEmpty_iff h).1 he) hn⟩
    · have he : r.isEmpty = false := by simpa using he
      obtain ⟨g1, g2⟩ := Ring.get_spec h he
      obtain ⟨i1, i2, -⟩ := ih _ g1
      refine ⟨i1, ?_, by simp⟩
      rw [g2, i2]
      simp

theorem Ring.drain_le (k : Nat) (r : Ring τ) : (r.drain k).2.length ≤ k := by
  induction k generalizing r with
  | zero => simp [Ring.drain]
  | succ k ih =>
    unfold Ring.drain
    split_ifs
    · simp
    · simpa using ih _

end Verif.Threads
