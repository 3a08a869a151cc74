import Verif.Threads.Ring
import Mathlib.Tactic.Abel

/-!
# The thread pool runs every accepted task once (C20)
-/

namespace Verif.Threads

variable {τ : Type} {n : Nat}

/-- Tasks a worker has taken and not yet invoked. -/
def WPos.held : WPos τ → List (Option τ)
  | .running b => b
  | _ => []

theorem held_look : (WPos.look : WPos τ).held = [] := rfl
theorem held_running (b : List (Option τ)) : (WPos.running b).held = b := rfl

/-- The worker will look at the queue again without being notified. -/
def WPos.active : WPos τ → Prop
  | .look => True
  | .running _ => True
  | _ => False

/-- What holds in every reachable state. -/
structure Inv (s : Pool τ n) : Prop where
  ring : s.ring.Ok
  fifo : s.accepted.map some = s.taken ++ s.ring.items
  held : (s.taken : Multiset (Option τ)) = (s.started : Multiset (Option τ)) + s.outside + ∑ i, ((s.pos i).held : Multiset (Option τ))
  falling : ∀ i, s.pos i = .falling → s.ring.items = []
  go : ∀ i, s.pos i = .falling → s.stop = false
  one : ∀ i j, s.pos i = .falling → s.pos j = .falling → i = j
  exited : ∀ i, s.pos i = .exited → s.stop = true ∧ s.ring.items = []
  all : s.owedAll = true → s.stop = true
  asleep : s.stop = true → s.owedAll = false → ∀ i, s.pos i ≠ .asleep
  wake : 0 < n → s.overflowed = false → s.ring.items ≠ [] → (∃ i, (s.pos i).active) ∨ 0 < s.owed ∨ s.owedAll = true

theorem sum_update (f : WPos τ → Multiset (Option τ)) (p : Fin n → WPos τ) (i : Fin n) (c : WPos τ) :
    ∑ j, f (Function.update p i c j) + f (p i) = ∑ j, f (p j) + f c := by
  rw [← Finset.add_sum_erase _ _ (Finset.mem_univ i), ← Finset.add_sum_erase (Finset.univ) (fun j => f (p j)) (Finset.mem_univ i)]
  rw [Finset.sum_congr rfl (fun j hj => by rw [Function.update_of_ne (Finset.ne_of_mem_erase hj)])]
  simp only [Function.update_self]
  abel

theorem sum_update_nat (f : WPos τ → Nat) (p : Fin n → WPos τ) (i : Fin n) (c : WPos τ) :
    ∑ j, f (Function.update p i c j) + f (p i) = ∑ j, f (p j) + f c := by
  rw [← Finset.add_sum_erase _ _ (Finset.mem_univ i), ← Finset.add_sum_erase (Finset.univ) (fun j => f (p j)) (Finset.mem_univ i)]
  rw [Finset.sum_congr rfl (fun j hj => by rw [Function.update_of_ne (Finset.ne_of_mem_erase hj)])]
  simp only [Function.update_self]
  omega

theorem held_update (p : Fin n → WPos τ) (i : Fin n) (c : WPos τ) (h : c.held = (p i).held) :
    ∑ j, ((Function.update p i c j).held : Multiset (Option τ)) = ∑ j, ((p j).held : Multiset (Option τ)) := by
  have := sum_update (fun w => (w.held : Multiset (Option τ))) p i c
  simp only [h] at this
  exact add_right_cancel this

theorem upd {p : Fin n → WPos τ} {i j : Fin n} {c d : WPos τ} (h : Function.update p i c j = d) : j = i ∧ c = d ∨ j ≠ i ∧ p j = d := by
  by_cases hj : j = i
  · subst hj; left; simpa using h
  · right; exact ⟨hj, by rwa [Function.update_of_ne hj] at h⟩

theorem Inv.init : Inv ({} : Pool τ n) := by
  refine ⟨by simp [Ring.Ok], by simp [Ring.items], ?_, by simp, by simp, by simp, by simp, by simp, by simp, ?_⟩
  · simp [WPos.held]
  · intro _ _ h; simp [Ring.items] at h

theorem Inv.own {s t : Pool τ n} (v : Inv s) (h : Own s t) : Inv t := by
  cases h with
  | take i hf hi he =>
    obtain ⟨d1, d2, -⟩ := Ring.drain_spec batchMax s.ring v.ring
    have hne := (Ring.isEmpty_false v.ring).1 he
    refine ⟨d1, ?_, ?_, ?_, ?_, ?_, ?_, v.all, ?_, ?_⟩
    · rw [v.fifo, d2]; simp
    · have := sum_update (fun w => (w.held : Multiset (Option τ))) s.pos i (.running (s.ring.drain batchMax).2)
      rw [hi] at this
      simp only [held_look, held_running, Multiset.coe_nil, add_zero] at this
      rw [← Multiset.coe_add, v.held]
      simp only
      rw [add_assoc, ← this]
    · intro j hj
      rcases upd hj with ⟨-, h⟩ | ⟨-, h⟩
      · simp at h
      · exact absurd h (hf j)
    · intro j hj
      rcases upd hj with ⟨-, h⟩ | ⟨-, h⟩
      · simp at h
      · exact v.go j h
    · intro j k hj
      rcases upd hj with ⟨-, h⟩ | ⟨-, h⟩
      · simp at h
      · exact absurd h (hf j)
    · intro j hj
      rcases upd hj with ⟨-, h⟩ | ⟨-, h⟩
      · simp at h
      · exact absurd (v.exited j h).2 hne
    · intro a b j hj
      rcases upd hj with ⟨-, h⟩ | ⟨-, h⟩
      · simp at h
      · exact v.asleep a b j h
    · intro _ _ _
      left; exact ⟨i, by simp [WPos.active]⟩
  | exit i hf hi he hs =>
    have hne := (Ring.isEmpty_iff v.ring).1 he
    refine ⟨v.ring, v.fifo, ?_, ?_, ?_, ?_, ?_, v.all, ?_, ?_⟩
    · rw [v.held]; simp only; rw [held_update]; rw [hi]; rfl
    · intro _ _; exact hne
    · intro j hj
      rcases upd hj with ⟨-, h⟩ | ⟨-, h⟩
      · simp at h
      · exact v.go j h
    · intro j k hj
      rcases upd hj with ⟨-, h⟩ | ⟨-, h⟩
      · simp at h
      · exact absurd h (hf j)
    · intro _ _; exact ⟨hs, hne⟩
    · intro a b j hj
      rcases upd hj with ⟨-, h⟩ | ⟨-, h⟩
      · simp at h
      · exact v.asleep a b j h
    · intro _ _ h; exact absurd hne h
  | fall i hf hi he hs =>
    have hne := (Ring.isEmpty_iff v.ring).1 he
    refine ⟨v.ring, v.fifo, ?_, ?_, ?_, ?_, ?_, v.all, ?_, ?_⟩
    · rw [v.held]; simp only; rw [held_update]; rw [hi]; rfl
    · intro _ _; exact hne
    · intro _ _; exact hs
    · intro j k hj hk
      rcases upd hj with ⟨h, -⟩ | ⟨-, h⟩
      · rcases upd hk with ⟨h', -⟩ | ⟨-, h'⟩
        · rw [h, h']
        · exact absurd h' (hf k)
      · exact absurd h (hf j)
    · intro j hj
      rcases upd hj with ⟨-, h⟩ | ⟨-, h⟩
      · simp at h
      · exact v.exited j h
    · intro a; simp only at a; rw [hs] at a; simp at a
    · intro _ _ h; exact absurd hne h
  | sleep i hi =>
    have hne := v.falling i hi
    have hs := v.go i hi
    refine ⟨v.ring, v.fifo, ?_, ?_, ?_, ?_, ?_, v.all, ?_, ?_⟩
    · rw [v.held]; simp only; rw [held_update]; rw [hi]; rfl
    · intro _ _; exact hne
    · intro _ _; exact hs
    · intro j k hj hk
      rcases upd hj with ⟨-, h⟩ | ⟨-, h⟩
      · simp at h
      rcases upd hk with ⟨-, h'⟩ | ⟨-, h'⟩
      · simp at h'
      exact v.one j k h h'
    · intro j hj
      rcases upd hj with ⟨-, h⟩ | ⟨-, h⟩
      · simp at h
      · exact v.exited j h
    · intro a; simp only at a; rw [hs] at a; simp at a
    · intro _ _ h; exact absurd hne h
  | invoke i t ts hi =>
    refine ⟨v.ring, v.fifo, ?_, ?_, ?_, ?_, ?_, v.all, ?_, ?_⟩
    · have := sum_update (fun w => (w.held : Multiset (Option τ))) s.pos i (.running ts)
      rw [hi] at this
      simp only [held_running] at this
      rw [v.held]
      simp only
      rw [← Multiset.coe_add]
      have e : ((t :: ts : List (Option τ)) : Multiset (Option τ)) = ([t] : List (Option τ)) + (ts : Multiset (Option τ)) := by
        rw [Multiset.coe_add]; rfl
      rw [e] at this
      have this : ∑ j, ((Function.update s.pos i (WPos.running ts) j).held : Multiset (Option τ)) + ([t] : List (Option τ)) = ∑ j, ((s.pos j).held : Multiset (Option τ)) := by
        apply add_right_cancel (b := (ts : Multiset (Option τ)))
        rw [add_assoc]
        exact this
      rw [← this]
      abel
    · intro j hj
      rcases upd hj with ⟨-, h⟩ | ⟨-, h⟩
      · simp at h
      · exact v.falling j h
    · intro j hj
      rcases upd hj with ⟨-, h⟩ | ⟨-, h⟩
      · simp at h
      · exact v.go j h
    · intro j k hj hk
      rcases upd hj with ⟨-, h⟩ | ⟨-, h⟩
      · simp at h
      rcases upd hk with ⟨-, h'⟩ | ⟨-, h'⟩
      · simp at h'
      exact v.one j k h h'
    · intro j hj
      rcases upd hj with ⟨-, h⟩ | ⟨-, h⟩
      · simp at h
      · exact v.exited j h
    · intro a b j hj
      rcases upd hj with ⟨-, h⟩ | ⟨-, h⟩
      · simp at h
      · exact v.asleep a b j h
    · intro _ _ _
      left; exact ⟨i, by simp [WPos.active]⟩
  | loop i hi =>
    refine ⟨v.ring, v.fifo, ?_, ?_, ?_, ?_, ?_, v.all, ?_, ?_⟩
    · rw [v.held]; simp only; rw [held_update]; rw [hi]; rfl
    · intro j hj
      rcases upd hj with ⟨-, h⟩ | ⟨-, h⟩
      · simp at h
      · exact v.falling j h
    · intro j hj
      rcases upd hj with ⟨-, h⟩ | ⟨-, h⟩
      · simp at h
      · exact v.go j h
    · intro j k hj hk
      rcases upd hj with ⟨-, h⟩ | ⟨-, h⟩
      · simp at h
      rcases upd hk with ⟨-, h'⟩ | ⟨-, h'⟩
      · simp at h'
      exact v.one j k h h'
    · intro j hj
      rcases upd hj with ⟨-, h⟩ | ⟨-, h⟩
      · simp at h
      · exact v.exited j h
    · intro a b j hj
      rcases upd hj with ⟨-, h⟩ | ⟨-, h⟩
      · simp at h
      · exact v.asleep a b j h
    · intro _ _ _
      left; exact ⟨i, by simp [WPos.active]⟩
  | notifyOne i ho hi =>
    refine ⟨v.ring, v.fifo, ?_, ?_, ?_, ?_, ?_, v.all, ?_, ?_⟩
    · rw [v.held]; simp only; rw [held_update]; rw [hi]; rfl
    · intro j hj
      rcases upd hj with ⟨-, h⟩ | ⟨-, h⟩
      · simp at h
      · exact v.falling j h
    · intro j hj
      rcases upd hj with ⟨-, h⟩ | ⟨-, h⟩
      · simp at h
      · exact v.go j h
    · intro j k hj hk
      rcases upd hj with ⟨-, h⟩ | ⟨-, h⟩
      · simp at h
      rcases upd hk with ⟨-, h'⟩ | ⟨-, h'⟩
      · simp at h'
      exact v.one j k h h'
    · intro j hj
      rcases upd hj with ⟨-, h⟩ | ⟨-, h⟩
      · simp at h
      · exact v.exited j h
    · intro a b j hj
      rcases upd hj with ⟨-, h⟩ | ⟨-, h⟩
      · simp at h
      · exact v.asleep a b j h
    · intro _ _ _
      left; exact ⟨i, by simp [WPos.active]⟩
  | notifyNone ho hn =>
    refine ⟨v.ring, v.fifo, v.held, v.falling, v.go, v.one, v.exited, v.all, v.asleep, ?_⟩
    intro h0 _ hne
    left
    refine ⟨⟨0, h0⟩, ?_⟩
    have a := hn ⟨0, h0⟩
    have b := v.falling ⟨0, h0⟩
    have c := v.exited ⟨0, h0⟩
    simp only
    cases hp : s.pos ⟨0, h0⟩ with
    | look => trivial
    | running _ => trivial
    | falling => exact absurd (b hp) hne
    | asleep => exact absurd hp a
    | exited => exact absurd (c hp).2 hne
  | notifyAll ho =>
    have key : ∀ (j : Fin n) (c : WPos τ), (s.pos j).wake = c → c ≠ .look → s.pos j = c := by
      intro j c h hc
      cases hp : s.pos j <;> rw [hp] at h <;> simp only [WPos.wake] at h <;> first | exact h | exact absurd h.symm hc
    refine ⟨v.ring, v.fifo, ?_, ?_, ?_, ?_, ?_, by simp, ?_, ?_⟩
    · rw [v.held]
      congr 1
      refine Finset.sum_congr rfl fun j _ => ?_
      cases hp : s.pos j <;> simp [WPos.held, WPos.wake, hp]
    · intro j hj; exact v.falling j (key j _ hj (by simp))
    · intro j hj; exact v.go j (key j _ hj (by simp))
    · intro j k hj hk; exact v.one j k (key j _ hj (by simp)) (key k _ hk (by simp))
    · intro j hj; exact v.exited j (key j _ hj (by simp))
    · intro _ _ j hj
      have e := key j _ hj (by simp)
      simp only [e, WPos.wake] at hj
      simp at hj
    · intro h0 _ hne
      left
      refine ⟨⟨0, h0⟩, ?_⟩
      have b := v.falling ⟨0, h0⟩
      have c := v.exited ⟨0, h0⟩
      simp only
      cases hp : s.pos ⟨0, h0⟩ with
      | look => trivial
      | running _ => trivial
      | falling => exact absurd (b hp) hne
      | asleep => trivial
      | exited => exact absurd (c hp).2 hne
  | invokeOutside a b t ho =>
    refine ⟨v.ring, v.fifo, ?_, v.falling, v.go, v.one, v.exited, v.all, v.asleep, v.wake⟩
    rw [v.held, ho]
    simp only
    congr 1
    rw [Multiset.coe_add, Multiset.coe_add, Multiset.coe_eq_coe]
    simp only [List.append_assoc]
    refine List.Perm.append_left _ ?_
    simpa using List.perm_middle

theorem Inv.other {s t : Pool τ n} (v : Inv s) (h : Other s t) : Inv t := by
  cases h with
  | push t hf hs hr =>
    obtain ⟨p1, p2⟩ := Ring.put_spec v.ring hr t
    refine ⟨p1, ?_, v.held, ?_, ?_, v.one, ?_, v.all, v.asleep, ?_⟩
    · simp only [List.map_append, List.map_cons, List.map_nil]; rw [v.fifo, p2]; simp
    · intro j hj; exact absurd hj (hf j)
    · intro j hj; exact absurd hj (hf j)
    · intro j hj; have := (v.exited j hj).1; rw [hs] at this; simp at this
    · intro _ _ _; right; left; exact Nat.succ_pos _
  | batch ts hn hf hs hr =>
    obtain ⟨p1, -, -, p4⟩ := Ring.putAll_spec ts s.ring v.ring
    refine ⟨p1, ?_, v.held, ?_, ?_, v.one, ?_, v.all, v.asleep, ?_⟩
    · simp only [List.map_append]; rw [v.fifo, p4 hr]; simp
    · intro j hj; exact absurd hj (hf j)
    · intro j hj; exact absurd hj (hf j)
    · intro j hj; have := (v.exited j hj).1; rw [hs] at this; simp at this
    · intro h0 _ _; right; left
      have : 0 < ts.length := List.length_pos_iff.2 hn
      simp only [batchMax]
      omega
  | overflow ts hf hs hr =>
    obtain ⟨p1, -, p3, -⟩ := Ring.putAll_spec ts s.ring v.ring
    refine ⟨p1, ?_, v.held, ?_, ?_, v.one, ?_, v.all, v.asleep, ?_⟩
    · simp only [List.map_append]; rw [v.fifo, p3]; simp
    · intro j hj; exact absurd hj (hf j)
    · intro j hj; exact absurd hj (hf j)
    · intro j hj; have := (v.exited j hj).1; rw [hs] at this; simp at this
    · intro _ h; simp at h
  | tryRun hf he =>
    obtain ⟨g1, g2⟩ := Ring.get_spec v.ring he
    have hne := (Ring.isEmpty_false v.ring).1 he
    refine ⟨g1, ?_, ?_, ?_, ?_, v.one, ?_, v.all, v.asleep, ?_⟩
    · rw [v.fifo, g2]; simp
    · simp only
      rw [← Multiset.coe_add, v.held, ← Multiset.coe_add]
      abel
    · intro j hj; exact absurd hj (hf j)
    · intro j hj; exact absurd hj (hf j)
    · intro j hj; exact absurd (v.exited j hj).2 hne
    · intro h0 ho _; exact v.wake h0 ho hne
  | shutdown hf hs =>
    refine ⟨v.ring, v.fifo, v.held, v.falling, ?_, v.one, ?_, by simp, by simp, ?_⟩
    · intro j hj; exact absurd hj (hf j)
    · intro j hj; have := (v.exited j hj).1; rw [hs] at this; simp at this
    · intro _ _ _; right; right; rfl
  | spurious i hi =>
    refine ⟨v.ring, v.fifo, ?_, ?_, ?_, ?_, ?_, v.all, ?_, ?_⟩
    · rw [v.held]; simp only; rw [held_update]; rw [hi]; rfl
    · intro j hj
      rcases upd hj with ⟨-, h⟩ | ⟨-, h⟩
      · simp at h
      · exact v.falling j h
    · intro j hj
      rcases upd hj with ⟨-, h⟩ | ⟨-, h⟩
      · simp at h
      · exact v.go j h
    · intro j k hj hk
      rcases upd hj with ⟨-, h⟩ | ⟨-, h⟩
      · simp at h
      rcases upd hk with ⟨-, h'⟩ | ⟨-, h'⟩
      · simp at h'
      exact v.one j k h h'
    · intro j hj
      rcases upd hj with ⟨-, h⟩ | ⟨-, h⟩
      · simp at h
      · exact v.exited j h
    · intro a b j hj
      rcases upd hj with ⟨-, h⟩ | ⟨-, h⟩
      · simp at h
      · exact v.asleep a b j h
    · intro _ _ _
      left; exact ⟨i, by simp [WPos.active]⟩

theorem reach_inv {s : Pool τ n} (h : Reach s) : Inv s := by
  induction h with
  | init => exact Inv.init
  | step _ hs ih => exact hs.elim ih.own ih.other

/-- C20, order: the tasks taken from the ring are the accepted ones in the order of acceptance, none skipped, repeated
or empty; the rest is still in the ring. -/
theorem C20_fifo (s : Pool τ n) (h : Reach s) :
    ∃ k, s.taken = (s.accepted.take k).map some ∧ k + s.ring.size = s.accepted.length := by
  have v := reach_inv h
  refine ⟨s.taken.length, ?_, ?_⟩
  · rw [List.map_take, v.fifo, List.take_left]
  · have := congrArg List.length v.fifo
    simp only [List.length_map, List.length_append, Ring.items_length] at this
    omega

/-- C20, exactly once: at any time the accepted tasks are, each once, those invoked, those in the hands of a thread about
to invoke them, and those in the ring. -/
theorem C20_exactly_once (s : Pool τ n) (h : Reach s) :
    (s.accepted.map some : Multiset (Option τ)) =
      (s.started : Multiset (Option τ)) + s.outside + ∑ i, ((s.pos i).held : Multiset (Option τ)) + s.ring.items := by
  have v := reach_inv h
  rw [v.fifo, ← Multiset.coe_add, v.held]

/-- No empty task is ever invoked. -/
theorem C20_no_empty_task (s : Pool τ n) (h : Reach s) : none ∉ s.started := by
  intro hm
  have e := C20_exactly_once s h
  have : (none : Option τ) ∈ (s.accepted.map some : Multiset (Option τ)) := by
    rw [e]
    simp only [Multiset.mem_add, Multiset.mem_coe]
    exact .inl (.inl (.inl hm))
  simp at this

/-- How much is left to do. -/
def WPos.weight : WPos τ → Nat
  | .exited => 0
  | .asleep => 0
  | .falling => 1
  | .look => 2
  | .running b => 3 + b.length

/-- Decreases with each own step. -/
def Pool.work (s : Pool τ n) : Nat :=
  ∑ i, (s.pos i).weight + 4 * s.ring.items.length + 3 * s.owed + (if s.owedAll then 2 * n + 1 else 0) + s.outside.length

theorem Own.work_lt {s t : Pool τ n} (v : Inv s) (h : Own s t) : t.work < s.work := by
  cases h with
  | take i hf hi he =>
    obtain ⟨-, d2, d3⟩ := Ring.drain_spec batchMax s.ring v.ring
    have hne := d3 (by simp [batchMax]) ((Ring.isEmpty_false v.ring).1 he)
    have := sum_update_nat WPos.weight s.pos i (.running (s.ring.drain batchMax).2)
    rw [hi] at this
    have l := congrArg List.length d2
    have := List.length_pos_iff.2 hne
    simp only [Pool.work, WPos.weight, List.length_append] at *
    omega
  | exit i hf hi he hs =>
    have := sum_update_nat WPos.weight s.pos i .exited
    rw [hi] at this
    simp only [Pool.work, WPos.weight] at *
    omega
  | fall i hf hi he hs =>
    have := sum_update_nat WPos.weight s.pos i .falling
    rw [hi] at this
    simp only [Pool.work, WPos.weight] at *
    omega
  | sleep i hi =>
    have := sum_update_nat WPos.weight s.pos i .asleep
    rw [hi] at this
    simp only [Pool.work, WPos.weight] at *
    omega
  | invoke i t ts hi =>
    have := sum_update_nat WPos.weight s.pos i (.running ts)
    rw [hi] at this
    simp only [Pool.work, WPos.weight, List.length_cons] at *
    omega
  | loop i hi =>
    have := sum_update_nat WPos.weight s.pos i .look
    rw [hi] at this
    simp only [Pool.work, WPos.weight, List.length_nil] at *
    omega
  | notifyOne i ho hi =>
    have := sum_update_nat WPos.weight s.pos i .look
    rw [hi] at this
    simp only [Pool.work, WPos.weight] at *
    omega
  | notifyNone ho hn =>
    simp only [Pool.work]
    omega
  | notifyAll ho =>
    have : ∑ i, (s.pos i).wake.weight ≤ ∑ i, ((s.pos i).weight + 2) := by
      refine Finset.sum_le_sum fun i _ => ?_
      cases s.pos i <;> simp [WPos.weight, WPos.wake]
    rw [Finset.sum_add_distrib] at this
    simp only [Finset.sum_const, Finset.card_univ, Fintype.card_fin, Nat.nsmul_eq_mul] at this
    simp only [Pool.work, ho, if_true, Bool.false_eq_true, if_false]
    omega
  | invokeOutside a b t ho =>
    simp only [Pool.work, ho, List.length_append, List.length_cons]
    omega

/-- C20, no endless work: from every reachable state, the pool's own steps come to an end. -/
theorem C20_own_steps_end (s : Pool τ n) (h : Reach s) : Acc (fun t s : Pool τ n => Own s t) s := by
  have key : ∀ (w : Nat) (s : Pool τ n), Reach s → s.work = w → Acc (fun t s : Pool τ n => Own s t) s := by
    intro w
    induction w using Nat.strong_induction_on with
    | _ w ih =>
      intro s hr hw
      refine Acc.intro s fun t ht => ?_
      exact ih t.work (by rw [← hw]; exact ht.work_lt (reach_inv hr)) t (hr.step (.inl ht)) rfl
  exact key _ s h rfl

/-- Where the workers are when no own step is possible. -/
theorem stuck_pos {s : Pool τ n} (v : Inv s) (hq : ∀ t, ¬ Own s t) (i : Fin n) : s.pos i = .asleep ∨ s.pos i = .exited := by
  have hf : s.free := fun j hj => hq _ (.sleep s j hj)
  cases hp : s.pos i with
  | asleep => exact .inl rfl
  | exited => exact .inr rfl
  | falling => exact absurd hp (hf i)
  | running b =>
    cases b with
    | nil => exact absurd (.loop s i hp) (hq _)
    | cons t ts => exact absurd (.invoke s i t ts hp) (hq _)
  | look =>
    rcases Bool.eq_false_or_eq_true s.ring.isEmpty with he | he
    · rcases Bool.eq_false_or_eq_true s.stop with hs | hs
      · exact absurd (.exit s i hf hp he hs) (hq _)
      · exact absurd (.fall s i hf hp he hs) (hq _)
    · exact absurd (.take s i hf hp he) (hq _)

theorem stuck_done {s : Pool τ n} (v : Inv s) (hq : ∀ t, ¬ Own s t) (he : s.ring.items = []) :
    s.started.Perm (s.accepted.map some) := by
  have ho : s.outside = [] := by
    cases h : s.outside with
    | nil => rfl
    | cons t b => exact absurd (.invokeOutside s [] b t (by simpa using h)) (hq _)
  have hz : ∑ i, ((s.pos i).held : Multiset (Option τ)) = 0 := by
    refine Finset.sum_eq_zero fun i _ => ?_
    rcases stuck_pos v hq i with h | h <;> simp [h, WPos.held]
  have := v.held
  rw [hz, ho] at this
  rw [v.fifo, he, List.append_nil]
  exact Multiset.coe_eq_coe.1 (by simpa using this.symm)

/-- C20, no lost wakeup: when the pool has come to rest, every accepted task has been invoked, exactly once.  The ring
never having been full is assumed; see `C20_overflow_strands_tasks`. -/
theorem C20_rest_means_done (hn : 0 < n) (s : Pool τ n) (h : Reach s) (ho : s.overflowed = false) (hq : ∀ t, ¬ Own s t) :
    s.started.Perm (s.accepted.map some) := by
  have v := reach_inv h
  refine stuck_done v hq ?_
  by_contra hne
  rcases v.wake hn ho hne with ⟨i, hi⟩ | h0 | ha
  · rcases stuck_pos v hq i with h | h <;> simp [h, WPos.active] at hi
  · by_cases hs : ∃ i, s.pos i = .asleep
    · obtain ⟨i, hi⟩ := hs
      exact hq _ (.notifyOne s i h0 hi)
    · exact hq _ (.notifyNone s h0 fun i hi => hs ⟨i, hi⟩)
  · exact hq _ (.notifyAll s ha)

/-- C20, shutdown: once the destructor has set the flag, the pool comes to rest only with all workers joined and every
accepted task invoked exactly once, even if the ring was ever full.  With `C20_own_steps_end`, the destructor returns. -/
theorem C20_shutdown_drains (hn : 0 < n) (s : Pool τ n) (h : Reach s) (hs : s.stop = true) (hq : ∀ t, ¬ Own s t) :
    s.joined ∧ s.started.Perm (s.accepted.map some) := by
  have v := reach_inv h
  have ha : s.owedAll = false := by
    rcases Bool.eq_false_or_eq_true s.owedAll with h | h
    · exact absurd (.notifyAll s h) (hq _)
    · exact h
  have hx : ∀ i, s.pos i = .exited := fun i => (stuck_pos v hq i).resolve_left (v.asleep hs ha i)
  exact ⟨⟨hs, hx⟩, stuck_done v hq (v.exited ⟨0, hn⟩ (hx _)).2⟩

/-- C20: the destructor returns only after every accepted task has been taken, and all of them have been invoked but for
those another thread took through `try_run_one` and is about to invoke. -/
theorem C20_join_after_all (hn : 0 < n) (s : Pool τ n) (h : Reach s) (hj : s.joined) :
    (s.started ++ s.outside).Perm (s.accepted.map some) := by
  have v := reach_inv h
  have he := (v.exited ⟨0, hn⟩ (hj.2 _)).2
  have hz : ∑ i, ((s.pos i).held : Multiset (Option τ)) = 0 := by
    refine Finset.sum_eq_zero fun i _ => ?_
    simp [hj.2 i, WPos.held]
  have := v.held
  rw [hz, add_zero, Multiset.coe_add] at this
  rw [v.fifo, he, List.append_nil]
  exact (Multiset.coe_eq_coe.1 this).symm

/-- One worker, three tasks, one of them run by the submitter: a run that ends with everything joined. -/
example : ∃ s : Pool Nat 1, Reach s ∧ s.joined ∧ s.accepted = [7, 8, 9] ∧ s.started = [some 7, some 8, some 9] := by
  have nf : ∀ (s : Pool Nat 1), s.pos 0 ≠ .falling → s.free := by
    intro s h i
    rw [Fin.fin_one_eq_zero i]
    exact h
  refine ⟨_, .step (.step (.step (.step (.step (.step (.step (.step (.step (.step .init
    (.inr (.batch _ [7, 8] (by simp) (nf _ (by simp)) rfl (by decide))))
    (.inr (.push _ 9 (nf _ (by simp)) rfl (by decide))))
    (.inr (.tryRun _ (nf _ (by simp)) (by decide))))
    (.inl (.invokeOutside _ [] [] (some 7) (by decide))))
    (.inl (.take _ 0 (nf _ (by simp)) rfl (by decide))))
    (.inr (.shutdown _ (nf _ (by simp)) rfl)))
    (.inl (.invoke _ 0 (some 8) [some 9] (by simp; decide))))
    (.inl (.invoke _ 0 (some 9) [] (by simp))))
    (.inl (.loop _ 0 (by simp))))
    (.inl (.exit _ 0 (nf _ (by simp)) (by simp) (by decide) rfl)), ⟨rfl, ?_⟩, rfl, rfl⟩
  intro i
  rw [Fin.fin_one_eq_zero i]
  simp

/-- A full ring strands tasks.  When `push_batch` throws because the ring is full it has stored 32768 tasks and notifies
nobody, so with all workers asleep the accepted tasks are left until the next push or the shutdown. -/
theorem C20_overflow_strands_tasks :
    ∃ s : Pool Nat 1, Reach s ∧ s.accepted.length = ringCap ∧ s.started = [] ∧ ∀ t, ¬ Own s t := by
  have nf : ∀ (s : Pool Nat 1), s.pos 0 ≠ .falling → s.free := by
    intro s h i
    rw [Fin.fin_one_eq_zero i]
    exact h
  have full : ∀ (k m : Nat) (r : Ring Nat), r.head = 0 → r.tail + k = ringCap →
      (r.putAll (List.replicate (k + m + 1) 0)).2 = false ∧ (r.putAll (List.replicate (k + m + 1) 0)).1.tail = ringCap := by
    intro k
    induction k with
    | zero =>
      intro m r h0 ht
      rw [Nat.zero_add, List.replicate_succ]
      unfold Ring.putAll
      rw [if_pos (by simp only [Ring.size]; omega)]
      exact ⟨rfl, by omega⟩
    | succ k ih =>
      intro m r h0 ht
      rw [show k + 1 + m + 1 = (k + m + 1) + 1 by omega, List.replicate_succ]
      unfold Ring.putAll
      rw [if_neg (by simp only [Ring.size]; omega)]
      exact ih m (r.put 0) h0 (by simp only [Ring.put]; omega)
  obtain ⟨c, hc⟩ : ∃ c, c = ringCap := ⟨_, rfl⟩
  obtain ⟨f1, f2⟩ := full c 0 {} rfl (by simp only [Nat.zero_add]; exact hc)
  rw [← hc] at f2
  have hr := Reach.step (.step (.step .init
    (.inl (.fall ({} : Pool Nat 1) 0 (nf _ (by simp)) rfl (by rfl) rfl)))
    (.inl (.sleep _ 0 (by simp))))
    (.inr (.overflow _ (List.replicate (c + 0 + 1) 0) (nf _ (by simp)) rfl f1))
  refine ⟨_, hr, ?_, rfl, ?_⟩
  · simp only [List.nil_append, List.length_take, List.length_replicate]
    rw [f2, ← hc]
    omega
  · intro t ht
    cases ht with
    | take i hf hi he => rw [Fin.fin_one_eq_zero i] at hi; simp at hi
    | exit i hf hi he hs => simp at hs
    | fall i hf hi he hs => rw [Fin.fin_one_eq_zero i] at hi; simp at hi
    | sleep i hi => rw [Fin.fin_one_eq_zero i] at hi; simp at hi
    | invoke i t ts hi => rw [Fin.fin_one_eq_zero i] at hi; simp at hi
    | loop i hi => rw [Fin.fin_one_eq_zero i] at hi; simp at hi
    | notifyOne i ho hi => simp at ho
    | notifyNone ho hn => simp at ho
    | notifyAll ho => simp at ho
    | invokeOutside a b t ho => simp at ho

end Verif.Threads
