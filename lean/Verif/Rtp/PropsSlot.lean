import Verif.Rtp.Slot

/-!
# Mailbox and buffer pool (C19)
-/

namespace Verif.Rtp

variable {α : Type}

/-- The log has an item taken only right after it was put: never an older one, never twice, in order. -/
def Fresh (l : List (Ev α)) : Prop := ∀ a b x, l = a ++ [.got x] ++ b → ∃ a', a = a' ++ [.put x]

/-- The items put, in order. -/
def puts (l : List (Ev α)) : List α := l.filterMap fun e => match e with | .put x => some x | .got _ => none

/-- The items taken, in order. -/
def gots (l : List (Ev α)) : List α := l.filterMap fun e => match e with | .put _ => none | .got x => some x

theorem Fresh.snoc_put {l : List (Ev α)} (h : Fresh l) (x : α) : Fresh (l ++ [.put x]) := by
  intro a b y e
  cases hb : b.reverse with
  | nil =>
    have : b = [] := by simpa using hb
    subst this
    rw [List.append_nil] at e
    have := (List.append_inj' e rfl).2
    simp at this
  | cons z t =>
    have : b = t.reverse ++ [z] := by have := congrArg List.reverse hb; simpa using this
    rw [this, ← List.append_assoc] at e
    exact h a t.reverse y (List.append_inj' e rfl).1

theorem Fresh.snoc_got {l : List (Ev α)} (h : Fresh l) (x : α) (hl : ∃ l', l = l' ++ [.put x]) : Fresh (l ++ [.got x]) := by
  intro a b y e
  cases hb : b.reverse with
  | nil =>
    have : b = [] := by simpa using hb
    subst this
    rw [List.append_nil] at e
    obtain ⟨e1, e2⟩ := List.append_inj' e rfl
    simp only [List.cons.injEq, Ev.got.injEq, and_true] at e2
    subst e1 e2
    exact hl
  | cons z t =>
    have : b = t.reverse ++ [z] := by have := congrArg List.reverse hb; simpa using this
    rw [this, ← List.append_assoc] at e
    exact h a t.reverse y (List.append_inj' e rfl).1

theorem puts_put (l : List (Ev α)) (x : α) : puts (l ++ [.put x]) = puts l ++ [x] := by simp [puts]
theorem puts_got (l : List (Ev α)) (x : α) : puts (l ++ [.got x]) = puts l := by simp [puts]
theorem gots_put (l : List (Ev α)) (x : α) : gots (l ++ [.put x]) = gots l := by simp [gots]
theorem gots_got (l : List (Ev α)) (x : α) : gots (l ++ [.got x]) = gots l ++ [x] := by simp [gots]

/-- What holds in every reachable state. -/
structure SlotInv (s : Slot α) : Prop where
  fresh : Fresh s.log
  full : ∀ x, s.slot = some x → ∃ l', s.log = l' ++ [.put x]
  order : (gots s.log ++ s.slot.toList).Sublist (puts s.log)
  count : (puts s.log).Perm (gots s.log ++ s.evicted ++ s.slot.toList)
  evicted : s.evicted.length = s.evictions
  one : ∀ i j, s.pos i = .falling → s.pos j = .falling → i = j
  locked : (∃ i, s.pos i = .falling) → s.slot = none
  wake : s.slot.isSome → (∃ i, s.pos i = .asleep) → 0 < s.owed ∨ ∃ i, s.pos i = .woken
  finite : ∃ n, ∀ i, n ≤ i → s.pos i = .out

theorem update_pos {p : Nat → CPos} {i j : Nat} {c d : CPos} (h : Function.update p i c j = d) : j = i ∧ c = d ∨ j ≠ i ∧ p j = d := by
  by_cases hj : j = i
  · subst hj; left; simpa using h
  · right; exact ⟨hj, by rwa [Function.update_of_ne hj] at h⟩

theorem fin_update {p : Nat → CPos} (h : ∃ n, ∀ i, n ≤ i → p i = .out) (i : Nat) (c : CPos) :
    ∃ n, ∀ j, n ≤ j → Function.update p i c j = .out := by
  obtain ⟨n, hn⟩ := h
  refine ⟨max n (i + 1), fun j hj => ?_⟩
  rw [Function.update_of_ne (by omega)]
  exact hn j (by omega)

theorem SlotInv.init : SlotInv ({} : Slot α) := by
  refine ⟨?_, by simp, by simp [puts, gots], by simp [puts, gots], by simp, by simp, by simp, by simp, ⟨0, by simp⟩⟩
  intro a b x e
  have := congrArg List.length e
  simp at this

theorem SlotInv.step {s t : Slot α} (i : SlotInv s) (h : SlotStep s t) : SlotInv t := by
  cases h with
  | push x hf =>
    refine ⟨i.fresh.snoc_put x, ?_, ?_, ?_, ?_, i.one, ?_, ?_, i.finite⟩
    · intro y hy
      simp only [Option.some.injEq] at hy
      subst hy
      exact ⟨_, rfl⟩
    · have := (List.sublist_append_left _ _).trans i.order
      rw [puts_put, gots_put]
      exact this.append_right _
    · have := i.count
      rw [puts_put, gots_put]
      simpa [List.append_assoc] using this.append_right [x]
    · simp [i.evicted]
    · rintro ⟨j, hj⟩; exact absurd hj (hf j)
    · intro _ _; left; exact Nat.succ_pos _
  | notifyOne k ho hk =>
    refine ⟨i.fresh, i.full, i.order, i.count, i.evicted, ?_, ?_, ?_, fin_update i.finite _ _⟩
    · intro a b ha hb
      rcases update_pos ha with ⟨-, h⟩ | ⟨-, h⟩
      · simp at h
      rcases update_pos hb with ⟨-, h'⟩ | ⟨-, h'⟩
      · simp at h'
      exact i.one a b h h'
    · rintro ⟨j, hj⟩
      rcases update_pos hj with ⟨-, h⟩ | ⟨-, h⟩
      · simp at h
      exact i.locked ⟨j, h⟩
    · intro _ _; right; exact ⟨k, by simp⟩
  | notifyNone ho hn =>
    refine ⟨i.fresh, i.full, i.order, i.count, i.evicted, i.one, i.locked, ?_, i.finite⟩
    rintro - ⟨j, hj⟩
    exact absurd hj (hn j)
  | waitTake k x hf hk hx =>
    refine ⟨i.fresh.snoc_got x (i.full x hx), by simp, ?_, ?_, i.evicted, ?_, by simp, by simp, fin_update i.finite _ _⟩
    · have := i.order
      rw [puts_got, gots_got]
      simpa [hx] using this
    · have := i.count
      rw [puts_got, gots_got]
      refine this.trans ?_
      simp only [hx, Option.toList_some, Option.toList_none, List.append_nil, List.append_assoc]
      exact List.Perm.append_left _ List.perm_append_comm
    · intro a b ha hb
      rcases update_pos ha with ⟨-, h⟩ | ⟨-, h⟩
      · simp at h
      · exact absurd h (hf a)
  | waitStop k hf hk hx hs =>
    refine ⟨i.fresh, i.full, i.order, i.count, i.evicted, ?_, fun _ => hx, by simp [hx], fin_update i.finite _ _⟩
    intro a b ha hb
    rcases update_pos ha with ⟨-, h⟩ | ⟨-, h⟩
    · simp at h
    · exact absurd h (hf a)
  | waitFall k hf hk hx hs =>
    refine ⟨i.fresh, i.full, i.order, i.count, i.evicted, ?_, fun _ => hx, by simp [hx], fin_update i.finite _ _⟩
    intro a b ha hb
    rcases update_pos ha with ⟨h, -⟩ | ⟨-, h⟩
    · rcases update_pos hb with ⟨h', -⟩ | ⟨-, h'⟩
      · rw [h, h']
      · exact absurd h' (hf b)
    · exact absurd h (hf a)
  | sleep k hk =>
    have hx := i.locked ⟨k, hk⟩
    refine ⟨i.fresh, i.full, i.order, i.count, i.evicted, ?_, fun _ => hx, by simp [hx], fin_update i.finite _ _⟩
    intro a b ha hb
    rcases update_pos ha with ⟨-, h⟩ | ⟨-, h⟩
    · simp at h
    rcases update_pos hb with ⟨-, h'⟩ | ⟨-, h'⟩
    · simp at h'
    exact i.one a b h h'
  | spurious k hk =>
    refine ⟨i.fresh, i.full, i.order, i.count, i.evicted, ?_, ?_, ?_, fin_update i.finite _ _⟩
    · intro a b ha hb
      rcases update_pos ha with ⟨-, h⟩ | ⟨-, h⟩
      · simp at h
      rcases update_pos hb with ⟨-, h'⟩ | ⟨-, h'⟩
      · simp at h'
      exact i.one a b h h'
    · rintro ⟨j, hj⟩
      rcases update_pos hj with ⟨-, h⟩ | ⟨-, h⟩
      · simp at h
      exact i.locked ⟨j, h⟩
    · intro _ _; right; exact ⟨k, by simp⟩
  | tryPop x hf hx =>
    refine ⟨i.fresh.snoc_got x (i.full x hx), by simp, ?_, ?_, i.evicted, i.one, by simp, by simp, i.finite⟩
    · have := i.order
      rw [puts_got, gots_got]
      simpa [hx] using this
    · have := i.count
      rw [puts_got, gots_got]
      refine this.trans ?_
      simp only [hx, Option.toList_some, Option.toList_none, List.append_nil, List.append_assoc]
      exact List.Perm.append_left _ List.perm_append_comm
  | setStop => exact ⟨i.fresh, i.full, i.order, i.count, i.evicted, i.one, i.locked, i.wake, i.finite⟩
  | notifyAll =>
    refine ⟨i.fresh, i.full, i.order, i.count, i.evicted, ?_, ?_, ?_, ?_⟩
    · intro a b ha hb
      simp only at ha hb
      split_ifs at ha hb
      exact i.one a b ha hb
    · rintro ⟨j, hj⟩
      simp only at hj
      split_ifs at hj
      exact i.locked ⟨j, hj⟩
    · rintro - ⟨j, hj⟩
      simp only at hj
      split_ifs at hj with h
      exact absurd hj h
    · obtain ⟨n, hn⟩ := i.finite
      refine ⟨n, fun j hj => ?_⟩
      simp only [hn j hj]
      simp

theorem reach_inv {s : Slot α} (h : Reach s) : SlotInv s := by
  induction h with
  | init => exact SlotInv.init
  | step _ hs ih => exact ih.step hs

/-- C19: in every interleaving, an item is taken only as the newest one put and at most once: in the log, each `got x`
comes right after `put x`. -/
theorem C19_latest_item_once (s : Slot α) (h : Reach s) (a b : List (Ev α)) (x : α) (hl : s.log = a ++ [.got x] ++ b) :
    ∃ a', a = a' ++ [.put x] := (reach_inv h).fresh a b x hl

/-- The items taken are among the items put, in the order they were put. -/
theorem C19_taken_in_order (s : Slot α) (h : Reach s) : (gots s.log).Sublist (puts s.log) :=
  (List.sublist_append_left _ _).trans (reach_inv h).order

/-- No item is lost or duplicated: those put are those taken, those handed back to a pusher, and the one in the slot; the
eviction counter counts those handed back. -/
theorem C19_items_accounted (s : Slot α) (h : Reach s) :
    (puts s.log).Perm (gots s.log ++ s.evicted ++ s.slot.toList) ∧ s.evictions = s.evicted.length :=
  ⟨(reach_inv h).count, (reach_inv h).evicted.symm⟩

/-- An item in the slot does not wait while consumers sleep and nobody is going to wake or look: either a `notify_one` is
still to come or a woken consumer is about to take the item. -/
theorem C19_no_lost_item_wakeup (s : Slot α) (h : Reach s) (x : α) (hx : s.slot = some x) (i : Nat)
    (hi : s.pos i = .asleep) : 0 < s.owed ∨ ∃ j, s.pos j = .woken :=
  (reach_inv h).wake (by simp [hx]) ⟨i, hi⟩

/-- The mutex can always be had when there is an item: a woken consumer takes it in one step. -/
theorem C19_woken_takes (s : Slot α) (h : Reach s) (x : α) (hx : s.slot = some x) (i : Nat) (hi : s.pos i = .woken) :
    ∃ t, SlotStep s t ∧ t.slot = none ∧ t.log = s.log ++ [.got x] := by
  refine ⟨_, SlotStep.waitTake s i x ?_ (.inr hi) hx, rfl, rfl⟩
  intro j hj
  have := (reach_inv h).locked ⟨j, hj⟩
  rw [hx] at this
  simp at this

/-- A reachable state in which something is taken and something evicted. -/
example : ∃ s : Slot Nat, Reach s ∧ s.log = [.put 1, .put 2, .got 2] ∧ s.evicted = [1] := by
  refine ⟨_, .step (.step (.step .init (.push _ 1 ?_)) (.push _ 2 ?_)) (.tryPop _ 2 ?_ rfl), rfl, rfl⟩ <;>
  · intro i; simp

/-- Shutdown can be missed.  The stop flag is set and `notify()` called without the mutex, so both can fall between a
consumer's look at the flag and its sleep.  The consumer then sleeps with the flag set, nothing in the slot and no
wakeup on its way; the thread that joins it waits for ever. -/
theorem C19_stop_can_be_missed :
    ∃ s u v w : Slot Nat, Reach s ∧ s.pos 0 = .falling ∧ SlotStep s u ∧ u = { s with stop := true } ∧ SlotStep u v ∧
      v = { u with pos := fun i => if u.pos i = .asleep then .woken else u.pos i } ∧ SlotStep v w ∧
      w.stop = true ∧ w.pos 0 = .asleep ∧ w.slot = none ∧ w.owed = 0 ∧ ∀ i, w.pos i ≠ .woken := by
  refine ⟨_, _, _, _, .step .init (.waitFall _ 0 (by intro i; simp) (.inl rfl) rfl rfl), by simp, .setStop _, rfl,
    .notifyAll _, rfl, .sleep _ 0 (by simp), rfl, by simp, rfl, rfl, ?_⟩
  intro i
  by_cases hi : i = 0
  · subst hi; simp
  · simp [Function.update_of_ne hi]

/-- What holds of the pool after any sequence of uses. -/
structure PoolInv (p : Pool) : Prop where
  size : p.bufs.length ≤ 4
  ids : ((p.bufs ++ p.held).map Buf.id).Nodup
  old : ∀ b ∈ p.bufs ++ p.held, b.id < p.next
  cap : ∀ b ∈ p.bufs, b.cap ≠ 0

theorem PoolInv.acquire {p : Pool} (i : PoolInv p) (n : Nat) : PoolInv (p.acquire n).1 := by
  unfold Pool.acquire
  split
  · next b hb =>
    have e : p.bufs = p.bufs.dropLast ++ [b] := (List.dropLast_append_getLast? b hb).symm
    refine ⟨?_, ?_, ?_, fun c hc => i.cap c (List.mem_of_mem_dropLast hc)⟩
    · have := i.size; simp; omega
    · have := i.ids; rw [e] at this; simpa using this
    · intro c hc
      refine i.old c ?_
      rw [e]
      simp only [List.mem_append, List.mem_cons, List.mem_singleton] at hc ⊢
      tauto
  · refine ⟨i.size, ?_, ?_, i.cap⟩
    · have h := i.ids
      rw [List.map_append] at h ⊢
      rw [List.map_cons, List.nodup_middle]
      rw [← List.map_append]
      refine List.nodup_cons.2 ⟨?_, by rw [List.map_append]; exact h⟩
      intro hm
      obtain ⟨c, hc, e⟩ := List.mem_map.1 hm
      exact absurd e (i.old c hc).ne
    · intro c hc
      simp only [List.mem_append, List.mem_cons] at hc
      rcases hc with hc | rfl | hc
      · exact Nat.lt_succ_of_lt (i.old c (List.mem_append_left _ hc))
      · exact Nat.lt_succ_self _
      · exact Nat.lt_succ_of_lt (i.old c (List.mem_append_right _ hc))

theorem PoolInv.drop {p : Pool} (i : PoolInv p) (b : Buf) : PoolInv { p with held := p.held.erase b } := by
  refine ⟨i.size, i.ids.sublist (List.Sublist.map _ ((List.erase_sublist).append_left _)), ?_, i.cap⟩
  intro c hc
  refine i.old c ?_
  rcases List.mem_append.1 hc with h | h
  · exact List.mem_append_left _ h
  · exact List.mem_append_right _ (List.mem_of_mem_erase h)

theorem PoolInv.release {p : Pool} (i : PoolInv p) (b : Buf) (hb : b ∈ p.held) : PoolInv (p.release b) := by
  unfold Pool.release
  split_ifs with h0 h4
  · exact i.drop b
  · have pm : (p.bufs ++ [b] ++ p.held.erase b).Perm (p.bufs ++ p.held) := by
      rw [List.append_assoc]
      exact List.Perm.append_left _ (List.perm_cons_erase hb).symm
    refine ⟨by simp; omega, (pm.map _).nodup_iff.2 i.ids, fun c hc => i.old c (pm.mem_iff.1 hc), ?_⟩
    intro c hc
    rcases List.mem_append.1 hc with h | h
    · exact i.cap c h
    · rw [List.mem_singleton.1 h]; exact h0
  · exact i.drop b

theorem pool_inv (ops : List PoolOp) (p : Pool) (i : PoolInv p) : PoolInv (p.run ops) := by
  induction ops generalizing p with
  | nil => exact i
  | cons o ops ih =>
    cases o with
    | acquire n => exact ih _ (i.acquire n)
    | release b =>
      unfold Pool.run
      split_ifs with h
      · exact ih _ (i.release b h)
      · exact ih _ i

theorem PoolInv.init : PoolInv {} := ⟨by simp, by simp, by simp, by simp⟩

/-- C19: after any sequence of uses the pool holds at most four buffers, and no buffer is both in the pool and in use, or
in use twice. -/
theorem C19_pool_bounded (ops : List PoolOp) :
    (Pool.run {} ops).bufs.length ≤ 4 ∧
    (((Pool.run {} ops).bufs ++ (Pool.run {} ops).held).map Buf.id).Nodup :=
  ⟨(pool_inv ops {} .init).size, (pool_inv ops {} .init).ids⟩

/-- A buffer returned to a pool with room is handed out by the next `acquire`: a recycled buffer keeps its memory. -/
theorem C19_released_buffer_reused (ops : List PoolOp) (b : Buf) (n : Nat) (hc : b.cap ≠ 0)
    (hl : (Pool.run {} ops).bufs.length < 4) : ((Pool.run {} ops).release b |>.acquire n).2 = b := by
  simp [Pool.release, hc, hl, Pool.acquire]

example : (Pool.run {} [.acquire 8, .acquire 8, .release ⟨0, 8⟩, .acquire 9, .release ⟨7, 1⟩]) =
    ⟨[], [⟨0, 8⟩, ⟨1, 8⟩], 2⟩ := by decide

end Verif.Rtp
