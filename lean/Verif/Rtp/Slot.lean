import Verif.Tactics

/-!
# The one-deep mailbox and the buffer pool between threads

Models source/apps/rtp_recv/frame_pipeline.hpp:38-116 `LatestSlot` and frame_handler.hpp:48-80 `BufferPool`.

Threads interleave.  A region guarded by the mutex is one step, with one exception: a consumer in `pop_wait` that finds
its predicate false goes to sleep in a second step, holding the mutex in between, because `stop` and `notify()` are used
without the mutex and may come in between.  Sleeping releases the mutex.  `notify_one` after `push` is a step of its own.
Waking from sleep is possible at any time (spurious wakeups); a woken consumer takes the mutex and looks again.
-/

namespace Verif.Rtp

/-- Where a consumer is in `pop_wait`. -/
inductive CPos where
  /-- outside `pop_wait` -/
  | out
  /-- saw the predicate false, still holds the mutex -/
  | falling
  /-- asleep on the condition variable -/
  | asleep
  /-- woken, about to take the mutex -/
  | woken
deriving DecidableEq

/-- What happened to the slot, oldest first. -/
inductive Ev (α : Type) where
  | put (x : α)
  | got (x : α)
deriving DecidableEq

/-- frame_pipeline.hpp:111-115: the members, plus the positions of the threads (`pos` for the consumers, `owed` for the
calls of `notify_one` that pushes have yet to make), the global stop flag, and a log. -/
structure Slot (α : Type) where
  slot : Option α := none
  evictions : Nat := 0
  stop : Bool := false
  owed : Nat := 0
  pos : Nat → CPos := fun _ => .out
  log : List (Ev α) := []
  /-- items handed back to pushers -/
  evicted : List α := []

/-- The mutex is free: no consumer is between its look and its sleep. -/
def Slot.free {α : Type} (s : Slot α) : Prop := ∀ i, s.pos i ≠ .falling

/-- The steps. -/
inductive SlotStep {α : Type} : Slot α → Slot α → Prop
  /-- frame_pipeline.hpp:60-69 `push`, the locked part -/
  | push (s : Slot α) (x : α) (h : s.free) :
    SlotStep s { s with
      slot := some x
      evictions := s.evictions + s.slot.toList.length
      evicted := s.evicted ++ s.slot.toList
      owed := s.owed + 1
      log := s.log ++ [.put x] }
  /-- frame_pipeline.hpp:70 `notify_one`: wakes one sleeper -/
  | notifyOne (s : Slot α) (i : Nat) (h : 0 < s.owed) (hi : s.pos i = .asleep) :
    SlotStep s { s with owed := s.owed - 1, pos := Function.update s.pos i .woken }
  /-- `notify_one` when nobody sleeps -/
  | notifyNone (s : Slot α) (h : 0 < s.owed) (hn : ∀ i, s.pos i ≠ .asleep) : SlotStep s { s with owed := s.owed - 1 }
  /-- frame_pipeline.hpp:80-87 `pop_wait` finds an item, on entry or when woken -/
  | waitTake (s : Slot α) (i : Nat) (x : α) (h : s.free) (hi : s.pos i = .out ∨ s.pos i = .woken) (hx : s.slot = some x) :
    SlotStep s { s with slot := none, pos := Function.update s.pos i .out, log := s.log ++ [.got x] }
  /-- `pop_wait` finds no item but the stop flag -/
  | waitStop (s : Slot α) (i : Nat) (h : s.free) (hi : s.pos i = .out ∨ s.pos i = .woken) (hx : s.slot = none)
    (hs : s.stop = true) : SlotStep s { s with pos := Function.update s.pos i .out }
  /-- `pop_wait` finds neither -/
  | waitFall (s : Slot α) (i : Nat) (h : s.free) (hi : s.pos i = .out ∨ s.pos i = .woken) (hx : s.slot = none)
    (hs : s.stop = false) : SlotStep s { s with pos := Function.update s.pos i .falling }
  /-- it goes to sleep and releases the mutex -/
  | sleep (s : Slot α) (i : Nat) (hi : s.pos i = .falling) : SlotStep s { s with pos := Function.update s.pos i .asleep }
  /-- spurious wakeup -/
  | spurious (s : Slot α) (i : Nat) (hi : s.pos i = .asleep) : SlotStep s { s with pos := Function.update s.pos i .woken }
  /-- frame_pipeline.hpp:92-98 `try_pop` with an item (without one it changes nothing) -/
  | tryPop (s : Slot α) (x : α) (h : s.free) (hx : s.slot = some x) :
    SlotStep s { s with slot := none, log := s.log ++ [.got x] }
  /-- pipeline_multi_threaded.cpp:542: the stop flag, set without the mutex -/
  | setStop (s : Slot α) : SlotStep s { s with stop := true }
  /-- frame_pipeline.hpp:102 `notify`: wakes all sleepers, without the mutex -/
  | notifyAll (s : Slot α) :
    SlotStep s { s with pos := fun i => if s.pos i = .asleep then .woken else s.pos i }

/-- Reachable states. -/
inductive Reach {α : Type} : Slot α → Prop
  | init : Reach {}
  | step {s t : Slot α} : Reach s → SlotStep s t → Reach t

/-- A byte buffer: which allocation it is and its capacity. -/
structure Buf where
  id : Nat
  cap : Nat
deriving DecidableEq

/-- frame_handler.hpp:77-79: the pooled buffers; `held` are the buffers in use outside, `next` names fresh ones. -/
structure Pool where
  bufs : List Buf := []
  held : List Buf := []
  next : Nat := 0
deriving DecidableEq

/-- frame_handler.hpp:53-66 `acquire`; a fresh vector has the capacity asked for. -/
def Pool.acquire (p : Pool) (hint : Nat) : Pool × Buf :=
  match p.bufs.getLast? with
  | some b => ({ p with bufs := p.bufs.dropLast, held := b :: p.held }, b)
  | none => ({ p with held := ⟨p.next, hint⟩ :: p.held, next := p.next + 1 }, ⟨p.next, hint⟩)

/-- frame_handler.hpp:70-74 `release` of a buffer in use; a buffer not kept is freed. -/
def Pool.release (p : Pool) (b : Buf) : Pool :=
  if b.cap = 0 then { p with held := p.held.erase b }
  else if p.bufs.length < 4 then { p with bufs := p.bufs ++ [b], held := p.held.erase b }
  else { p with held := p.held.erase b }

/-- One use of the pool by some thread; each call holds the mutex. -/
inductive PoolOp where
  | acquire (hint : Nat)
  | release (b : Buf)

/-- Releasing a buffer one does not hold is impossible: buffers are moved. -/
def Pool.run : Pool → List PoolOp → Pool
  | p, [] => p
  | p, .acquire n :: ops => (p.acquire n).1.run ops
  | p, .release b :: ops => if b ∈ p.held then (p.release b).run ops else p.run ops

end Verif.Rtp
