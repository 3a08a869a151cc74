import Verif.Tactics

/-!
# The thread pool

Models source/core/common/ThreadPool.hpp.  Tasks are opaque.  A region guarded by `tasks_mutex` is one step; a worker
whose predicate is false goes to sleep in a second step and holds the mutex in between.  Notifications are steps of their
own.  Invoking a task is one step: what tasks do is not modelled, and in particular a task that never ends is not.
`size_t` indices are natural numbers: the ring size divides 2^64, so wrapping would not change slots or differences.
-/

namespace Verif.Threads

/-- ThreadPool.hpp:320 `RING_CAP`. -/
def ringCap : Nat := 32768

/-- ThreadPool.hpp:313 `BATCH`. -/
def batchMax : Nat := 4

/-- ThreadPool.hpp:386-388: the ring; `none` is an empty `InlineTask`, which must not be invoked. -/
structure Ring (τ : Type) where
  slots : Nat → Option τ := fun _ => none
  head : Nat := 0
  tail : Nat := 0

variable {τ : Type}

/-- ThreadPool.hpp:324 `ring_size_`. -/
def Ring.size (r : Ring τ) : Nat := r.tail - r.head

/-- ThreadPool.hpp:323 `ring_empty_`. -/
def Ring.isEmpty (r : Ring τ) : Bool := r.head == r.tail

/-- ThreadPool.hpp:306-307 and 228-229: store at the tail.  `ring_tail_ & RING_MASK` is the remainder. -/
def Ring.put (r : Ring τ) (t : τ) : Ring τ :=
  { r with slots := Function.update r.slots (r.tail % ringCap) (some t), tail := r.tail + 1 }

/-- ThreadPool.hpp:262-263 and 349-350: move out of the head. -/
def Ring.get (r : Ring τ) : Ring τ × Option τ :=
  ({ r with slots := Function.update r.slots (r.head % ringCap) none, head := r.head + 1 }, r.slots (r.head % ringCap))

/-- ThreadPool.hpp:223-230: the loop of `push_batch`; `false` when it throws, with what was stored before kept. -/
def Ring.putAll : Ring τ → List τ → Ring τ × Bool
  | r, [] => (r, true)
  | r, t :: ts => if ringCap ≤ r.size then (r, false) else (r.put t).putAll ts

/-- ThreadPool.hpp:347-351: the drain loop with `k` places left in `batch`. -/
def Ring.drain : Nat → Ring τ → Ring τ × List (Option τ)
  | 0, r => (r, [])
  | k + 1, r =>
    if r.isEmpty then (r, [])
    else
      let d := Ring.drain k r.get.1
      (d.1, r.get.2 :: d.2)

/-- Where a worker is. -/
inductive WPos (τ : Type) where
  /-- about to take the mutex and look -/
  | look
  /-- found nothing to do, still holds the mutex -/
  | falling
  /-- asleep on the condition variable -/
  | asleep
  /-- has tasks in `batch` -/
  | running (batch : List (Option τ))
  /-- returned from `worker` -/
  | exited

/-- A sleeper is woken. -/
def WPos.wake {τ : Type} : WPos τ → WPos τ
  | .asleep => .look
  | p => p

/-- The pool with `n` workers.  `owed` and `owedAll` are notifications still to be made by pushers and by the destructor;
`outside` are tasks taken by `try_run_one` but not yet invoked; the other lists are logs. -/
structure Pool (τ : Type) (n : Nat) where
  ring : Ring τ := {}
  stop : Bool := false
  owed : Nat := 0
  owedAll : Bool := false
  pos : Fin n → WPos τ := fun _ => .look
  outside : List (Option τ) := []
  /-- stored in the ring, in order -/
  accepted : List τ := []
  /-- taken from the ring, in order -/
  taken : List (Option τ) := []
  /-- invoked, in order -/
  started : List (Option τ) := []
  /-- some `push_batch` threw because the ring was full -/
  overflowed : Bool := false

variable {n : Nat}

/-- The mutex is free. -/
def Pool.free (s : Pool τ n) : Prop := ∀ i, s.pos i ≠ .falling

/-- Steps of the workers, notifications on their way, and invocations of tasks already taken. -/
inductive Own : Pool τ n → Pool τ n → Prop
  /-- ThreadPool.hpp:341-352: the predicate holds and there are tasks -/
  | take (s : Pool τ n) (i : Fin n) (hf : s.free) (hi : s.pos i = .look) (he : s.ring.isEmpty = false) :
    Own s { s with
      ring := (s.ring.drain batchMax).1
      pos := Function.update s.pos i (.running (s.ring.drain batchMax).2)
      taken := s.taken ++ (s.ring.drain batchMax).2 }
  /-- ThreadPool.hpp:343-345: stopped and nothing left -/
  | exit (s : Pool τ n) (i : Fin n) (hf : s.free) (hi : s.pos i = .look) (he : s.ring.isEmpty = true)
    (hs : s.stop = true) : Own s { s with pos := Function.update s.pos i .exited }
  /-- ThreadPool.hpp:341: the predicate is false -/
  | fall (s : Pool τ n) (i : Fin n) (hf : s.free) (hi : s.pos i = .look) (he : s.ring.isEmpty = true)
    (hs : s.stop = false) : Own s { s with pos := Function.update s.pos i .falling }
  /-- it sleeps and releases the mutex -/
  | sleep (s : Pool τ n) (i : Fin n) (hi : s.pos i = .falling) : Own s { s with pos := Function.update s.pos i .asleep }
  /-- ThreadPool.hpp:354-356: invoke the next task of the batch -/
  | invoke (s : Pool τ n) (i : Fin n) (t : Option τ) (ts : List (Option τ)) (hi : s.pos i = .running (t :: ts)) :
    Own s { s with pos := Function.update s.pos i (.running ts), started := s.started ++ [t] }
  /-- ThreadPool.hpp:357: back to the start of the loop -/
  | loop (s : Pool τ n) (i : Fin n) (hi : s.pos i = .running []) : Own s { s with pos := Function.update s.pos i .look }
  /-- ThreadPool.hpp:310 and 237: `notify_one` wakes one sleeper -/
  | notifyOne (s : Pool τ n) (i : Fin n) (ho : 0 < s.owed) (hi : s.pos i = .asleep) :
    Own s { s with owed := s.owed - 1, pos := Function.update s.pos i .look }
  /-- `notify_one` when nobody sleeps -/
  | notifyNone (s : Pool τ n) (ho : 0 < s.owed) (hn : ∀ i, s.pos i ≠ .asleep) : Own s { s with owed := s.owed - 1 }
  /-- ThreadPool.hpp:149 `notify_all` -/
  | notifyAll (s : Pool τ n) (ho : s.owedAll = true) :
    Own s { s with owedAll := false, pos := fun i => (s.pos i).wake }
  /-- ThreadPool.hpp:265: `try_run_one` invokes its task -/
  | invokeOutside (s : Pool τ n) (a b : List (Option τ)) (t : Option τ) (ho : s.outside = a ++ t :: b) :
    Own s { s with outside := a ++ b, started := s.started ++ [t] }

/-- Steps begun by other threads, and spurious wakeups.  A call that throws without a change is no step. -/
inductive Other : Pool τ n → Pool τ n → Prop
  /-- ThreadPool.hpp:294-308 `push_task` -/
  | push (s : Pool τ n) (t : τ) (hf : s.free) (hs : s.stop = false) (hr : s.ring.size < ringCap) :
    Other s { s with ring := s.ring.put t, accepted := s.accepted ++ [t], owed := s.owed + 1 }
  /-- ThreadPool.hpp:215-238 `push_batch`, all stored -/
  | batch (s : Pool τ n) (ts : List τ) (hn : ts ≠ []) (hf : s.free) (hs : s.stop = false)
    (hr : (s.ring.putAll ts).2 = true) :
    Other s { s with
      ring := (s.ring.putAll ts).1
      accepted := s.accepted ++ ts
      owed := s.owed + min ((ts.length + batchMax - 1) / batchMax) n }
  /-- ThreadPool.hpp:224-227: `push_batch` throws; what was stored stays and nobody is notified -/
  | overflow (s : Pool τ n) (ts : List τ) (hf : s.free) (hs : s.stop = false) (hr : (s.ring.putAll ts).2 = false) :
    Other s { s with
      ring := (s.ring.putAll ts).1
      accepted := s.accepted ++ ts.take ((s.ring.putAll ts).1.tail - s.ring.tail)
      overflowed := true }
  /-- ThreadPool.hpp:257-264 `try_run_one` gets a task -/
  | tryRun (s : Pool τ n) (hf : s.free) (he : s.ring.isEmpty = false) :
    Other s { s with ring := s.ring.get.1, taken := s.taken ++ [s.ring.get.2], outside := s.outside ++ [s.ring.get.2] }
  /-- ThreadPool.hpp:142-146: the destructor, once -/
  | shutdown (s : Pool τ n) (hf : s.free) (hs : s.stop = false) : Other s { s with stop := true, owedAll := true }
  /-- spurious wakeup -/
  | spurious (s : Pool τ n) (i : Fin n) (hi : s.pos i = .asleep) : Other s { s with pos := Function.update s.pos i .look }

/-- Any step. -/
def Step (s t : Pool τ n) : Prop := Own s t ∨ Other s t

/-- Reachable states of a pool with `n` workers. -/
inductive Reach : Pool τ n → Prop
  | init : Reach {}
  | step {s t : Pool τ n} : Reach s → Step s t → Reach t

/-- ThreadPool.hpp:151-153: the destructor has joined every worker. -/
def Pool.joined (s : Pool τ n) : Prop := s.stop = true ∧ ∀ i, s.pos i = .exited

end Verif.Threads
