import Verif.Jpip.Parser
import Verif.Jpip.CacheModelLemmas
/-
Model of the browser client's precinct cache: the store, the cache model it advertises and the least-recently-used list.
Source: /repo/web/src/jpip_wrapper.cpp.
-/
namespace Verif.Jpip

/-- jpip_wrapper.cpp:112 one element of `precinct_lru`.  `nid` is the identity of the list node, which iterators point to. -/
structure Node where
  nid : Nat
  key : Nat
  size : Nat
  deriving DecidableEq, Repr

/-- jpip_wrapper.cpp:48-115 `JpipContext`, the parts that concern the cache.  `str` is `cache_model_str`: `none` if empty, else
the cache model it was formatted from.  `fresh` numbers list nodes.  `bytes` is `uint64_t` in the code; it is the size of data
held in memory, so it does not wrap, and is a natural number here. -/
structure Wrap where
  set : DataBinSet := {}
  cache : CacheModel := {}
  str : Option CacheModel := none
  track : Bool := false
  budget : Nat := 64 * 1024 * 1024
  bytes : Nat := 0
  lru : List Node := []
  idx : Nat → Option Nat := fun _ => none
  fresh : Nat := 0

/-- jpip_wrapper.cpp:123-131 `precinct_lru_remove_one` on the first node. -/
def Wrap.removeFirst (w : Wrap) (n : Node) (rest : List Node) : Wrap :=
  { w with
    bytes := w.bytes - n.size
    idx := fun k => if k = n.key then none else w.idx k
    lru := rest
    cache := w.cache.unmark 0 n.key
    set := (w.set.erase 0 n.key).2 }

/-- jpip_wrapper.cpp:133-138 `precinct_lru_evict_if_over_budget`. -/
def Wrap.evict (w : Wrap) : Wrap :=
  match h : w.lru with
  | [] => w
  | n :: rest => if w.budget < w.bytes then (w.removeFirst n rest).evict else w
termination_by w.lru.length
decreasing_by simp [Wrap.removeFirst, h]

/-- jpip_wrapper.cpp:140-158 `precinct_lru_touch_or_insert`; `none` if an iterator is used that points to no node. -/
def Wrap.touch (w : Wrap) (i bytes : Nat) : Option Wrap :=
  match w.idx i with
  | some nid =>
    match w.lru.find? (fun n => n.nid == nid) with
    | none => none
    | some n =>
      some { w with
        bytes := w.bytes + bytes - n.size
        lru := w.lru.filter (fun n => n.nid != nid) ++ [⟨w.fresh, i, bytes⟩]
        idx := fun k => if k = i then some w.fresh else w.idx k
        fresh := w.fresh + 1 }
  | none =>
    some { w with
      bytes := w.bytes + bytes
      lru := w.lru ++ [⟨w.fresh, i, bytes⟩]
      idx := fun k => if k = i then some w.fresh else w.idx k
      fresh := w.fresh + 1 }

/-- jpip_wrapper.cpp:160-167 `precinct_lru_clear`; the map's keys are those of the list (which is proved). -/
def Wrap.clearLru (w : Wrap) : Wrap :=
  { w with
    cache := w.lru.foldl (fun m n => m.unmark 0 n.key) w.cache
    lru := []
    idx := fun _ => none
    bytes := 0 }

/-- jpip_wrapper.cpp:178-191, one round: `kv` a key of `tmp`; the flag is `any_new`. -/
def ingestOne (tmp : DataBinSet) (s : Wrap × Bool) (kv : Nat × Nat) : Option (Wrap × Bool) :=
  if kv.1 ≠ 0 ∧ kv.1 ≠ 1 then some s
  else if tmp.isComplete kv.1 kv.2 = false then some s
  else if s.1.set.get 0 kv.2 = [] then some s
  else if s.1.cache.has 0 kv.2 then (s.1.touch kv.2 (s.1.set.get 0 kv.2).length).map fun w => (w, s.2)
  else ({ s.1 with cache := s.1.cache.mark 0 kv.2 }.touch kv.2 (s.1.set.get 0 kv.2).length).map fun w => (w, true)

/-- The rounds over all keys. -/
def ingestAll (tmp : DataBinSet) : List (Nat × Nat) → Wrap × Bool → Option (Wrap × Bool)
  | [], s => some s
  | kv :: kvs, s => (ingestOne tmp s kv).bind (ingestAll tmp kvs)

/-- jpip_wrapper.cpp:174-194 `precinct_lru_ingest`; `keys` is `tmp.keys()`. -/
def Wrap.ingest (w : Wrap) (tmp : DataBinSet) (keys : List (Nat × Nat)) : Option (Wrap × Bool) :=
  if w.track = false then some (w, false)
  else (ingestAll tmp keys (w, false)).map fun s => if s.2 then (s.1.evict, true) else (s.1, false)

/-- jpip_wrapper.cpp:359-367, one round: the flag is `cache_changed`. -/
def markOne (tmp : DataBinSet) (s : Wrap × Bool) (kv : Nat × Nat) : Wrap × Bool :=
  if kv.1 = 0 ∨ kv.1 = 1 then s
  else if tmp.isComplete kv.1 kv.2 = false then s
  else if s.1.cache.has kv.1 kv.2 then s
  else ({ s.1 with cache := s.1.cache.mark kv.1 kv.2 }, true)

/-- jpip_wrapper.cpp:347-372 `jpip_add_response` and 400-424 `jpip_feed_stream` after the parser has filled `tmp`. -/
def Wrap.land (w : Wrap) (tmp : DataBinSet) (keys : List (Nat × Nat)) : Option Wrap :=
  let s := keys.foldl (markOne tmp) ({ w with set := w.set.mergeFrom tmp }, false)
  (s.1.ingest tmp keys).map fun r => if s.2 || r.2 then { r.1 with str := none } else r.1

/-- jpip_wrapper.cpp:441-449, one round of the backfill. -/
def backfillOne (w : Wrap) (kv : Nat × Nat) : Option Wrap :=
  if kv.1 ≠ 0 then some w
  else if w.set.isComplete kv.1 kv.2 = false then some w
  else if w.set.get kv.1 kv.2 = [] then some w
  else ({ w with cache := w.cache.mark kv.1 kv.2 }).touch kv.2 (w.set.get kv.1 kv.2).length

/-- The rounds over all keys. -/
def backfillAll : List (Nat × Nat) → Wrap → Option Wrap
  | [], w => some w
  | kv :: kvs, w => (backfillOne w kv).bind (backfillAll kvs)

/-- jpip_wrapper.cpp:430-456 `jpip_track_precincts_in_cache`; `keys` is `ctx->set.keys()`. -/
def Wrap.setTrack (w : Wrap) (want : Bool) (keys : List (Nat × Nat)) : Option Wrap :=
  if want = w.track then some w
  else if want then (backfillAll keys { w with track := true }).map fun w' => { w'.evict with str := none }
  else some { ({ w with track := false }).clearLru with str := none }

/-- jpip_wrapper.cpp:461-474 `jpip_set_precinct_cache_budget`. -/
def Wrap.setBudget (w : Wrap) (budget : Nat) : Wrap :=
  let w1 := { w with budget := budget }
  if w.track then
    let w2 := w1.evict
    if w2.bytes ≠ w.bytes then { w2 with str := none } else w2
  else w1

/-- jpip_wrapper.cpp:303-328 `jpip_reset_cache`; appending the whole of a bin to an empty set copies the bin. -/
def Wrap.reset (w : Wrap) : Wrap :=
  let w1 := { w with set := { bins := fun c i => if c = 0 ∨ c = 1 then none else w.set.bins c i } }
  if w.track ∧ w.lru ≠ [] then { w1.clearLru with str := none } else w1

/-- jpip_wrapper.cpp:275-284 `jpip_get_cache_model`: what is advertised, and the context afterwards. -/
def Wrap.advertise (w : Wrap) : CacheModel × Wrap :=
  match w.str with
  | some m => (m, w)
  | none => (w.cache, { w with str := some w.cache })

/-- jpip_wrapper.cpp:214-243 `jpip_create_context` after the parser has filled `tmp`. -/
def Wrap.create (tmp : DataBinSet) (keys : List (Nat × Nat)) : Wrap :=
  { set := ({} : DataBinSet).mergeFrom tmp
    cache := keys.foldl (fun m kv =>
      if kv.1 = 0 ∨ kv.1 = 1 then m else if tmp.isComplete kv.1 kv.2 then m.mark kv.1 kv.2 else m) {} }

/-- The calls a page can make. -/
inductive WrapOp where
  | land (tmp : DataBinSet) (keys : List (Nat × Nat))
  | setTrack (want : Bool) (keys : List (Nat × Nat))
  | setBudget (budget : Nat)
  | reset
  | advertise

/-- One call. -/
def Wrap.step (w : Wrap) : WrapOp → Option Wrap
  | .land tmp keys => w.land tmp keys
  | .setTrack want keys => w.setTrack want keys
  | .setBudget b => some (w.setBudget b)
  | .reset => some w.reset
  | .advertise => some w.advertise.2

end Verif.Jpip
