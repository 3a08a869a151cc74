import Verif.Jpip.Emitter
/-
Model of the server's channel table.
Source: /repo/source/core/jpip/channel_manager.cpp, channel_manager.hpp.
-/
namespace Verif.Jpip

/-- channel_manager.hpp:96-99 `struct Channel`, together with its key in `channels_`. -/
structure Channel where
  cid : List Char
  model : CacheModel := {}
  lastUsed : Nat := 0

/-- channel_manager.hpp:101-105.  `std::unordered_map` is a list of entries in iteration order; the order is
unspecified and may change at any time (`Exec` below permutes it freely before every call).
The mutex makes every call atomic. -/
structure ChannelTable where
  channels : List Channel := []
  nextCid : Nat := 1
  useClock : Nat := 0

/-- `std::snprintf(buf, 32, "JPH%llu", n)`: at most 3 + 20 characters, so never truncated. -/
def cidOf (n : Nat) : List Char := 'J' :: 'P' :: 'H' :: decStr n

/-- channel_manager.cpp:28-31: the scan for the victim; `v` is the current `victim`. -/
def scanVictim (v : Channel) : List Channel → Channel
  | [] => v
  | c :: cs => scanVictim (if c.lastUsed < v.lastUsed then c else v) cs

/-- Calls of the public interface. -/
inductive ChanOp where
  | openCh
  | snapshot (cid : List Char)
  | commit (cid : List Char) (sent : List (Nat × Nat × Nat × Bool))
  | applyModel (cid : List Char) (model : List Char)
  | close (cid : List Char)

/-- What a call returns. -/
inductive ChanOut where
  | cid (c : List Char)
  | model (m : Option CacheModel)
  | unit
  | flag (b : Bool)

/-- `it->second.last_used = ++use_clock_` and an update of the model, for the entry `cid`. -/
def updChannel (chs : List Channel) (cid : List Char) (clock : Nat) (f : CacheModel → CacheModel) : List Channel :=
  chs.map fun c => if c.cid = cid then { c with lastUsed := clock, model := f c.model } else c

/-- `++use_clock_` (64 bits). -/
def tick (t : ChannelTable) : Nat := (t.useClock + 1) % 2 ^ 64

/-- channel_manager.cpp:25-39 `open`: `none` is undefined behaviour (`erase(end())` when `max_channels == 0`
and the table is empty). -/
def openChannel (max : Nat) (t : ChannelTable) : Option (ChannelTable × List Char) :=
  let cid := cidOf t.nextCid
  let add (chs : List Channel) : ChannelTable :=
    { channels := { cid := cid, lastUsed := tick t } :: chs.filter (·.cid ≠ cid)
      nextCid := (t.nextCid + 1) % 2 ^ 64
      useClock := tick t }
  if t.channels.length ≥ max then
    match t.channels with
    | [] => none
    | c :: cs =>
      let victim := scanVictim c (c :: cs)
      some (add (t.channels.filter (·.cid ≠ victim.cid)), cid)
  else some (add t.channels, cid)

/-- One call.  channel_manager.cpp:41-80 for everything but `open`. -/
def chanStep (max : Nat) (t : ChannelTable) : ChanOp → Option (ChannelTable × ChanOut)
  | .openCh => (openChannel max t).map fun (t', c) => (t', .cid c)
  | .snapshot cid =>
    match t.channels.find? (·.cid = cid) with
    | none => some (t, .model none)
    | some ch => some ({ t with channels := updChannel t.channels cid (tick t) id, useClock := tick t },
        .model (some ch.model))
  | .commit cid sent =>
    match t.channels.find? (·.cid = cid) with
    | none => some (t, .unit)
    | some _ => some ({ t with channels := updChannel t.channels cid (tick t) (·.commit sent), useClock := tick t },
        .unit)
  | .applyModel cid s =>
    match t.channels.find? (·.cid = cid) with
    | none => some (t, .flag false)
    | some _ => some ({ t with channels := updChannel t.channels cid (tick t) (·.apply s), useClock := tick t },
        .flag true)
  | .close cid =>
    some ({ t with channels := t.channels.filter (·.cid ≠ cid) }, .flag (t.channels.any (·.cid = cid)))

/-- Executions: before every call the iteration order of the map may have changed arbitrarily. -/
inductive ChanExec (max : Nat) : ChannelTable → List (ChanOp × ChanOut) → ChannelTable → Prop where
  | nil (t) : ChanExec max t [] t
  | cons {t t' t'' : ChannelTable} {op out chs tr} : chs.Perm t.channels →
      chanStep max { t with channels := chs } op = some (t', out) → ChanExec max t' tr t'' →
      ChanExec max t ((op, out) :: tr) t''

/-- channel_manager.cpp:11-23: the trimming loops. -/
def trimBlanks (s : List Char) : List Char :=
  let blank (c : Char) : Bool := c = ' ' || c = '\t'
  ((s.dropWhile blank).reverse.dropWhile blank).reverse

/-- channel_manager.cpp:11-23 `negotiate_transport` (the empty string is `none`). -/
def negotiateTransport (s : List Char) : Option (List Char) :=
  (splitCommas s).findSome? fun tok => if trimBlanks tok = "http".toList then some "http".toList else none

end Verif.Jpip
