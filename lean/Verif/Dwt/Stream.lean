import Verif.Dwt.Filter

/-!
# Streaming vertical transforms

Models `fdwt_2d_state` (fdwt.cpp:758-1243) and `idwt_2d_state` (dwt.hpp:536-740, idwt.cpp:1219-1618), which lift
rows in a ring buffer as they arrive.  Both directions share the ring bookkeeping (`rptr`, `get_dl`, `set_dl`,
`fill_pse`), which the code has twice; it is modelled once, with the constants of each direction.

* A row is an arbitrary value of type `α`; the horizontal part of the transform is in `Verif/Dwt/Filter.lean`.
* Buffers are partial functions on slot numbers: `none` is an unallocated or never written slot, and reading it
  makes the whole function return `none`.
* Loops that need not end have a fuel argument; running out of fuel is the outcome `none`.
* Coordinates are mathematical integers; `v0` is assumed nonnegative in the theorems.
-/

namespace Verif.Dwt.Stream

/-- What `fdwt_2d_state_init`/`idwt_2d_state_init` fix: direction, filter, vertical extent, the treatment of a
single row at an odd coordinate (5/3 only, the identity otherwise), the all-zero test of `row_all_zero` and
`row_lo`.  The forward direction has no zero flags: there `zeroTest` is constantly `false`. -/
structure Cfg (α : Type) where
  forward : Bool
  flt : Filter α
  v0 : Int
  v1 : Int
  single : α → α
  zeroTest : α → Bool
  rowLo : Int

/-- The variable part of the state.  The index of the PSE buffers counts away from the data, as in the code.
`asked` is a ghost field: the rows requested from the source callback, in order. -/
structure St (α : Type) where
  ring : Int → Option α
  dLevel : Int → Int
  ringZero : Int → Bool
  topBuf : Int → Option α
  topDl : Int → Int
  topZero : Int → Bool
  botBuf : Int → Option α
  botDl : Int → Int
  botZero : Int → Bool
  origin : Int
  nextIn : Int
  nextOut : Int
  asked : List Int

variable {α : Type}

/-- dwt.hpp:555 `IDWT_STATE_RING_DEPTH`, 769 `FDWT_STATE_RING_DEPTH`. -/
def Cfg.depth (c : Cfg α) : Int := if c.forward then 12 else 8

/-- fdwt.cpp:776, idwt.cpp:1240 `max_dl`. -/
def Cfg.maxDl (c : Cfg α) : Int :=
  match c.flt with
  | .two _ _ => 1
  | .four _ _ _ _ => 2

/-- fdwt.cpp:763-764 `kPseFdwtTop`, idwt.cpp:1236 `kPseTop`. -/
def Cfg.topPse (c : Cfg α) : Int :=
  match c.forward, c.flt with
  | true, .four _ _ _ _ => if c.v0 % 2 = 0 then 4 else 3
  | true, .two _ _ => if c.v0 % 2 = 0 then 2 else 1
  | false, .four _ _ _ _ => if c.v0 % 2 = 0 then 3 else 4
  | false, .two _ _ => if c.v0 % 2 = 0 then 1 else 2

/-- fdwt.cpp:765 `kPseFdwtBot`, idwt.cpp:1237 `kPseBot`. -/
def Cfg.botPse (c : Cfg α) : Int :=
  match c.forward, c.flt with
  | true, .four _ _ _ _ => if c.v1 % 2 = 0 then 3 else 4
  | true, .two _ _ => if c.v1 % 2 = 0 then 1 else 2
  | false, .four _ _ _ _ => if c.v1 % 2 = 0 then 4 else 3
  | false, .two _ _ => if c.v1 % 2 = 0 then 2 else 1

/-- fdwt.cpp:836-870, idwt.cpp:1290-1318: the step applied to row `r` at level `cur`. -/
def Cfg.step (c : Cfg α) (r cur : Int) : Step α :=
  match c.forward, c.flt with
  | true, .four fa fb fc fd => if r % 2 = 0 then (if cur = 0 then fb else fd) else (if cur = 0 then fa else fc)
  | true, .two hp lp => if r % 2 = 0 then lp else hp
  | false, .four fa fb fc fd => if r % 2 = 0 then (if cur = 0 then fd else fb) else (if cur = 0 then fc else fa)
  | false, .two hp lp => if r % 2 = 0 then lp else hp

/-- fdwt.cpp:779-781 `pse_src_fdwt`, dwt.hpp:737-739 `idwt_pse_source`. -/
def Cfg.pseSrc (c : Cfg α) (p : Int) : Option Int := (pseo p c.v0 c.v1).map (c.v0 + ·)

/-- fdwt.cpp:784-791 `rptr_f`, dwt.hpp:690-699 `idwt_rptr`: the contents of the row buffer for row `r`. -/
def rd (c : Cfg α) (s : St α) (r : Int) : Option α :=
  if c.v0 ≤ r ∧ r < c.v1 then s.ring (r % c.depth)
  else if r < c.v0 then s.topBuf (c.v0 - 1 - r)
  else s.botBuf (r - c.v1)

/-- A write through the pointer of `rd`. -/
def wr (c : Cfg α) (s : St α) (r : Int) (x : α) : St α :=
  if c.v0 ≤ r ∧ r < c.v1 then { s with ring := Function.update s.ring (r % c.depth) (some x) }
  else if r < c.v0 then { s with topBuf := Function.update s.topBuf (c.v0 - 1 - r) (some x) }
  else { s with botBuf := Function.update s.botBuf (r - c.v1) (some x) }

/-- fdwt.cpp:793-801 `get_dl_f`, dwt.hpp:702-710 `idwt_get_dl`. -/
def getDl (c : Cfg α) (s : St α) (r : Int) : Int :=
  if c.v0 ≤ r ∧ r < c.v1 then
    if r < s.origin ∨ s.origin + c.depth ≤ r then -1 else s.dLevel (r % c.depth)
  else if c.v0 - c.topPse ≤ r ∧ r < c.v0 then s.topDl (c.v0 - 1 - r)
  else if c.v1 ≤ r ∧ r < c.v1 + c.botPse then s.botDl (r - c.v1)
  else -1

/-- fdwt.cpp:803-809 `set_dl_f`, dwt.hpp:713-720 `idwt_set_dl`. -/
def setDl (c : Cfg α) (s : St α) (r lv : Int) : St α :=
  if c.v0 ≤ r ∧ r < c.v1 then { s with dLevel := Function.update s.dLevel (r % c.depth) lv }
  else if c.v0 - c.topPse ≤ r ∧ r < c.v0 then { s with topDl := Function.update s.topDl (c.v0 - 1 - r) lv }
  else if c.v1 ≤ r ∧ r < c.v1 + c.botPse then { s with botDl := Function.update s.botDl (r - c.v1) lv }
  else s

/-- dwt.hpp:723-728 `idwt_is_zero`. -/
def isZero (c : Cfg α) (s : St α) (r : Int) : Bool :=
  if c.v0 ≤ r ∧ r < c.v1 then s.ringZero (r % c.depth)
  else if c.v0 - c.topPse ≤ r ∧ r < c.v0 then s.topZero (c.v0 - 1 - r)
  else if c.v1 ≤ r ∧ r < c.v1 + c.botPse then s.botZero (r - c.v1)
  else true

/-- dwt.hpp:730-734 `idwt_set_zero`. -/
def setZero (c : Cfg α) (s : St α) (r : Int) (z : Bool) : St α :=
  if c.v0 ≤ r ∧ r < c.v1 then { s with ringZero := Function.update s.ringZero (r % c.depth) z }
  else if c.v0 - c.topPse ≤ r ∧ r < c.v0 then { s with topZero := Function.update s.topZero (c.v0 - 1 - r) z }
  else if c.v1 ≤ r ∧ r < c.v1 + c.botPse then { s with botZero := Function.update s.botZero (r - c.v1) z }
  else s

/-- fdwt.cpp:836-872 `adv_step_f`, idwt.cpp:1276-1321 `adv_step`: one lifting step on row `r`, skipped when both
neighbours are known to be zero (inverse only; see `Cfg`).  The column window of the inverse is not modelled: the
whole row is lifted. -/
def advStep (c : Cfg α) (s : St α) (r cur : Int) : Option (St α) :=
  if isZero c s (r - 1) && isZero c s (r + 1) then some (setDl c s r (cur + 1))
  else
    (rd c s (r - 1)).bind fun p => (rd c s (r + 1)).bind fun q => (rd c s r).map fun t =>
      setDl c (wr c (setZero c s r false) r (c.step r cur p q t)) r (cur + 1)

/-- fdwt.cpp:875-892 `fill_pse_f`, idwt.cpp:1324-1342 `fill_pse`: copy row `r`, just stored, to the PSE slots
that mirror it.  Every iteration of the two loops concerns its own slot, so they are written as one update. -/
def fillPse (c : Cfg α) (s : St α) (r : Int) : Option (St α) :=
  (rd c s r).map fun x =>
    let z := isZero c s r
    let top := fun (i d : Int) => decide (0 ≤ i ∧ i < c.topPse ∧ d < 0 ∧ c.pseSrc (c.v0 - (i + 1)) = some r)
    let bot := fun (i d : Int) => decide (0 ≤ i ∧ i < c.botPse ∧ d < 0 ∧ c.pseSrc (c.v1 + i) = some r)
    { s with
      topBuf := fun i => if top i (s.topDl i) then some x else s.topBuf i
      topDl := fun i => let d := s.topDl i; if top i d then 0 else d
      topZero := fun i => if top i (s.topDl i) then z else s.topZero i
      botBuf := fun i => if bot i (s.botDl i) then some x else s.botBuf i
      botDl := fun i => let d := s.botDl i; if bot i d then 0 else d
      botZero := fun i => if bot i (s.botDl i) then z else s.botZero i }

/-- The bounds of the scan, fdwt.cpp:911-917, idwt.cpp:1362-1367. -/
def scanLo (c : Cfg α) (s : St α) : Int :=
  let margin := c.topPse + c.maxDl * 2 + 2
  let full := c.v0 - c.topPse
  if s.origin - margin > full then s.origin - margin else full

@[inherit_doc scanLo]
def scanHi (c : Cfg α) (s : St α) : Int := if s.nextIn < c.v1 then s.nextIn + c.botPse else c.v1 + c.botPse

/-- One pass `for (r = first; r < hi; r += 2)` over rows that are at level `cur` and whose neighbours are at
level `need` or higher. -/
def phase (c : Cfg α) (cur need : Int) : Nat → Int → St α → Option (St α)
  | 0, _, s => some s
  | n + 1, r, s =>
    (if getDl c s r = cur ∧ getDl c s (r - 1) ≥ need ∧ getDl c s (r + 1) ≥ need then advStep c s r cur
      else some s).bind (phase c cur need n (r + 2))

/-- A pass over the rows of one parity between the bounds of the scan. -/
def phaseAll (c : Cfg α) (parity cur need : Int) (s : St α) : Option (St α) :=
  let lo := scanLo c s
  let first := if lo % 2 = parity then lo else lo + 1
  phase c cur need ((scanHi c s - first + 1) / 2).toNat first s

/-- fdwt.cpp:813-834 `needed_neighbor_dl_f`, `can_adv_f`, for the 9/7. -/
def canAdv (c : Cfg α) (s : St α) (r : Int) : Bool :=
  let cur := getDl c s r
  if cur < 0 ∨ c.maxDl ≤ cur then false
  else
    let need := if r % 2 ≠ 0 then (if cur = 0 then 0 else 1) else (if cur = 0 then 1 else 2)
    decide (getDl c s (r - 1) ≥ need ∧ getDl c s (r + 1) ≥ need)

/-- One scan of the forward 9/7 cascade, `for (r = lo; r < hi; ++r)`; the flag is `progress`. -/
def scan (c : Cfg α) : Nat → Int → St α → Bool → Option (St α × Bool)
  | 0, _, s, p => some (s, p)
  | n + 1, r, s, p =>
    if canAdv c s r then (advStep c s r (getDl c s r)).bind fun s' => scan c n (r + 1) s' true
    else scan c n (r + 1) s p

/-- `while (progress)`; fdwt.cpp:931-939. -/
def scanAll (c : Cfg α) : Nat → St α → Option (St α)
  | 0, _ => none
  | fuel + 1, s =>
    (scan c (scanHi c s - scanLo c s).toNat (scanLo c s) s false).bind fun r =>
      if r.2 then scanAll c fuel r.1 else some r.1

/-- fdwt.cpp:910-942 `cascade_f`, idwt.cpp:1358-1418 `cascade`.  The fuel of the 9/7 loop is an upper bound of
the number of steps that can be made; the theorems show that it never runs out. -/
def cascade (c : Cfg α) (s : St α) : Option (St α) :=
  match c.forward, c.flt with
  | true, .two _ _ => (phaseAll c 1 0 0 s).bind (phaseAll c 0 0 1)
  | true, .four _ _ _ _ => scanAll c (3 * (scanHi c s - scanLo c s).toNat + 1) s
  | false, .two _ _ => (phaseAll c 0 0 0 s).bind (phaseAll c 1 0 1)
  | false, .four _ _ _ _ =>
    (phaseAll c 0 0 0 s).bind fun s => (phaseAll c 1 0 1 s).bind fun s =>
      (phaseAll c 0 1 1 s).bind (phaseAll c 1 1 2)

/-- Give up the oldest ring slot. -/
def evict (c : Cfg α) (s : St α) : St α :=
  { s with dLevel := Function.update s.dLevel (s.origin % c.depth) (-1), origin := s.origin + 1 }

/-! ## Forward direction -/

/-- fdwt.cpp:1063-1069: reclaim slots four rows behind. -/
def reclaim (c : Cfg α) : Nat → St α → Option (St α)
  | 0, _ => none
  | fuel + 1, s =>
    if s.origin < s.nextOut - 4 ∧ getDl c s s.origin ≥ c.maxDl then reclaim c fuel (evict c s) else some s

/-- fdwt.cpp:945-1071 `emit_ready_f`: the rows handed to the horizontal filter and the sink, with their
coordinates. -/
def emitReady (c : Cfg α) : Nat → St α → Option (St α × List (Int × α))
  | 0, _ => none
  | fuel + 1, s =>
    if s.nextOut < c.v1 ∧ getDl c s s.nextOut ≥ c.maxDl then
      (rd c s s.nextOut).bind fun x =>
        (reclaim c (s.nextOut - s.origin + 2).toNat { s with nextOut := s.nextOut + 1 }).bind fun s' =>
          (emitReady c fuel s').map fun o => (o.1, (s.nextOut, x) :: o.2)
    else some (s, [])

/-- Store a row at `nextIn` (fdwt.cpp:1163-1170, idwt.cpp:1440-1467). -/
def store (c : Cfg α) (s : St α) (x : α) (z : Bool) : St α :=
  let slot := s.nextIn % c.depth
  { s with
    ring := Function.update s.ring slot (some x)
    dLevel := Function.update s.dLevel slot 0
    ringZero := Function.update s.ringZero slot z
    nextIn := s.nextIn + 1 }

/-- fdwt.cpp:1150-1174 `fdwt_2d_state_push_row`. -/
def pushRow (c : Cfg α) (s : St α) (x : α) : Option (St α × List (Int × α)) :=
  if s.nextIn ≥ c.v1 then some (s, [])
  else if c.v1 = c.v0 + 1 then
    some ({ s with ring := Function.update s.ring (s.nextIn % c.depth) (some x), nextIn := s.nextIn + 1 }, [])
  else
    (fillPse c (store c s x (c.zeroTest x)) s.nextIn).bind fun s =>
      (cascade c s).bind fun s => emitReady c (c.v1 - s.nextOut + 1).toNat s

/-- The loop at fdwt.cpp:1231-1240 over the bottom PSE slots not filled yet. -/
def fillLate (c : Cfg α) : Nat → Int → St α → Option (St α)
  | 0, _, s => some s
  | n + 1, i, s =>
    if s.botDl i < 0 then
      (c.pseSrc (c.v1 + i)).bind fun r =>
        (if s.origin ≤ r ∧ r < s.origin + c.depth ∧ getDl c s r ≥ 0 then fillPse c s r else some s).bind
          (fillLate c n (i + 1))
    else fillLate c n (i + 1) s

/-- fdwt.cpp:1176-1243 `fdwt_2d_state_flush`. -/
def flush (c : Cfg α) (s : St α) : Option (St α × List (Int × α)) :=
  if c.v1 = c.v0 + 1 ∧ s.nextIn = c.v0 + 1 ∧ s.nextOut = c.v0 then
    (s.ring (c.v0 % c.depth)).map fun x =>
      ({ s with nextOut := s.nextOut + 1 }, [(c.v0, if c.v0 % 2 ≠ 0 then c.single x else x)])
  else
    (fillLate c c.botPse.toNat 0 s).bind fun s =>
      (cascade c s).bind fun s => emitReady c (c.v1 - s.nextOut + 1).toNat s

/-- Push rows one after the other. -/
def pushAll (c : Cfg α) : St α → List α → Option (St α × List (Int × α))
  | s, [] => some (s, [])
  | s, x :: l =>
    (pushRow c s x).bind fun r => (pushAll c r.1 l).map fun t => (t.1, r.2 ++ t.2)

/-- A whole tile: all rows pushed, then the flush. -/
def runForward (c : Cfg α) (s : St α) (rows : List α) : Option (List (Int × α)) :=
  (pushAll c s rows).bind fun r => (flush c r.1).map fun t => r.2 ++ t.2

/-! ## Inverse direction -/

/-- idwt.cpp:1428-1432: `while (r >= ring_origin + DEPTH) { if (ring_origin >= next_out) break; … }`. -/
def makeRoom (c : Cfg α) : Nat → St α → Option (St α)
  | 0, _ => none
  | fuel + 1, s =>
    if s.nextIn ≥ s.origin + c.depth ∧ s.origin < s.nextOut then makeRoom c fuel (evict c s) else some s

/-- idwt.cpp:1423-1470 `fetch_one`; `src` is the source callback. -/
def fetchOne (c : Cfg α) (src : Int → α) (s : St α) : Option (St α) :=
  if s.nextIn ≥ c.v1 then some s
  else
    (makeRoom c (s.nextOut - s.origin + 1).toNat s).bind fun s =>
      let x := src s.nextIn
      let z := if s.nextIn < c.rowLo then true else c.zeroTest x
      let s' := { store c s x z with asked := s.asked ++ [s.nextIn] }
      (fillPse c s' s.nextIn).bind (cascade c)

/-- The loop of idwt.cpp:1601-1613. -/
def pullLoop (c : Cfg α) (src : Int → α) : Nat → St α → Option (St α)
  | 0, _ => none
  | fuel + 1, s =>
    if getDl c s s.nextOut < c.maxDl then
      if s.nextIn ≥ c.v1 then cascade c s
      else
        (makeRoom c (s.nextOut - s.origin + 1).toNat s).bind fun s =>
          (fetchOne c src s).bind (pullLoop c src fuel)
    else some s

/-- idwt.cpp:1554-1618 `idwt_2d_state_pull_row_ref` for `DWT_BIDIR`; the second component is the row returned, or
`none` for a null pointer. -/
def pullRow (c : Cfg α) (src : Int → α) (s : St α) : Option (St α × Option α) :=
  if s.nextOut ≥ c.v1 then some (s, none)
  else if c.v1 ≤ c.v0 then some (s, none)
  else if c.v1 = c.v0 + 1 then
    let x := src c.v0
    some ({ wr c s c.v0 (if c.v0 % 2 = 1 then c.single x else x) with
        nextOut := s.nextOut + 1, asked := s.asked ++ [c.v0] },
      some (if c.v0 % 2 = 1 then c.single x else x))
  else
    (pullLoop c src (c.v1 - s.nextIn + 2).toNat s).bind fun s =>
      if getDl c s s.nextOut < c.maxDl then some (s, none)
      else (rd c s s.nextOut).map fun x => ({ s with nextOut := s.nextOut + 1 }, some x)

/-- `n` successive pulls. -/
def pullMany (c : Cfg α) (src : Int → α) : Nat → St α → Option (St α × List (Option α))
  | 0, s => some (s, [])
  | n + 1, s =>
    (pullRow c src s).bind fun r => (pullMany c src n r.1).map fun t => (t.1, r.2 :: t.2)

/-! ## Initial state -/

/-- fdwt.cpp:1091-1100, idwt.cpp:1496-1503 and `idwt_2d_state_rewind` idwt.cpp:1534-1542: the cursors and levels
are reset; the contents of the buffers are whatever they were. -/
def start (c : Cfg α) (ring topBuf botBuf : Int → Option α) : St α :=
  { ring := ring, dLevel := fun _ => -1, ringZero := fun _ => true
    topBuf := topBuf, topDl := fun _ => -1, topZero := fun _ => true
    botBuf := botBuf, botDl := fun _ => -1, botZero := fun _ => true
    origin := c.v0, nextIn := c.v0, nextOut := c.v0, asked := [] }

end Verif.Dwt.Stream
