import Verif.Tile.Geometry
/-
Model of the strip-wise decoding of a subband.
Source: /repo/source/core/coding/subband_row_buf.cpp:140-190 (`init`), 278-545 (`decode_strip_core`), 552-573
(`decode_strip`), 598-786 (`trigger_prefetch`), 790-836 (`row_ptr`).
Every decoding entry point of the library calls `init_line_decode(true)` (coding_units.cpp:5896, 6133, 6691), so ring mode
is the only mode in use and the only one modelled.  Rows of a subband are produced from strips of `cb_h` rows; a strip is
decoded when a row of it is first asked for, or ahead of that by the thread pool.
What is simplified: coordinates are naturals (they are below `2 ^ 31` in the code, which casts them to `int32_t`); decoding
a code-block is a given function from its position to its samples (the block decoders are modelled elsewhere) and writes
exactly its rectangle; the tasks of a strip write their blocks in some order, given by `sched`, one after the other, and
those of a prefetched strip do so when they are dispatched, since nothing reads the prefetch buffer before the barrier.
-/
namespace Verif.Tile.Strip

open Verif.Tile (Span)

/-- A code-block: its rectangle in the subband and the samples its decoder would produce, by row and column of the block;
`none` when it has no passes or no data (line 450). -/
structure Blk (α : Type) where
  ys : Span
  xs : Span
  data : Option (Nat → Nat → α)

/-- The part of the subband that belongs to one precinct: `num_codeblock_x`, `num_codeblock_y` and `access_codeblock`. -/
structure PBand (α : Type) where
  ys : Span
  ncx : Nat
  ncy : Nat
  blk : Nat → Nat → Blk α

/-- What the row buffer knows of its subband: `sb`, `cb_h`, `sb->stride` and the precincts of the resolution. -/
structure Band (α : Type) where
  ys : Span
  xs : Span
  cbh : Nat
  stride : Nat
  np : Nat
  pb : Nat → PBand α

/-- A code-block by precinct, row and column. -/
abbrev Id := Nat × Nat × Nat

def Band.get {α : Type} (B : Band α) (i : Id) : Blk α := (B.pb i.1).blk i.2.1 i.2.2

/-- Lines 434-438: the rows of code-blocks from a given one on that meet `[y0, y1)`. -/
def blkRows {α : Type} (P : PBand α) (y0 y1 : Nat) : List Nat → List Nat
  | [] => []
  | r :: rs =>
    if (P.blk r 0).ys.2 ≤ y0 then blkRows P y0 y1 rs
    else if y1 ≤ (P.blk r 0).ys.1 then []
    else r :: blkRows P y0 y1 rs

/-- Lines 432-433: the first row that is looked at. -/
def firstRow {α : Type} (P : PBand α) (cbh y0 : Nat) : Nat := if P.ys.1 < y0 then (y0 - P.ys.1) / cbh else 0

/-- Lines 419-440: the code-blocks of one precinct that are decoded for the strip `[y0, y1)`. -/
def precIds {α : Type} (B : Band α) (y0 y1 p : Nat) : List Id :=
  let P := B.pb p
  if P.ncx = 0 ∨ P.ncy = 0 then []
  else if P.ys.2 ≤ y0 ∨ y1 ≤ P.ys.1 then []
  else (blkRows P y0 y1 (List.range' (firstRow P B.cbh y0) (P.ncy - firstRow P B.cbh y0))).flatMap
    (fun r => (List.range P.ncx).map (fun c => (p, r, c)))

/-- The code-blocks decoded for the strip `[y0, y1)`; the same walk is at 296-345, 419-545, 622-650 and 704-740. -/
def stripIds {α : Type} (B : Band α) (y0 y1 : Nat) : List Id := (List.range B.np).flatMap (precIds B y0 y1)

/-- A buffer of `cb_h + 1` rows of `stride` samples (lines 171-172), by row and column. -/
abbrev Ring (α : Type) := Nat → Nat → α

/-- What can go wrong: an access outside the target buffer, or a second run of the block decoder on the same bytes, which
the first run has changed (ht_block_decoding.cpp:1102-1104). -/
inductive Bad where
  | oob
  | again
  deriving DecidableEq, Repr

/-- Lines 362-366 and 523-527: the rectangle of a block in the target buffer of the strip that begins at `y0`. -/
def putBlock {α : Type} (B : Band α) (y0 : Nat) (b : Blk α) (v : Nat → Nat → α) (m : Ring α) : Except Bad (Ring α) :=
  if b.ys.1 < y0 ∨ y0 + (B.cbh + 1) < b.ys.2 ∨ b.xs.1 < B.xs.1 ∨ B.xs.1 + B.stride < b.xs.2 then .error .oob
  else .ok (fun r c =>
    if b.ys.1 ≤ y0 + r ∧ y0 + r < b.ys.2 ∧ b.xs.1 ≤ B.xs.1 + c ∧ B.xs.1 + c < b.xs.2
    then v (y0 + r - b.ys.1) (B.xs.1 + c - b.xs.1) else m r c)

/-- Lines 444-541: one code-block; `done` are the blocks whose bytes have been decoded already. -/
def doBlock {α : Type} [Zero α] (B : Band α) (y0 : Nat) (s : Ring α × List Id) (i : Id) :
    Except Bad (Ring α × List Id) :=
  match (B.get i).data with
  | none => do
    let m ← putBlock B y0 (B.get i) (fun _ _ => 0) s.1
    .ok (m, s.2)
  | some v =>
    if i ∈ s.2 then .error .again
    else do
      let m ← putBlock B y0 (B.get i) v s.1
      .ok (m, i :: s.2)

/-- `decode_strip_core` (278-545). -/
def core {α : Type} [Zero α] (B : Band α) (sched : List Id → List Id) (y0 y1 : Nat) (s : Ring α × List Id) :
    Except Bad (Ring α × List Id) :=
  (sched (stripIds B y0 y1)).foldlM (doBlock B y0) s

/-- The state of a row buffer: the two halves of the ring, the strip in the first one (`none` for `-1`), the strip that is
being prefetched into the second one. -/
structure St (α : Type) where
  ring : Ring α
  pre : Ring α
  strip : Option Span
  prefetch : Option Span
  done : List Id

/-- `trigger_prefetch` (598-786); `pool` tells whether there is a pool of two threads or more. -/
def trigger {α : Type} [Zero α] (B : Band α) (sched : List Id → List Id) (pool : Bool) (next : Nat) (s : St α) :
    Except Bad (St α) :=
  if s.prefetch ≠ none ∨ B.ys.2 ≤ next ∨ pool = false then .ok s
  else do
    let y1 := min (next + B.cbh) B.ys.2
    let t ← core B sched next y1 (s.pre, s.done)
    .ok { s with pre := t.1, done := t.2, prefetch := some (next, y1) }

/-- `decode_strip` (552-573). -/
def decodeStrip {α : Type} [Zero α] (B : Band α) (sched : List Id → List Id) (pool : Bool) (row : Nat) (s : St α) :
    Except Bad (St α) := do
  let y0 := B.ys.1 + (row - B.ys.1) / B.cbh * B.cbh
  let y1 := min (y0 + B.cbh) B.ys.2
  let t ← core B sched y0 y1 (s.ring, s.done)
  trigger B sched pool y1 { s with ring := t.1, done := t.2, strip := some (y0, y1) }

/-- Line 814: the row is in the current strip. -/
def inSpan (row : Nat) : Option Span → Bool
  | none => false
  | some s => decide (s.1 ≤ row) && decide (row < s.2)

/-- `row_ptr` (790-836), for a subband with samples: the row that the returned pointer points to. -/
def rowPtr {α : Type} [Zero α] (B : Band α) (sched : List Id → List Id) (pool : Bool) (row : Nat) (s : St α) :
    Except Bad ((Nat → α) × St α) := do
  let s' ←
    if inSpan row s.strip then .ok s
    else if inSpan row s.prefetch then
      trigger B sched pool ((s.prefetch.getD (0, 0)).2)
        { s with ring := s.pre, pre := s.ring, strip := s.prefetch, prefetch := none }
    else decodeStrip B sched pool row { s with prefetch := none }
  match s'.strip with
  | none => .error .oob
  | some t =>
    if t.1 ≤ row ∧ row - t.1 < B.cbh + 1 then .ok (s'.ring (row - t.1), s') else .error .oob

/-- Rows asked for one after the other. -/
def readRows {α : Type} [Zero α] (B : Band α) (sched : List Id → List Id) (pool : Bool) :
    List Nat → St α → Except Bad (List (Nat → α))
  | [], _ => .ok []
  | r :: rs, s => do
    let (v, s') ← rowPtr B sched pool r s
    let t ← readRows B sched pool rs s'
    .ok (v :: t)

/-- The state after `init` (140-190): nothing decoded; the buffers are not cleared. -/
def St.init {α : Type} (m m' : Ring α) : St α := ⟨m, m', none, none, []⟩

/-- The subband as the tile geometry lays it out: precinct `p = x + npw * y`, its code-blocks by row and column
(coding_units.cpp:2405-2412, 1597-1652, 2679-2685); `data` are the decoded code-blocks. -/
def layout {α : Type} (sx sy bx by' : Span) (lx ly cbx cby sr ox oy stride : Nat)
    (data : Id → Option (Nat → Nat → α)) : Band α where
  ys := by'
  xs := bx
  cbh := cby
  stride := stride
  np := numPrec sx lx * numPrec sy ly
  pb p :=
    let px := pbandSpan (precSpan sx lx (p % numPrec sx lx)) sr ox
    let py := pbandSpan (precSpan sy ly (p / numPrec sx lx)) sr oy
    { ys := py
      ncx := numCblk px cbx
      ncy := numCblk py cby
      blk := fun r c => ⟨cblkSpan py cby r, cblkSpan px cbx c, data (p, r, c)⟩ }

end Verif.Tile.Strip
