import Verif.Tile.PropsStrip
import Verif.Tile.Order
import Verif.Tile.Quant
import Verif.Packet.Body
import Verif.Ht.HtDecode
import Verif.Dwt.Image
/-
A whole tile, from samples to bytes and back: how the modelled stages are put together.
Source: /repo/source/core/coding/coding_units.cpp:3340-3470 (the encoder's transform into the subbands), 2405-2425,
1597-1652 (precincts and code-blocks), 2541-2660 (subbands and `M_b`), 5050-5391 (packets are written), 4130-4582 (packets are
read), 175-340 and 2845-3135 (rows of the subbands into the inverse transform); ht_block_encoding.cpp:455-470, 817-832 (what
the block encoder leaves in a code-block); subband_row_buf.cpp:278-545, 790-836 (decoding of code-blocks into rows).

The reversible path: 5/3 transform, HT code-blocks of one cleanup pass, one layer, one tile-part, no region of interest,
no DFS.  Each stage is the function that models it elsewhere: `Dwt.analyseLevels`, `Ht.encodeBlock`, `traverse`,
`Packet.writePackets`, `Packet.readPackets`, `Ht.htDecode`, `Strip.readRows`, `Dwt.synthesiseLevels`.  A component enters
and leaves as a list of rows.  What is simplified: the subbands are computed again for every code-block, which changes
nothing as there is no state; all code-blocks of a subband are decoded before its rows are read (`Strip` reads them through the
strip buffer, with the decoded samples given); any failure – undefined behaviour, an exception, a code-block the decoder
rejects or leaves untouched – is `none`.
-/
namespace Verif.Tile.Pipe

open Verif.Packet (CodedBlock CodedBand DecBlock Attached Precinct Reader)

/-- What COD, QCD and the tile header say: tile geometry, progression, code-block exponents, SOP and EPH, Scod style bit for
vertically causal contexts, guard bits and the words of QCD (or QCC) for each component. -/
structure Coding where
  T : TileP
  poc : List Seg
  po : Nat
  xcb : Nat
  ycb : Nat
  sop : Bool
  eph : Bool
  causal : Bool
  guard : Nat
  steps : Nat → List Nat

namespace Coding
variable (C : Coding)

/-- The tile-component (`tcSpan`). -/
def tcx (c : Nat) : Span := tcSpan C.T.x (C.T.comp c).subx
@[inherit_doc tcx]
def tcy (c : Nat) : Span := tcSpan C.T.y (C.T.comp c).suby

/-- coding_units.cpp:2556-2557: the orientations of the subbands of a resolution: LL, or HL, LH and HH. -/
def bands (r : Nat) : List Nat := if r = 0 then [0] else [1, 2, 3]

/-- coding_units.cpp:2602-2612 with `xob`, `yob` (2553-2554). -/
def bandx (c r b : Nat) : Span := subbandSpan (C.tcx c) (C.T.resx c r) (C.T.comp c).NL r (b % 2)
@[inherit_doc bandx]
def bandy (c r b : Nat) : Span := subbandSpan (C.tcy c) (C.T.resy c r) (C.T.comp c).NL r (b / 2)

/-- coding_units.cpp:2405-2407: subbands are subsampled by 2, except LL. -/
def sr (r : Nat) : Nat := if r = 0 then 1 else 2

/-- coding_units.cpp:2408-2412, 2679-2685: the part of a subband in precinct `p`. -/
def pbx (c r b p : Nat) : Span :=
  pbandSpan (precSpan (C.T.resx c r) ((C.T.comp c).ppx r) (p % C.T.npw c r)) (sr r) (b % 2)
@[inherit_doc pbx]
def pby (c r b p : Nat) : Span :=
  pbandSpan (precSpan (C.T.resy c r) ((C.T.comp c).ppy r) (p / C.T.npw c r)) (sr r) (b / 2)

/-- coding_units.cpp:1604-1615: how many code-blocks it has on both axes. -/
def grid (c r b p : Nat) : Nat × Nat := (numCblk (C.pbx c r b p) (2 ^ C.xcb), numCblk (C.pby c r b p) (2 ^ C.ycb))

/-- coding_units.cpp:1631-1637: columns of the code-blocks in column `k` of the grid, rows of those in row `k`. -/
def blkx (c r b p k : Nat) : Span := cblkSpan (C.pbx c r b p) (2 ^ C.xcb) k
@[inherit_doc blkx]
def blky (c r b p k : Nat) : Span := cblkSpan (C.pby c r b p) (2 ^ C.ycb) k

/-- coding_units.cpp:2617-2632: `M_b`; the index is `3 (r - 1) + b`, an `uint8_t`, and 0 for LL.  `none` when there is no such
word (the array is a `std::vector` of as many entries as there are words, read without a check). -/
def mb (steps : Nat → List Nat) (c r b : Nat) : Option Nat :=
  ((steps c)[(if r = 0 then 0 else 3 * (r - 1) + b) % 256]?).map (magBits C.guard)

end Coding

/-! ### Encoder -/

/-- The sample in row `y`, column `x` of a plane. -/
def pix (rows : List (List Int)) (y x : Nat) : Int := (rows.getD y []).getD x 0

/-- A plane has the size of a buffer for `ys × xs`. -/
def shaped (ys xs : Span) (rows : List (List Int)) : Bool :=
  rows.length == size ys && rows.all fun r => r.length == size xs

/-- The subband of orientation `b` at resolution `r` of what the transform gives (finest level first). -/
def select (NL r b : Nat) (t : List (List Int) × List Dwt.Detail) : Option (List (List Int)) :=
  if r = 0 then some t.1
  else (t.2[NL - r]?).map fun d => if b = 1 then d.hl else if b = 2 then d.lh else d.hh

/-- coding_units.cpp:3355-3410: the coefficients of a subband of component `c`, given the samples of the component.  They are
stored into buffers of the size of the subband; `none` when they would not fit exactly. -/
def subband (C : Coding) (img : Nat → List (List Int)) (c r b : Nat) : Option (List (List Int)) := do
  let t ← Dwt.analyseLevels (C.T.comp c).NL ((C.tcx c).1 : Int) ((C.tcy c).1 : Int) (img c)
  let rows ← select (C.T.comp c).NL r b t
  if shaped (C.bandy c r b) (C.bandx c r b) rows then some rows else none

/-- ht_block_encoding.cpp:455-470, 817-832: what the block encoder leaves in a code-block. -/
def codedBlock (mb w h : Nat) (f : Nat → Nat → Int) : Option CodedBlock :=
  (Ht.encodeBlock w h f).map fun d =>
    ⟨⟨d.length, if d = [] then 0 else 1, (mb + 255) % 256, [d.length]⟩, d⟩

/-- The code-blocks of a subband in a precinct, in raster order (coding_units.cpp:1629-1652). -/
def codedBand (C : Coding) (img : Nat → List (List Int)) (q : Pkt) (b : Nat) : Option CodedBand := do
  let rows ← subband C img q.c q.r b
  let mb ← C.mb C.steps q.c q.r b
  let g := C.grid q.c q.r b q.p
  let blocks ← (List.range (g.1 * g.2)).mapM fun k =>
    let xs := C.blkx q.c q.r b q.p (k % g.1)
    let ys := C.blky q.c q.r b q.p (k / g.1)
    codedBlock mb (size xs) (size ys) fun y x =>
      pix rows (ys.1 + y - (C.bandy q.c q.r b).1) (xs.1 + x - (C.bandx q.c q.r b).1)
  pure ⟨g.1, g.2, blocks⟩

/-- The bytes of the tile-part behind SOD: all packets in the order of the progression. -/
def encodeTile (C : Coding) (img : Nat → List (List Int)) : Option (List Nat) := do
  let pkts ← (traverse C.T C.poc C.po).toOption
  let coded ← pkts.mapM fun q => (Coding.bands q.r).mapM (codedBand C img q)
  pure (Packet.writePackets C.sop C.eph 0 coded)

/-! ### Decoder -/

/-- What the decoder finds in memory when it comes to a code-block: the contents of the scratch arrays and the addresses of the
streams modulo 4. -/
structure Memory where
  pm : Nat
  pv : Nat
  pd : Nat
  sp : Nat → Nat
  st : Nat → Nat → Nat

/-- subband_row_buf.cpp:450-541: one code-block.  The inner `none` is a block without passes or data. -/
def decBlock (C : Coding) (mb w h : Nat) (e : Memory) (d : DecBlock) (m : Attached) : Option (Option (Nat → Nat → Int)) :=
  if d.numPasses = 0 ∨ m = .null then some none
  else match Ht.htDecode ⟨w, h, mb, d.zbp, C.causal, d.numPasses, d.passLen, m.bytes⟩ e.pm e.pv e.pd e.sp e.st with
    | some (.samples f) => some (some f)
    | _ => none

/-- The precinct of a packet, among those read. -/
def lookup (pkts : List Pkt) (ps : List Precinct) (q : Pkt) : Option Precinct :=
  ((pkts.zip ps).find? fun z => z.1 = q).map (·.2)

/-- The environment of a run: the memory for each code-block (by component, resolution, orientation), the order of the tasks of
a strip, whether there is a pool of threads, and what the strip buffers hold at first. -/
structure Env where
  mem : Nat → Nat → Nat → Strip.Id → Memory
  sched : List Strip.Id → List Strip.Id
  pool : Bool
  ring : Strip.Ring Int
  ring' : Strip.Ring Int

/-- The samples of code-block `i` (precinct, row, column) of a subband.  The words of QCD have been through a byte each. -/
def blockData (C : Coding) (E : Env) (pkts : List Pkt) (ps : List Precinct) (c r b : Nat) (i : Strip.Id) :
    Option (Option (Nat → Nat → Int)) := do
  let P ← lookup pkts ps ⟨0, r, c, i.1⟩
  let mb ← C.mb (fun c => (C.steps c).map throughByte) c r b
  let j := if r = 0 then 0 else b - 1
  let k := i.2.1 * (C.grid c r b i.1).1 + i.2.2
  let D ← P.bands[j]?
  let M ← P.mem[j]?
  let d ← D.blocks[k]?
  let m ← M[k]?
  decBlock C mb (size (C.blkx c r b i.1 i.2.2)) (size (C.blky c r b i.1 i.2.1)) (E.mem c r b i) d m

/-- The row buffer of a subband, with the decoded code-blocks (coding_units.hpp:122 for the stride). -/
def rowBuf (C : Coding) (c r b : Nat) (data : Strip.Id → Option (Nat → Nat → Int)) : Strip.Band Int :=
  Strip.layout (C.T.resx c r) (C.T.resy c r) (C.bandx c r b) (C.bandy c r b) ((C.T.comp c).ppx r) ((C.T.comp c).ppy r)
    (2 ^ C.xcb) (2 ^ C.ycb) (Coding.sr r) (b % 2) (b / 2) ((size (C.bandx c r b) + 31) / 32 * 32) data

/-- All code-blocks of a subband. -/
def allIds (B : Strip.Band Int) : List Strip.Id :=
  (List.range B.np).flatMap fun p => (List.range (B.pb p).ncy).flatMap fun y =>
    (List.range (B.pb p).ncx).map fun x => (p, y, x)

/-- The rows of a subband, as the inverse transform asks for them (subband_row_buf.cpp:790-836; 792-795 for a subband without
samples). -/
def decBand (C : Coding) (E : Env) (pkts : List Pkt) (ps : List Precinct) (c r b : Nat) : Option (List (List Int)) :=
  let data := blockData C E pkts ps c r b
  let B := rowBuf C c r b fun i => (data i).getD none
  let bx := C.bandx c r b
  let by' := C.bandy c r b
  if (allIds B).all fun i => (data i).isSome then
    if size bx = 0 then some (List.replicate (size by') [])
    else (Strip.readRows B E.sched E.pool (List.range' by'.1 (size by')) (.init E.ring E.ring')).toOption.map
      fun vs => vs.map fun v => (List.range (size bx)).map v
  else none

/-- A component: its subbands, then the inverse transform. -/
def decComp (C : Coding) (E : Env) (pkts : List Pkt) (ps : List Precinct) (c : Nat) : Option (List (List Int)) := do
  let ll ← decBand C E pkts ps c 0 0
  let ds ← (List.range (C.T.comp c).NL).mapM fun i => do
    let hl ← decBand C E pkts ps c ((C.T.comp c).NL - i) 1
    let lh ← decBand C E pkts ps c ((C.T.comp c).NL - i) 2
    let hh ← decBand C E pkts ps c ((C.T.comp c).NL - i) 3
    pure (Dwt.Detail.mk hl lh hh)
  Dwt.synthesiseLevels ((C.tcx c).1 : Int) ((C.tcy c).1 : Int) ll ds

/-- The samples of all components from the bytes behind SOD.  `fuel` bounds the loops of the header parser. -/
def decodeTile (C : Coding) (E : Env) (fuel : Nat) (bytes : List Nat) : Option (List (List (List Int))) := do
  let pkts ← (traverse C.T C.poc C.po).toOption
  let fresh := pkts.map fun q => Precinct.fresh ((Coding.bands q.r).map fun b => C.grid q.c q.r b q.p)
  let out ← (Packet.readPackets fuel C.sop C.eph fresh ⟨bytes, 0, 0, 0⟩).toOption
  (List.range C.T.ncomp).mapM (decComp C E pkts out.1)

end Verif.Tile.Pipe
