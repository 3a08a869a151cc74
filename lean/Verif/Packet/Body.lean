import Verif.Packet.Robust
/-
Packets with their bodies: how the encoder writes a packet and how the decoder attaches the bytes of the body to the
code-blocks.
Source: /repo/source/core/coding/coding_units.cpp:1436-1548 (`create_compressed_buffer`, `skip_compressed_buffer`),
4981-4998 (`write_packets`), 5034-5046 (`write_precinct_data`), 5076-5084 (`emit_sop`), 5408-5476 (`read_packet`).

The tile has one tile-part, that is the reader has one node: `src` of the reader is what is left of it.  The packet
headers are in the packets (no PPM or PPT).  `malloc` and `realloc` succeed.
-/
namespace Verif.Packet
open Prog

/-! ### Encoder -/

/-- A code-block the HT encoder has coded: what the header is made from, and `compressed_data`. -/
structure CodedBlock where
  info : EncBlock
  data : List Nat
  deriving Repr

structure CodedBand where
  w : Nat
  h : Nat
  blocks : List CodedBlock
  deriving Repr

def CodedBand.header (b : CodedBand) : EncBand := ⟨b.w, b.h, b.blocks.map (·.info)⟩

/-- coding_units.cpp:5034-5046 `write_precinct_data` behind the header: code-blocks of length 0 write nothing. -/
def bodyOf (bands : List CodedBand) : List Nat :=
  bands.flatMap fun b => b.blocks.flatMap fun k => if k.info.length > 0 then k.data.take k.info.length else []

/-- coding_units.cpp:5076-5084 `emit_sop`: marker, length 4, number of the packet in the tile. -/
def sopOf (useSOP : Bool) (seq : Nat) : List Nat :=
  if useSOP then [0xFF, 0x91, 0x00, 0x04, seq % 65536 / 256, seq % 65536 % 256] else []

/-- One packet. -/
def writePacket (useSOP useEPH : Bool) (seq : Nat) (bands : List CodedBand) : List Nat :=
  sopOf useSOP seq ++ encPacket useEPH (bands.map CodedBand.header) ++ bodyOf bands

/-- The packets of a tile, numbered from `seq` on (the loops of `write_packets_direct_impl` as a list of precincts). -/
def writePackets (useSOP useEPH : Bool) (seq : Nat) : List (List CodedBand) → List Nat
  | [] => []
  | p :: ps => writePacket useSOP useEPH seq p ++ writePackets useSOP useEPH (seq + 1) ps

/-- coding_units.cpp:2189-2265, 2287 for a tile of `layer + 1` layers, `1 ≤ layer`: the header of a precinct is generated once, for
the last layer (7128 `numlayers_local - 1`), while the block encoder has put all passes into layer 0
(ht_block_encoding.cpp:465-467, 828-830).  A block with passes has preceding passes and none in this layer; one without
passes goes through the inclusion tree. -/
def encBlockLast (ps : List (Option Nat)) (incVal : Nat → Nat) (layer : Nat) (s : IncState) (idx : Nat) (b : EncBlock) :
    List Bool × IncState :=
  if b.passes ≠ 0 then ([false], s) else encInc ps incVal layer s (rootPath ps idx)

def encBlocksLast (ps : List (Option Nat)) (incVal : Nat → Nat) (layer : Nat) (s : IncState) (idx : Nat) :
    List EncBlock → List Bool
  | [] => []
  | b :: rest =>
    let r := encBlockLast ps incVal layer s idx b
    r.1 ++ encBlocksLast ps incVal layer r.2 (idx + 1) rest

/-- coding_units.cpp:2162-2364 `generate_packet_header` for the last of several layers. -/
def encBandLast (layer : Nat) (b : EncBand) : List Bool :=
  if b.w * b.h = 0 then []
  else
    let ps := parentsOf b.w b.h
    let inc := buildVals ps (b.blocks.map fun k => if k.length ≠ 0 then 0 else 1)
    encBlocksLast ps (fun i => inc.getD i 0) layer {} 0 b.blocks

/-! ### Decoder -/

/-- What `compressed_data` of a code-block points to: nothing, bytes of the codestream (`compressed_is_pooled`), or a
buffer of its own with capacity `cap`.  `bytes` are the first `length` bytes. -/
inductive Attached where
  | null
  | borrowed (bytes : List Nat)
  | owned (bytes : List Nat) (cap : Nat)
  deriving DecidableEq, Repr

/-- The bytes the block decoder will see. -/
def Attached.bytes : Attached → List Nat
  | .null => []
  | .borrowed bs => bs
  | .owned bs _ => bs

/-- coding_units.cpp:1442-1449: the bytes announced for the packet just parsed (`layer_start`, `layer_passes` of its layer
are the last entry of `layers`); `none` if the block contributes nothing, `oob` if the sum reads outside
`pass_length`. -/
def announced (b : DecBlock) : Except Fail (Option Nat) :=
  match b.layers.getLast? with
  | none => .ok none
  | some (l0, n) =>
    if n = 0 then .ok none
    else if l0 + n > b.cap then .error .oob
    else .ok (some (((b.passLen.drop l0).take n).sum % 2 ^ 32))

/-- `buf_limit` (coding_units.cpp:5459). -/
def bufLimit : Nat := 8192

/-- coding_units.cpp:1467-1519: attach `n` bytes, clamped to what is left (1450-1473).  `oob` is a copy beyond the
capacity of the buffer. -/
def attach (m : Attached) (n : Nat) (r : Reader) : Except Fail (Attached × Reader) :=
  let n := min n r.src.length
  let r' : Reader := { r with src := r.src.drop n }
  let piece := r.src.take n
  match m with
  | .null => if n = 0 then .ok (.owned [] bufLimit, r) else .ok (.borrowed piece, r')
  | .borrowed bs =>
    if n = 0 then .ok (m, r)
    else
      let cap := max bufLimit (bs.length + n)
      if bs.length + n > cap then .error .oob else .ok (.owned (bs ++ piece) cap, r')
  | .owned bs c =>
    if n = 0 then .ok (m, r)
    else
      let cap := if bs.length + n > bufLimit then bs.length + n else c
      if bs.length + n > cap then .error .oob else .ok (.owned (bs ++ piece) cap, r')

/-- coding_units.cpp:1436-1519 `create_compressed_buffer`. -/
def createBuffer (b : DecBlock) (m : Attached) (r : Reader) : Except Fail (Attached × Reader) :=
  match announced b with
  | .error e => .error e
  | .ok none => .ok (m, r)
  | .ok (some n) => attach m n r

/-- coding_units.cpp:1521-1548 `skip_compressed_buffer`. -/
def skipBuffer (b : DecBlock) (r : Reader) : Except Fail Reader :=
  match announced b with
  | .error e => .error e
  | .ok none => .ok r
  | .ok (some n) =>
    if n = 0 then .ok r
    else
      let n := min n r.src.length
      if n = 0 then .ok r else .ok { r with src := r.src.drop n }

/-- coding_units.cpp:5460-5475 for the code-blocks of one subband. -/
def bodyBlocks (skip : Bool) : List DecBlock → List Attached → Reader → Except Fail (List Attached × Reader)
  | b :: bs, m :: ms, r =>
    (if skip then (skipBuffer b r).map fun r => (m, r) else createBuffer b m r).bind fun (m', r) =>
      (bodyBlocks skip bs ms r).map fun (ms', r) => (m' :: ms', r)
  | _, ms, r => .ok (ms, r)

/-- coding_units.cpp:5460-5475: all subbands. -/
def bodyBands (skip : Bool) : List DecBand → List (List Attached) → Reader → Except Fail (List (List Attached) × Reader)
  | d :: ds, m :: ms, r =>
    (bodyBlocks skip d.blocks m r).bind fun (m', r) =>
      (bodyBands skip ds ms r).map fun (ms', r) => (m' :: ms', r)
  | _, ms, r => .ok (ms, r)

/-- codestream.hpp `get_word`. -/
def Reader.getWord (r : Reader) : Nat × Reader :=
  let (a, r) := r.getByte
  let (b, r) := r.getByte
  (a * 256 + b, r)

/-- coding_units.cpp:5410-5424: the SOP segment; the packet number is read and not looked at. -/
def checkSOP (useSOP : Bool) (r : Reader) : Except Fail Reader :=
  if useSOP then
    let (a, r) := r.getWord
    if a ≠ 0xFF91 then .error .throw
    else
      let (l, r) := r.getWord
      if l ≠ 4 then .error .throw else .ok r.getWord.2
  else .ok r

/-- What the decoder keeps of a precinct. -/
structure Precinct where
  bands : List DecBand
  mem : List (List Attached)

/-- A precinct of which no packet has been read. -/
def Precinct.fresh (grids : List (Nat × Nat)) : Precinct :=
  ⟨grids.map fun g => DecBand.fresh g.1 g.2, grids.map fun g => List.replicate (g.1 * g.2) .null⟩

/-- coding_units.cpp:5408-5476 `read_packet`.  An empty packet (first bit 0) has no body; the first bit is looked at again
here because `parsePacket` does not report it. -/
def readPacket (fuel : Nat) (useSOP useEPH skip : Bool) (layer : Nat) (p : Precinct) (r : Reader) :
    Except Fail (Precinct × Reader) :=
  (checkSOP useSOP r).bind fun r =>
    (parsePacket fuel useEPH layer p.bands r).bind fun (ds, r') =>
      if r.getBit.1 then
        (bodyBands skip ds p.mem r').map fun (ms, r'') => (⟨ds, ms⟩, r'')
      else .ok (⟨ds, p.mem⟩, r')

/-- The packets of a tile with one layer, in the order given by the list of precincts. -/
def readPackets (fuel : Nat) (useSOP useEPH : Bool) : List Precinct → Reader → Except Fail (List Precinct × Reader)
  | [], r => .ok ([], r)
  | p :: ps, r =>
    (readPacket fuel useSOP useEPH false 0 p r).bind fun (p', r) =>
      (readPackets fuel useSOP useEPH ps r).map fun (ps', r) => (p' :: ps', r)

end Verif.Packet
