import Verif.Tile.Picture
/-
The length of a tile-part as the encoder computes it before it writes the packets.
Source: /repo/source/core/coding/coding_units.cpp:7121-7164 (packet headers and `length`), 7799-7810 (`get_tile_part_size`),
5036-5098 (`write_precinct_data`, SOT), /repo/source/core/interface/encoder.cpp:700-757 (size of the codestream).

Unlike `encodeTile` with any number of layers: the header of a precinct is made once, for the last layer, and header and bytes of
the precinct are written for each layer.
-/
namespace Verif.Tile.Pipe
open Verif.Packet (CodedBand CodedBlock encBand encBandLast bodyOf sopOf)

/-- A sum in `uint32_t`. -/
def wsum (l : List Nat) : Nat := l.foldl (fun a x => w32 (a + x)) 0

/-- The coded subbands of a precinct; the layer of the packet does not matter. -/
def precinctBands (C : Coding) (img : Nat → List (List Int)) (q : Pkt) : Option (List CodedBand) :=
  (Coding.bands q.r).mapM (codedBand C img q)

/-- coding_units.cpp:7129-7146: the header of a precinct. -/
def precinctHeader (C : Coding) (bands : List CodedBand) : List Nat :=
  (Packet.Writer.new.putBits (bands.flatMap fun b =>
    if C.T.layers ≤ 1 then encBand b.header else encBandLast (C.T.layers - 1) b.header)).flush C.eph

/-- coding_units.cpp:7130-7148: `packet_length`. -/
def precinctLength (C : Coding) (bands : List CodedBand) : Nat :=
  w32 (wsum (bands.flatMap fun b => b.blocks.map fun k => k.info.length) + (precinctHeader C bands).length)

/-- coding_units.cpp:7121-7127, 7153-7157: the precincts in the order of these loops. -/
def precinctsOf (C : Coding) : List Pkt :=
  (List.range C.T.ncomp).flatMap fun c => (List.range ((C.T.comp c).NL + 1)).reverse.flatMap fun r =>
    (List.range (C.T.np c r)).map fun p => ⟨0, r, c, p⟩

/-- coding_units.cpp:7799-7810 `get_tile_part_size`; also the length in SOT (5066-5068 with j2kmarkers.cpp:1506-1512). -/
def announcedSize (C : Coding) (img : Nat → List (List Int)) : Option Nat := do
  let lens ← (precinctsOf C).mapM fun q => (precinctBands C img q).map (precinctLength C)
  some (w32 (wsum lens + w32 (6 * C.T.numPackets * C.sop.toNat) + 14))

/-- coding_units.cpp:5077-5084, 5036-5047: the packets, numbered from `seq` on. -/
def writePrecincts (C : Coding) (seq : Nat) : List (List CodedBand) → List Nat
  | [] => []
  | p :: ps => sopOf C.sop seq ++ precinctHeader C p ++ bodyOf p ++ writePrecincts C (seq + 1) ps

/-- coding_units.cpp:5076-5440: what follows SOD. -/
def writtenTile (C : Coding) (img : Nat → List (List Int)) : Option (List Nat) := do
  let pkts ← (traverse C.T C.poc C.po).toOption
  let coded ← pkts.mapM (precinctBands C img)
  pure (writePrecincts C 0 coded)

/-- encoder.cpp:704-709, 721: the sizes of all tiles. -/
def pictureSizes (P : Picture) (img : Nat → List Int) : Option (List Nat) :=
  (List.range P.tiles).mapM fun t => do
    let s ← encPlanes P img t
    announcedSize (P.coding t) fun c => s.getD c []

/-- encoder.cpp:714-722: `codestream_size`, a `size_t`, from the length of SOC and main header and the tile-parts' sizes. -/
def codestreamSize (hdr : Nat) (sizes : List Nat) : Nat := hdr + sizes.sum + 2

end Verif.Tile.Pipe
