import Verif.Tactics
/-
Model of the codestream walker, of the tile-buffer address translation and of the payloads the emitter reads from a
codestream.
Source: /repo/source/core/jpip/codestream_walker.cpp, codestream_walker.hpp, packet_locator.cpp:32-47,
data_bin_emitter.cpp:90-180.
`none` stands for a read outside the buffer; the loops carry fuel, and running out of it is `none` as well.
Offsets are `size_t`; their sums stay far below 2^64 for any buffer that fits in memory and are not reduced.
-/
namespace Verif.Jpip

/-- codestream_walker.cpp:16-18 `read_u16_be`. -/
def u16At (d : List UInt8) (i : Nat) : Option Nat := do
  let a ← d[i]?
  let b ← d[i + 1]?
  return a.toNat * 256 + b.toNat

/-- codestream_walker.cpp:19-22 `read_u32_be`. -/
def u32At (d : List UInt8) (i : Nat) : Option Nat := do
  let a ← u16At d i
  let b ← u16At d (i + 2)
  return a * 65536 + b

/-- codestream_walker.cpp:11-14. -/
def mSOC : Nat := 0xFF4F
def mSOT : Nat := 0xFF90
def mSOD : Nat := 0xFF93
def mEOC : Nat := 0xFFD9

/-- codestream_walker.cpp:26-32 `marker_has_no_length`. -/
def noLength (m : Nat) : Bool :=
  m = mSOC || m = mSOD || m = mEOC || m = 0xFF92 || (0x30 ≤ m % 256 && m % 256 ≤ 0x3F)

/-- codestream_walker.hpp:26-34 `TilePartLocation`. -/
structure TilePartLoc where
  sot : Nat
  headerEnd : Nat
  bodyOff : Nat
  bodyEnd : Nat
  tile : Nat
  idx : Nat
  cnt : Nat
  deriving DecidableEq, Repr

/-- codestream_walker.hpp:36-46 `CodestreamLayout`. -/
structure Layout where
  soc : Nat := 0
  mainEnd : Nat := 0
  eoc : Nat
  parts : List TilePartLoc := []
  deriving DecidableEq, Repr

/-- codestream_walker.cpp:78-112: the search for SOD; `some none` when the walk gives up. -/
def findSod (d : List UInt8) : Nat → Nat → Option (Option Nat)
  | 0, _ => none
  | f + 1, j =>
    if j + 2 ≤ d.length then do
      let m ← u16At d j
      if m = mSOD then some (some j)
      else if noLength m then findSod d f (j + 2)
      else if d.length < j + 4 then some none
      else do
        let l ← u16At d (j + 2)
        if l < 2 ∨ d.length < j + 2 + l then some none else findSod d f (j + 2 + l)
    else some none

/-- codestream_walker.cpp:52-131: the loop over markers. -/
def walkLoop (d : List UInt8) : Nat → Nat → Bool → Layout → Option Layout
  | 0, _, _, _ => none
  | f + 1, i, seen, lay =>
    if i + 2 ≤ d.length then do
      let m ← u16At d i
      if m = mEOC then some { lay with eoc := i }
      else if m = mSOT then
        if d.length < i + 12 then some lay
        else do
          let lsot ← u16At d (i + 2)
          if lsot ≠ 10 then some lay
          else do
            let isot ← u16At d (i + 4)
            let psot ← u32At d (i + 6)
            let tp ← d[i + 10]?
            let tn ← d[i + 11]?
            let lay := if seen then lay else { lay with mainEnd := i }
            match ← findSod d (d.length + 1) (i + 12) with
            | none => some lay
            | some j =>
              let e := if psot ≠ 0 then min (i + psot) d.length else d.length
              walkLoop d f e true { lay with parts := lay.parts ++ [⟨i, j, j + 2, e, isot, tp.toNat, tn.toNat⟩] }
      else if noLength m then walkLoop d f (i + 2) seen lay
      else if d.length < i + 4 then some lay
      else do
        let l ← u16At d (i + 2)
        if l < 2 ∨ d.length < i + 2 + l then some lay else walkLoop d f (i + 2 + l) seen lay
    else some lay

/-- codestream_walker.cpp:36-134 `walk_codestream` with non-null pointers; `some none` for the return value `false`. -/
def walk (d : List UInt8) : Option (Option Layout) :=
  if d.length < 2 then some none
  else do
    let m ← u16At d 0
    if m ≠ mSOC then some none
    else do
      let lay ← walkLoop d (d.length + 1) 2 false { eoc := d.length }
      some (some lay)

/-- packet_locator.cpp:32-47 `to_absolute`: `none` for `UINT64_MAX`; `acc` is `accumulated`. -/
def toAbsolute (tile off : Nat) : List TilePartLoc → Nat → Option Nat
  | [], _ => none
  | tp :: tps, acc =>
    if tp.tile ≠ tile then toAbsolute tile off tps acc
    else
      let n := if tp.bodyOff < tp.bodyEnd then tp.bodyEnd - tp.bodyOff else 0
      if off < acc + n then some (tp.bodyOff + (off - acc)) else toAbsolute tile off tps (acc + n)

/-- The bytes from `a` to just before `b`. -/
def slice (d : List UInt8) (a b : Nat) : List UInt8 := (d.drop a).take (b - a)

/-- data_bin_emitter.cpp:90-103: the payload of the main header bin. -/
def mainHeaderPayload (d : List UInt8) (lay : Layout) : Option (List UInt8) :=
  if lay.mainEnd = 0 ∨ d.length < lay.mainEnd then none else some (slice d lay.soc lay.mainEnd)

/-- data_bin_emitter.cpp:117-131: the bytes gathered for a tile header bin. -/
def tileHeaderBytes (d : List UInt8) (tile : Nat) : List TilePartLoc → List UInt8
  | [] => []
  | tp :: tps =>
    (if tp.tile ≠ tile then []
     else if d.length < tp.sot + 12 ∨ d.length < tp.headerEnd ∨ tp.headerEnd < tp.sot + 12 then []
     else slice d (tp.sot + 12) tp.headerEnd) ++ tileHeaderBytes d tile tps

/-- data_bin_emitter.cpp:105-138: the payload of a tile header bin; `none` when the tile has no tile-part. -/
def tileHeaderPayload (d : List UInt8) (lay : Layout) (tile : Nat) : Option (List UInt8) :=
  if lay.parts.any (·.tile = tile) then some (tileHeaderBytes d tile lay.parts) else none

/-- data_bin_emitter.cpp:160-171: the payload of a precinct bin from its packet ranges (offset, length). -/
def precinctPayload (d : List UInt8) (ranges : List (Nat × Nat)) : Option (List UInt8) :=
  if ranges = [] then none
  else if ranges.all (fun r => r.1 + r.2 ≤ d.length) then some (ranges.flatMap fun r => slice d r.1 (r.1 + r.2)) else none

end Verif.Jpip
