import Verif.Codestream.Markers
import Verif.Tile.Geometry
/-
Model of the codestream as a container of tile-parts, and of the decoder's questions to the main header.
Source: /repo/source/core/codestream/j2kmarkers.cpp:1807-1899, /repo/source/core/coding/coding_units.cpp:2748-2788, 4001-4008,
5066-5076, /repo/source/core/interface/decoder.cpp:281-339, 404-476, /repo/source/core/interface/encoder.cpp:700-760.
-/
namespace Verif.Cs
open Verif.Jph (putWord)

/-! ### Tile-part headers -/

/-- j2kmarkers.hpp:552-575 `j2k_tilepart_header`. -/
structure TpHdr where
  cod : Option Cod := none
  coc : List Coc := []
  qcd : Option Qcd := none
  qcc : List Qcc := []
  rgn : List (Nat × Nat × Nat × Nat) := []
  poc : Option (Nat × List PocEntry) := none
  ppt : List Raw := []
  plt : List Raw := []
  com : List Com := []
  deriving DecidableEq, Repr

/-- j2kmarkers.cpp:1846-1896, the `switch`: the header, what is added to the count of bytes, and the source. -/
def TpHdr.step (pad : List UInt8) (csiz : Nat) (h : TpHdr) (word : Nat) (s : Src) : Out ((TpHdr × Nat) × Src) :=
  if word = 0xFF52 then
    (segment pad readCod s).bind fun r => .ok (({ h with cod := some r.1 }, r.1.lmar + 2), r.2)
  else if word = 0xFF53 then
    (segment pad (readCoc csiz) s).bind fun r => .ok (({ h with coc := h.coc ++ [r.1] }, r.1.lmar + 2), r.2)
  else if word = 0xFF58 then
    (segment pad readRaw s).bind fun r => .ok (({ h with plt := h.plt ++ [r.1] }, r.1.lmar + 2), r.2)
  else if word = 0xFF5C then
    (segment pad readQcd s).bind fun r => .ok (({ h with qcd := some r.1 }, r.1.lmar + 2), r.2)
  else if word = 0xFF5D then
    (segment pad (readQcc csiz) s).bind fun r => .ok (({ h with qcc := h.qcc ++ [r.1] }, r.1.lmar + 2), r.2)
  else if word = 0xFF5E then
    (segment pad (readRgn csiz) s).bind fun r => .ok (({ h with rgn := h.rgn ++ [r.1] }, r.1.1 + 2), r.2)
  else if word = 0xFF5F then
    (segment pad (readPoc csiz) s).bind fun r => .ok (({ h with poc := some r.1 }, r.1.1 + 2), r.2)
  else if word = 0xFF61 then
    (segment pad readRaw s).bind fun r => .ok (({ h with ppt := h.ppt ++ [r.1] }, r.1.lmar + 2), r.2)
  else if word = 0xFF64 then
    (segment pad readCom s).bind fun r => .ok (({ h with com := h.com ++ [r.1] }, r.1.lmar + 2), r.2)
  else if word < 0xFF30 ∨ 0xFF3F < word then
    s.getWord.bind fun l =>
      (if 2 ≤ l.1 then l.2.forward (l.1 - 2) else .ok l.2).bind fun s' => .ok ((h, 2 + l.1), s')
  else .ok ((h, 2), s)

/-- j2kmarkers.cpp:1845-1898, the loop up to SOD; the count is a `uint32_t`. -/
def TpHdr.loop (pad : List UInt8) (csiz : Nat) : Nat → TpHdr → Nat → Src → Option (Out ((TpHdr × Nat) × Src))
  | 0, _, _, _ => none
  | fuel + 1, h, n, s =>
    match s.getWord with
    | .throws => some .throws
    | .ub => some .ub
    | .ok (w, s') =>
      if w = 0xFF93 then some (.ok ((h, n), s'))
      else match h.step pad csiz w s' with
        | .ok ((h', k), s'') => TpHdr.loop pad csiz fuel h' ((n + k) % 2 ^ 32) s''
        | .throws => some .throws
        | .ub => some .ub

/-- j2kmarkers.cpp:1842-1899 `j2k_tilepart_header::read`: the header and `length_of_tilepart_markers`.  `Lsot` is 10 whenever
SOT was read (line 1489). -/
def TpHdr.read (pad : List UInt8) (csiz fuel : Nat) (s : Src) : Option (Out ((TpHdr × Nat) × Src)) :=
  TpHdr.loop pad csiz fuel {} (2 + 10 + 2) s

/-- A tile-part: what SOT said, its header, its body. -/
structure Part where
  sot : Sot
  hdr : TpHdr
  body : List UInt8
  deriving DecidableEq, Repr

/-- coding_units.cpp:2748-2788 `j2k_tile_part::read`. -/
def readPart (pad : List UInt8) (csiz fuel : Nat) (sot : Sot) (s : Src) : Option (Out (Part × Src)) :=
  match TpHdr.read pad csiz fuel s with
  | none => none
  | some .throws => some .throws
  | some .ub => some .ub
  | some (.ok ((h, n), s')) => some ((readBody s' sot.psot n).bind fun b => .ok (⟨sot, h, b.1⟩, b.2))

/-- decoder.cpp:456-476: all tile-parts, appended to their tiles (coding_units.cpp:4001-4008; what `add_tile_part` does after
that — geometry, coding parameters — is not part of this model).  `tiles` is `tileSet`. -/
def tileLoop (pad : List UInt8) (csiz : Nat) : Nat → List (List Part) → Src → Option (Out (List (List Part) × Src))
  | 0, _, _ => none
  | fuel + 1, tiles, s =>
    if s.remaining < 2 then some (.ok (tiles, s))
    else match s.getWord with
      | .throws => some .throws
      | .ub => some .ub
      | .ok (w, s') =>
        if w = 0xFFD9 then some (.ok (tiles, s'))
        else if w ≠ 0xFF90 then some .throws
        else match readSot pad s' with
          | .throws => some .throws
          | .ub => some .ub
          | .ok (sot, s'') =>
            match tiles[sot.isot]? with
            | none => some .throws
            | some ps =>
              match readPart pad csiz fuel sot s'' with
              | none => none
              | some .throws => some .throws
              | some .ub => some .ub
              | some (.ok (p, s3)) => tileLoop pad csiz fuel (tiles.set sot.isot (ps ++ [p])) s3

/-- coding_units.cpp:5066-5076 and the packets that follow: tile `i` with its only tile-part. -/
def writeTile (i : Nat) (body : List UInt8) : List UInt8 := (mkSot i 0 1 body.length).write ++ body

/-- The tiles from index `i` on, encoder.cpp:735-756. -/
def writeTiles : Nat → List (List UInt8) → List UInt8
  | _, [] => []
  | i, b :: bs => writeTile i b ++ writeTiles (i + 1) bs

/-- j2kmarkers.cpp:1807-1815 on one axis; a tile size of zero divides by zero. -/
def tilesAlong (siz tosiz tsiz : Nat) : Out Nat :=
  if tsiz = 0 then .ub else .ok (Tile.numTiles ⟨siz, 0, tsiz, tosiz⟩)

/-- decoder.cpp:281-294 `parse` and 424-476: the main header, back over SOT, the number of tiles, all tile-parts. -/
def readContainer (pad : List UInt8) (fuel : Nat) (s : Src) : Option (Out ((Hdr × List (List Part)) × Src)) :=
  match Hdr.read pad fuel {} s with
  | none => none
  | some .throws => some .throws
  | some .ub => some .ub
  | some (.ok (h, s1)) =>
    match s1.rewind with
    | .throws => some .throws
    | .ub => some .ub
    | .ok s2 =>
      match h.siz with
      | none => some .ub
      | some z =>
        match tilesAlong z.xsiz z.xtosiz z.xtsiz, tilesAlong z.ysiz z.ytosiz z.ytsiz with
        | .ok nx, .ok ny =>
          if 65535 < nx * ny % 2 ^ 32 then some .throws
          else match tileLoop pad z.csiz fuel (List.replicate (nx * ny) []) s2 with
            | none => none
            | some .throws => some .throws
            | some .ub => some .ub
            | some (.ok (ts, s3)) => some (.ok ((h, ts), s3))
        | _, _ => some .ub

/-- encoder.cpp:713-757: SOC, the main header, the tiles, EOC. -/
def writeContainer (hdr : List UInt8) (bodies : List (List UInt8)) : List UInt8 :=
  putWord 0xFF4F ++ hdr ++ writeTiles 0 bodies ++ putWord 0xFFD9

/-! ### The number of levels -/

/-- decoder.cpp:323-336: the loop over the components `cs` with the index `i` into `COC`. -/
def minLoop (coc : List Coc) : List Nat → Nat → Nat → Out Nat
  | [], _, nl => .ok nl
  | c :: cs, i, nl =>
    match coc[i]? with
    | none => .ub
    | some k =>
      if k.comp = c then
        k.dfs.bind fun d =>
          if d then minLoop coc cs (i + 1) nl
          else k.levels.bind fun l => minLoop coc cs (i + 1) (if l < nl then l else nl)
      else minLoop coc cs i nl

/-- decoder.cpp:320-339 `get_minimum_DWT_levels`. -/
def Hdr.minLevels (h : Hdr) : Out Nat :=
  match h.siz, h.cod with
  | some z, some c => c.levels.bind fun nl => if h.coc = [] then .ok nl else minLoop h.coc (List.range z.csiz) 0 nl
  | _, _ => .ub

/-! ### The size of a component -/

/-- decoder.cpp:297-313 `get_component_width`, `get_component_height` on one axis: image size, image offset, subsampling. -/
def compSize (siz osiz f : Nat) : Nat := Tile.ceilInt (Tile.usub siz osiz) f

/-- decoder.cpp:437-447 (and 541-550): a dimension of the output buffer. -/
def bufSize (siz osiz f reduce : Nat) : Nat :=
  Tile.ceilInt (Tile.usub (Tile.ceilInt siz f) (Tile.ceilInt osiz f)) (2 ^ reduce)

end Verif.Cs
