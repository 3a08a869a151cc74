import Verif.Tile.Picture
import Verif.Codestream.Container
/-
A picture as a codestream: parameters and samples in, bytes out; bytes in, samples out.
Source: /repo/source/core/interface/encoder.cpp:591-760 (`invoke_internal`), /repo/source/core/codestream/j2kmarkers.cpp:170-197
(questions to SIZ), 1009-1020 (`get_MAGB`), /repo/source/core/coding/coding_units.cpp:3945-3985 (`setCODparams`,
`setQCDparams`), 3987-4063 (`dec_init`, `add_tile_part`), 6807-6880 (`enc_init`); /repo/source/core/interface/decoder.cpp:281-294
(`parse`), 405-487 (`invoke_line_based`).

Put together from `Cs.mkSiz`, `mkCod`, `mkQcd`, `Hdr.flush`, `writeContainer`, `readContainer` on the one side and `encodePicture`,
`decodePicture` on the other.  The reversible path without Qfactor, no JPH boxes.  The lengths in SOT and TLM are those of the
packets written; the encoder adds them up beforehand, see `announcedSize` in Tile/Announced.  `none` is undefined behaviour or an
exception, and for a header also what the model of a tile does not cover: the irreversible transform, code-blocks that are not
HT, COC, QCC, POC, RGN, DFS, ATK, packed packet headers, several tile-parts, marker segments in a tile-part header, the colour
transform of three components of different size (`Picture.mct` is off for them, the decoder does not look).
-/
namespace Verif.Tile.Pipe
open Verif.Cs (Out Hdr Siz Cod Qcd CodParams Part)

/-- What `siz_params`, `cod_params` and `qcd_params` of the encoder (encoder.hpp:98-160) hold; `comps` is `Ssiz`, `XRsiz`,
`YRsiz`.  `cod.colour` is `use_color_trafo`, `cod.xcb` and `cod.ycb` are `blkwidth`, `blkheight` (exponents less 2). -/
structure Request where
  rsiz : Nat
  xsiz : Nat
  ysiz : Nat
  xosiz : Nat
  yosiz : Nat
  xtsiz : Nat
  ytsiz : Nat
  xtosiz : Nat
  ytosiz : Nat
  comps : List (Nat × Nat × Nat)
  cod : CodParams
  guard : Nat
  deriving DecidableEq, Repr

/-- An outcome with all failures alike. -/
def okOnly {α : Type} : Out α → Option α
  | .ok a => some a
  | _ => none

/-- coding_units.cpp:3945-3985, 3990-3996, 4011-4027, 6816-6843 with j2kmarkers.cpp:170-197: what both sides take from SIZ, COD
and QCD, given the fields of COD that are looked up by position: number of levels, block size, style, precinct sizes. -/
def pictureFrom (z : Siz) (c : Cod) (q : Qcd) (nl : Nat) (cb : Nat × Nat) (style : Nat) (pp : List (Nat × Nat)) : Picture :=
  { ax := ⟨z.xsiz, z.xosiz, z.xtsiz, z.xtosiz⟩
    ay := ⟨z.ysiz, z.yosiz, z.ytsiz, z.ytosiz⟩
    depth := fun k => ((z.comps.getD k (0, 0, 0)).1 &&& 0x7F) + 1
    signed := fun k => (z.comps.getD k (0, 0, 0)).1 &&& 0x80 != 0
    cycc := c.colour != 0
    base :=
      { T := ⟨(0, 0), (0, 0), c.layers, z.csiz, fun k =>
          ⟨nl, (z.comps.getD k (0, 0, 0)).2.1, (z.comps.getD k (0, 0, 0)).2.2, fun r => (pp.getD r (0, 0)).1,
            fun r => (pp.getD r (0, 0)).2⟩⟩
        poc := []
        po := c.order
        xcb := Nat.log2 cb.1
        ycb := Nat.log2 cb.2
        sop := c.useSop
        eph := c.useEph
        causal := style == 0x48
        guard := q.guardBits
        steps := fun _ => q.spqcd.take (min ((3 * nl + 1) % 256) (q.spqcd.length % 256)) } }

/-- As `pictureFrom`, from the main header, if it is within the model.  The encoder's header is the one it writes. -/
def pictureOf (h : Hdr) : Option Picture :=
  match h.siz, h.cod, h.qcd with
  | some z, some c, some q => do
    let nl ← okOnly c.levels
    let cb ← okOnly c.blockSize
    let style ← okOnly c.style
    let tr ← okOnly c.transformation
    let pp ← (List.range (nl + 1)).mapM fun r => okOnly (c.precinctSize r)
    let P := pictureFrom z c q nl cb style pp
    if tr = 1 ∧ q.style = 0 ∧ (style = 0x40 ∨ style = 0x48) ∧ (P.cycc && decide (3 ≤ P.nc)) = P.mct ∧ h.coc = [] ∧ h.qcc = [] ∧
      h.rgn = [] ∧ h.poc = none ∧ h.dfs = [] ∧ h.atk = [] ∧ h.ppm = [] then some P else none
  | _, _, _ => none

/-! ### Encoder -/

/-- encoder.cpp:603-606: a tile size whose product, an `uint32_t`, is zero stands for the size of the image. -/
def tileSize (q : Request) : Nat × Nat :=
  if w32 (q.xtsiz * q.ytsiz) = 0 then (usub q.xsiz q.xosiz, usub q.ysiz q.yosiz) else (q.xtsiz, q.ytsiz)

/-- encoder.cpp:595-610: what the encoder refuses; the sums are `uint32_t`. -/
def refused (q : Request) : Bool :=
  decide (q.xsiz < q.xosiz) || decide (q.ysiz < q.yosiz) || decide (q.xosiz < q.xtosiz) || decide (q.yosiz < q.ytosiz) ||
  decide (w32 (q.xtosiz + (tileSize q).1) ≤ q.xosiz) || decide (w32 (q.ytosiz + (tileSize q).2) ≤ q.yosiz)

/-- encoder.cpp:618-629: `use_color_trafo` after the checks, which look for the value 1. -/
def colourUsed (q : Request) : Nat :=
  let s := fun k => (q.comps.getD k (0, 0, 0)).2
  if q.cod.colour = 1 then
    if q.comps.length = 3 ∧ ((s 0).1 ≠ (s 1).1 ∨ (s 1).1 ≠ (s 2).1) ∧ ((s 0).2 ≠ (s 1).2 ∨ (s 1).2 ≠ (s 2).2) then 0
    else if q.comps.length < 3 then 0 else 1
  else q.cod.colour

/-- j2kmarkers.cpp:1009-1020 `get_MAGB`, reversible: the largest exponent. -/
def magb (sp : List Nat) : Nat := sp.foldl (fun t v => if t < v / 8 % 256 then v / 8 % 256 else t) 0

/-- encoder.cpp:653-669: `Ccap15`. -/
def ccap15 (sp : List Nat) : Nat :=
  let m := magb sp
  if m < 27 then (if 8 < m then m - 8 else 0) else if m ≤ 71 then (m - 27) / 4 + 19 else 31

/-- encoder.cpp:670-676: CAP. -/
def capFor (order : Nat) (sp : List Nat) : Cs.Cap :=
  let c := Cs.emptyCap.set (ccap15 sp) 15
  if order = 5 then c.set (2 ^ 14) 2 else c

/-- encoder.cpp:680: the comment, "OpenHTJ2K version 0". -/
def comment : List UInt8 :=
  [79, 112, 101, 110, 72, 84, 74, 50, 75, 32, 118, 101, 114, 115, 105, 111, 110, 32, 48]

/-- encoder.cpp:643-681: the main header, without TLM. -/
def headerFor (q : Request) : Option Hdr := do
  if refused q then none
  let ts := tileSize q
  let col := colourUsed q
  let siz ← okOnly (Cs.mkSiz q.rsiz q.xsiz q.ysiz q.xosiz q.yosiz ts.1 ts.2 q.xtosiz q.ytosiz q.comps.length q.comps true)
  let cod ← okOnly (Cs.mkCod { q.cod with colour := col })
  let depth := ((q.comps.getD 0 (0, 0, 0)).1 &&& 0x7F) + 1
  let sp := quantSteps q.guard q.cod.levels depth col
  let qcd ← okOnly (Cs.mkQcd q.guard q.cod.levels true false sp)
  some { siz := some siz, cod := some cod, qcd := some qcd, cap := some (capFor q.cod.order sp),
         com := [Cs.mkCom comment true] }

/-- encoder.cpp:702-712: TLM, for several tiles. -/
def tlmFor (bodies : List (List UInt8)) : List Cs.Tlm :=
  if 1 < bodies.length then [Cs.mkTlm 0 (List.range bodies.length) (bodies.map fun b => b.length + 14)] else []

/-- encoder.cpp:591-757: a codestream in a buffer. -/
def encodeCodestream (q : Request) (img : Nat → List Int) : Option (List UInt8) := do
  let h ← headerFor q
  let P ← pictureOf h
  let bodies ← encodePicture P img
  let bodies := bodies.map fun b => b.map UInt8.ofNat
  let bytes ← okOnly ({ h with tlm := tlmFor bodies }).flush
  some (Cs.writeContainer bytes bodies)

/-! ### Decoder -/

/-- coding_units.cpp:4001-4008, 4011: the packets of a tile that came in one tile-part, the first one, with nothing in its
header. -/
def bodyOfTile (ps : List Part) : Option (List Nat) :=
  match ps with
  | [p] => if p.hdr = {} ∧ p.sot.tpsot = 0 then some (p.body.map (·.toNat)) else none
  | _ => none

/-- decoder.cpp:281-294, 405-487: the parameters found and the output buffers.  `pad` is what follows the codestream in memory,
`o` what the buffers hold at first. -/
def decodeCodestream (pad : List UInt8) (E : Nat → Env) (fuel : Nat) (bytes : List UInt8) (o : Output) :
    Option (Picture × Output) := do
  let r ← Cs.readContainer pad fuel ⟨bytes, 0⟩
  let r ← okOnly r
  let P ← pictureOf r.1.1
  let bodies ← r.1.2.mapM bodyOfTile
  let out ← decodePicture P E fuel bodies o
  some (P, out)

end Verif.Tile.Pipe
