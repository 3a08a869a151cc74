import Verif.Jpip.Walker
/-
Model of the JPH/JP2 box scanner and box writer.
Source: /repo/source/core/jph/jph.cpp, jph.hpp; codestream_destination.cpp:33-55.
`none` stands for a read outside the buffer or, in the scanner, for a loop that does not end.  Pointers are offsets into
the buffer.
-/
namespace Verif.Jph
open Verif.Jpip (u32At)

/-- jph.cpp:34-37 `jph_read_be32`: four bytes, most significant first (the same arithmetic as `u32At`). -/
def rd32 (d : List UInt8) (i : Nat) : Option Nat := u32At d i

/-- jph.cpp:38-41 `jph_read_be64`. -/
def rd64 (d : List UInt8) (i : Nat) : Option Nat := do
  let a ← rd32 d i
  let b ← rd32 d (i + 4)
  return a * 2 ^ 32 + b

/-- jph.cpp:43-45. -/
def tJp2h : Nat := 0x6A703268
def tColr : Nat := 0x636F6C72
def tJp2c : Nat := 0x6A703263

/-- jph.hpp:47-51 `jph_info`; the codestream as (offset, size). -/
structure Info where
  cs : Option (Nat × Nat) := none
  enumCs : Nat := 0
  deriving DecidableEq, Repr

/-- jph.cpp:54-75: type, start and end of the box at `p`; `some none` for `return`. -/
def boxAt (d : List UInt8) (p e : Nat) : Option (Option (Nat × Nat × Nat)) := do
  let lbox ← rd32 d p
  let tbox ← rd32 d (p + 4)
  if lbox = 1 then
    if e < p + 16 then some none
    else do
      let xlen ← rd64 d (p + 8)
      if xlen < 16 ∨ e - p < xlen then some none else some (some (tbox, p + 16, p + xlen))
  else if lbox = 0 then some (some (tbox, p + 8, e))
  else if lbox < 8 then some none
  else some (some (tbox, p + 8, if lbox ≤ e - p then p + lbox else e))

/-- jph.cpp:78-82: the colour specification box. -/
def colrBox (d : List UInt8) (payload bend : Nat) (o : Info) : Option Info :=
  if payload + 7 ≤ bend then do
    let m ← d[payload]?
    if m = 1 then do
      let v ← rd32 d (payload + 3)
      some { o with enumCs := v }
    else some o
  else some o

/-- jph.cpp:76-85: what one box does to the result; `sub` scans a superbox. -/
def boxEffect (d : List UInt8) (sub : Nat → Nat → Info → Option Info) (tbox payload bend : Nat) (o : Info) : Option Info :=
  if tbox = tJp2h then sub payload bend o
  else if tbox = tColr then colrBox d payload bend o
  else if tbox = tJp2c then some { o with cs := some (payload, bend - payload) }
  else some o

/-- jph.cpp:53-87: the loop; `sub` scans a superbox.  The fuel bounds the number of turns. -/
def boxLoop (d : List UInt8) (sub : Nat → Nat → Info → Option Info) : Nat → Nat → Nat → Info → Option Info
  | 0, _, _, _ => none
  | f + 1, p, e, o =>
    if p + 8 ≤ e then do
      match ← boxAt d p e with
      | none => some o
      | some (tbox, payload, bend) => do
        let o ← boxEffect d sub tbox payload bend o
        boxLoop d sub f bend e o
    else some o

/-- jph.cpp:50-88 `jph_scan_boxes`.  The first argument is `JPH_MAX_BOX_DEPTH + 1 - depth`.  Every box has at least eight
bytes, so the loop is given fuel for one turn per eight bytes. -/
def scanBoxes (d : List UInt8) : Nat → Nat → Nat → Info → Option Info
  | 0, _, _, o => some o
  | k + 1, p, e, o => boxLoop d (scanBoxes d k) ((e - p) / 8 + 1) p e o

/-- jph.cpp:90-94 `jph_is_signature`. -/
def isSignature (d : List UInt8) : Option Bool :=
  if d.length < 12 then some false
  else do
    let a ← rd32 d 0
    let b ← rd32 d 4
    let c ← rd32 d 8
    return a = 12 ∧ b = 0x6A502020 ∧ c = 0x0D0A870A

/-- jph.cpp:96-100 `jph_parse_buffer` on a default-initialised `out`: the return value and `out`. -/
def parseBuffer (d : List UInt8) : Option (Bool × Info) := do
  if ← isSignature d then do
    let o ← scanBoxes d 17 0 d.length {}
    return (match o.cs with | none => false | some c => decide (0 < c.2), o)
  else return (false, {})

/-! ### Writer -/

/-- codestream_destination.cpp:39-45 `put_word`. -/
def putWord (w : Nat) : List UInt8 := [UInt8.ofNat (w >>> 8), UInt8.ofNat (w &&& 0xFF)]
/-- codestream_destination.cpp:47-53 `put_dword`. -/
def putDword (w : Nat) : List UInt8 := putWord (w >>> 16) ++ putWord (w &&& 0xFFFF)

/-- What the boxes take from SIZ: image size and origin and the `Ssiz` byte of each component. -/
structure ImageHdr where
  xsiz : Nat
  ysiz : Nat
  xosiz : Nat
  yosiz : Nat
  ssiz : List Nat

/-- j2kmarkers.cpp:181-184 `get_bitdepth`, less one. -/
def depthM1 (s : Nat) : Nat := s &&& 0x7F
/-- j2kmarkers.cpp:172-179 `is_signed`. -/
def signBit (s : Nat) : Nat := if s &&& 0x80 = 0 then 0 else 0x80

/-- jph.cpp:139-154: the BPC field. -/
def bpcField (h : ImageHdr) : Nat :=
  let val := if h.ssiz.tail.any (fun s => depthM1 (h.ssiz.headD 0) != depthM1 s) then 0xFF else depthM1 (h.ssiz.headD 0)
  val ||| signBit (h.ssiz.headD 0)

/-- jph.cpp:155-161 `needBPCC`. -/
def needBpcc (h : ImageHdr) : Bool := bpcField h = 0xFF

/-- jph.cpp:139-172 `image_header_box`. -/
def ihdrBox (h : ImageHdr) : List UInt8 :=
  putDword 22 ++ putDword 0x69686472 ++ putDword (h.ysiz - h.yosiz) ++ putDword (h.xsiz - h.xosiz) ++
    putWord h.ssiz.length ++ [UInt8.ofNat (bpcField h), 7, 0, 0]

/-- jph.cpp:174-188 `bits_per_component_box`. -/
def bpccBox (h : ImageHdr) : List UInt8 :=
  putDword (8 + h.ssiz.length) ++ putDword 0x62706363 ++ h.ssiz.map fun s => UInt8.ofNat (depthM1 s ||| signBit s)

/-- jph.cpp:190-204: EnumCS; `none` for the exception. -/
def enumCsOf (h : ImageHdr) (srgb : Bool) : Option Nat :=
  if h.ssiz.length = 3 then some (if srgb then 16 else 18)
  else if h.ssiz.length = 1 then some 17
  else none

/-- jph.cpp:190-212 `colour_specification_box`. -/
def colrOut (cs : Nat) : List UInt8 := putDword 15 ++ putDword 0x636F6C72 ++ [1, 0, 0] ++ putDword cs

/-- jph.cpp:214-220: LBox of the header box. -/
def jp2hLen (h : ImageHdr) : Nat := 8 + 22 + 15 + if needBpcc h then 8 + h.ssiz.length else 0

/-- jph.cpp:214-229 `header_box`. -/
def jp2hBox (h : ImageHdr) (cs : Nat) : List UInt8 :=
  putDword (jp2hLen h) ++ putDword 0x6A703268 ++ ihdrBox h ++ (if needBpcc h then bpccBox h else []) ++ colrOut cs

/-- jph.cpp:231-238: LBox of the codestream box, 32-bit arithmetic. -/
def jp2cLen (len : Nat) : Nat := (len % 2 ^ 32 + 8) % 2 ^ 32

/-- jph.cpp:103-137, 240-250 `jph_boxes(hdr, 1, isSRGB, len).write`: the bytes in front of the codestream and the
returned length; `none` for the exception. -/
def writeBoxes (h : ImageHdr) (srgb : Bool) (len : Nat) : Option (List UInt8 × Nat) := do
  let cs ← enumCsOf h srgb
  return (putDword 12 ++ putDword 0x6A502020 ++ putDword 0x0D0A870A ++
      (putDword 20 ++ putDword 0x66747970 ++ putDword 0x6A706820 ++ putDword 0 ++ putDword 0x6A706820) ++
      jp2hBox h cs ++ (putDword (jp2cLen len) ++ putDword 0x6A703263),
    12 + 20 + jp2hLen h + jp2cLen len)

/-- encoder.cpp:730-746, 762-775: the file the encoder makes from a codestream, and the length it reports. -/
def encodeFile (h : ImageHdr) (srgb : Bool) (code : List UInt8) : Option (List UInt8 × Nat) :=
  (writeBoxes h srgb code.length).map fun r => (r.1 ++ code, r.2)

end Verif.Jph
