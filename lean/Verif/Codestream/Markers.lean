import Verif.Codestream.Source
import Verif.Jph.Boxes
/-
Model of the marker segments: their construction and writing by the encoder, their reading by the decoder, and the main
header and tile-part header loops.
Source: /repo/source/core/codestream/j2kmarkers.cpp, j2kmarkers.hpp, marker_def.hpp.
The release build is modelled: `assert` does nothing.  Numbers are `Nat`; where the C++ type can overflow, the reduction is
written out.  A `uint8_t *` into the source is the list of the bytes from there to the end of the memory.
-/
namespace Verif.Cs
open Verif.Jph (putWord putDword)

/-! ### Reading inside one segment -/

/-- j2kmarkers.hpp:43-66 `j2k_marker_io_base`: the declared length, the bytes from `buf + pos` to the end of the memory, and
`pos`. -/
structure Mk where
  lmar : Nat
  mem : List UInt8
  pos : Nat
  deriving DecidableEq, Repr

/-- A reading constructor after its first three lines. -/
def Rd (α : Type) : Type := Mk → Out (α × Mk)

instance : Monad Rd where
  pure a := fun m => .ok (a, m)
  bind f g := fun m => (f m).bind fun r => g r.1 r.2

/-- `throw std::exception()` unless the condition holds. -/
def rGuard (c : Prop) [Decidable c] : Rd Unit := fun m => if c then .ok ((), m) else .throws

/-- `Lmar`. -/
def rLmar : Rd Nat := fun m => .ok (m.lmar, m)

/-- `get_buf()`: the bytes from the cursor on. -/
def rBuf : Rd (List UInt8) := fun m => .ok (m.mem, m)

/-- j2kmarkers.cpp:49-63 `get_byte`: the bound is `Lmar`, two more than the number of bytes of the body. -/
def rByte : Rd Nat := fun m =>
  if m.lmar ≤ m.pos then .throws
  else match m.mem with
    | [] => .ub
    | b :: rest => .ok (b.toNat, { m with mem := rest, pos := m.pos + 1 })

/-- j2kmarkers.cpp:65-69 `get_word`, operands read left to right. -/
def rWord : Rd Nat := do
  let a ← rByte
  let b ← rByte
  return a * 256 + b

/-- j2kmarkers.cpp:71-75 `get_dword`. -/
def rDword : Rd Nat := do
  let a ← rWord
  let b ← rWord
  return a * 65536 + b

/-- A loop that reads `n` items and stores them in a vector. -/
def rRep {α : Type} (f : Rd α) : Nat → Rd (List α)
  | 0 => pure []
  | n + 1 => do
    let a ← f
    let l ← rRep f n
    return a :: l

/-- `static_cast<size_t>(a - b)` of two small `int`s. -/
def usz (a b : Nat) : Nat := if b ≤ a then a - b else a + 2 ^ 64 - b

/-- `static_cast<size_t>((a - b) / k)`: an `int` division, which rounds towards zero. -/
def uszDiv (a b k : Nat) : Nat := if b ≤ a then (a - b) / k else if (b - a) / k = 0 then 0 else 2 ^ 64 - (b - a) / k

/-- The first three lines of every reading constructor (j2kmarkers.cpp:83-85 and so on): the length, the pointer to the body,
and moving over the body (`get_N_byte` onto itself).  `pad` is what follows the codestream in memory
(codestream_source.cpp:49, 70: 16 bytes). -/
def segment {α : Type} (pad : List UInt8) (f : Rd α) (s : Src) : Out (α × Src) :=
  s.getWord.bind fun l =>
    (l.2.getBytes (sub32 l.1 2)).bind fun b =>
      (f ⟨l.1, l.2.buf.drop l.2.pos ++ pad, 0⟩).bind fun r => .ok (r.1, b.2)

/-! ### SIZ -/

/-- j2kmarkers.hpp:71-86 `SIZ_marker`; the vectors `Ssiz`, `XRsiz`, `YRsiz`, filled together, are one list of triples. -/
structure Siz where
  lmar : Nat
  rsiz : Nat
  xsiz : Nat
  ysiz : Nat
  xosiz : Nat
  yosiz : Nat
  xtsiz : Nat
  ytsiz : Nat
  xtosiz : Nat
  ytosiz : Nat
  csiz : Nat
  comps : List (Nat × Nat × Nat)
  deriving DecidableEq, Repr

/-- j2kmarkers.cpp:109-121, one component. -/
def rComp : Rd (Nat × Nat × Nat) := do
  let s ← rByte
  let x ← rByte
  let y ← rByte
  rGuard (x ≠ 0 ∧ y ≠ 0)
  return (s, x, y)

/-- j2kmarkers.cpp:82-123 `SIZ_marker(in)`. -/
def readSiz : Rd Siz := do
  let l ← rLmar
  let rsiz ← rWord
  let xsiz ← rDword
  let ysiz ← rDword
  let xosiz ← rDword
  let yosiz ← rDword
  let xtsiz ← rDword
  let ytsiz ← rDword
  let xtosiz ← rDword
  let ytosiz ← rDword
  let csiz ← rWord
  rGuard (1 ≤ csiz ∧ csiz ≤ 16384)
  rGuard ((38 + 3 * csiz) % 2 ^ 16 ≤ l)
  let comps ← rRep rComp csiz
  return ⟨l, rsiz, xsiz, ysiz, xosiz, yosiz, xtsiz, ytsiz, xtosiz, ytosiz, csiz, comps⟩

/-- j2kmarkers.cpp:124-147 `SIZ_marker(R, X, …, needCAP)`; reading a vector beyond its end is undefined. -/
def mkSiz (r x y xo yo xt yt xto yto c : Nat) (comps : List (Nat × Nat × Nat)) (needCap : Bool) : Out Siz :=
  if comps.length < c then .ub
  else .ok ⟨(38 + 3 * c) % 2 ^ 16, r ||| (if needCap then 1 <<< 14 else 0), x, y, xo, yo, xt, yt, xto, yto, c, comps.take c⟩

/-- j2kmarkers.cpp:149-173 `SIZ_marker::write`. -/
def Siz.write (z : Siz) : List UInt8 :=
  putWord 0xFF51 ++ putWord z.lmar ++ putWord z.rsiz ++ putDword z.xsiz ++ putDword z.ysiz ++ putDword z.xosiz ++
  putDword z.yosiz ++ putDword z.xtsiz ++ putDword z.ytsiz ++ putDword z.xtosiz ++ putDword z.ytosiz ++ putWord z.csiz ++
  (z.comps.take z.csiz).flatMap fun c => [UInt8.ofNat c.1, UInt8.ofNat c.2.1, UInt8.ofNat c.2.2]

/-! ### CAP -/

/-- j2kmarkers.hpp:108-122 `CAP_marker`; `ccap` has 32 entries. -/
structure Cap where
  lmar : Nat
  pcap : Nat
  ccap : List Nat
  deriving DecidableEq, Repr

/-- j2kmarkers.cpp:251-255, the loop over the bits of `Pcap` from `i` up to 31: the new `Ccap` entries and `n`, a 64-bit
counter. -/
def rCaps (pcap : Nat) : List Nat → Nat → Rd (List Nat × Nat)
  | [], n => pure ([], n)
  | i :: is, n =>
    if pcap.testBit (31 - i) then do
      let w ← rWord
      let r ← rCaps pcap is (usz n 1)
      return (w :: r.1, r.2)
    else do
      let r ← rCaps pcap is n
      return (0 :: r.1, r.2)

/-- j2kmarkers.cpp:244-269 `CAP_marker(in)`. -/
def readCap : Rd Cap := do
  let l ← rLmar
  let pcap ← rDword
  let r ← rCaps pcap (List.range 32) (sub32 l 6 / 2)
  rGuard (r.2 = 0)
  return ⟨l, pcap, r.1⟩

/-- j2kmarkers.cpp:242 `CAP_marker()`. -/
def emptyCap : Cap := ⟨6, 0, List.replicate 32 0⟩

/-- j2kmarkers.cpp:278-289 `set_Ccap` and `set_Pcap`. -/
def Cap.set (c : Cap) (val part : Nat) : Cap :=
  ⟨(c.lmar + 2) % 2 ^ 16, c.pcap ||| 1 <<< (32 - part), c.ccap.set (part - 1) val⟩

/-- j2kmarkers.cpp:291-302 `CAP_marker::write`. -/
def Cap.write (c : Cap) : List UInt8 :=
  putWord 0xFF50 ++ putWord c.lmar ++ putDword c.pcap ++
  (List.range 32).flatMap fun n => if c.pcap.testBit (32 - n - 1) then putWord (c.ccap.getD n 0) else []

/-! ### PRF, CPF -/

/-- j2kmarkers.cpp:329-345 `PRF_marker(in)`: the words and `PRFnum`. -/
def readPrf : Rd (List Nat × Nat) := do
  let l ← rLmar
  let ws ← rRep rWord (sub32 l 2 / 2)
  return (ws, (4095 + ((ws.take 4).zipIdx.map fun p => p.1 * 2 ^ (16 * p.2)).sum) % 2 ^ 64)

/-- j2kmarkers.cpp:308-322 `CPF_marker(in)`. -/
def readCpf : Rd (List Nat) := do
  let l ← rLmar
  rRep rWord (usz l 2 / 2)

/-! ### COD and COC -/

/-- j2kmarkers.hpp:155-178 `COD_marker`. -/
structure Cod where
  lmar : Nat
  scod : Nat
  sgcod : Nat
  spcod : List Nat
  deriving DecidableEq, Repr

/-- j2kmarkers.cpp:350-377 `COD_marker(in)`.  `resize` to a size beyond `max_size()` throws; the vector starts with five
zeros. -/
def readCod : Rd Cod := do
  let l ← rLmar
  let scod ← rByte
  let sgcod ← rDword
  rGuard (usz l 7 < 2 ^ 62)
  let sp ← rRep rByte (usz l 7)
  let spcod := sp ++ List.replicate (5 - sp.length) 0
  rGuard (spcod.headD 0 ≤ 32)
  return ⟨l, scod, sgcod, spcod⟩

/-- Arguments of the encoder's `COD_marker` constructor. -/
structure CodParams where
  maxPrecincts : Bool
  sop : Bool
  eph : Bool
  order : Nat
  layers : Nat
  colour : Nat
  levels : Nat
  xcb : Nat
  ycb : Nat
  style : Nat
  reversible : Nat
  ppx : List Nat
  ppy : List Nat
  deriving DecidableEq, Repr

/-- j2kmarkers.cpp:424-430: the precinct sizes of `n` levels, the last given pair being repeated. -/
def tmpPP : List (Nat × Nat) → Nat × Nat → Nat → List Nat
  | _, _, 0 => []
  | p :: ps, _, n + 1 => (p.1 + p.2 <<< 4) % 2 ^ 8 :: tmpPP ps p n
  | [], last, n + 1 => (last.1 + last.2 <<< 4) % 2 ^ 8 :: tmpPP [] last n

/-- j2kmarkers.cpp:379-437 `COD_marker(is_max_precincts, …)`. -/
def mkCod (p : CodParams) : Out Cod :=
  if p.ppx.length ≠ p.ppy.length then .throws
  else .ok
    { lmar := (if p.maxPrecincts then 12 else 13 + p.levels) % 2 ^ 16
      scod := (if p.maxPrecincts then 0 else 1) ||| (if p.sop then 2 else 0) ||| (if p.eph then 4 else 0)
      sgcod := (p.order <<< 24 + p.layers <<< 8 + p.colour) % 2 ^ 32
      spcod := [p.levels, p.xcb, p.ycb, p.style, p.reversible] ++
        (if p.maxPrecincts then [] else (tmpPP (p.ppx.zip p.ppy) (0, 0) (p.levels + 1)).reverse) }

/-- j2kmarkers.cpp:439-448 `COD_marker::write`. -/
def Cod.write (c : Cod) : List UInt8 :=
  putWord 0xFF52 ++ putWord c.lmar ++ [UInt8.ofNat c.scod] ++ putDword c.sgcod ++ c.spcod.map UInt8.ofNat

/-- j2kmarkers.cpp:442-488, the queries. -/
def Cod.isMax (c : Cod) : Bool := c.scod &&& 1 == 0
def Cod.useSop (c : Cod) : Bool := c.scod &&& 2 != 0
def Cod.useEph (c : Cod) : Bool := c.scod &&& 4 != 0
def Cod.order (c : Cod) : Nat := (c.sgcod >>> 24) % 2 ^ 8
def Cod.layers (c : Cod) : Nat := (c.sgcod >>> 8) &&& 0xFFFF
def Cod.colour (c : Cod) : Nat := c.sgcod &&& 0xFF
/-- `SPcod[i]`; reading beyond the end is undefined. -/
def Cod.sp (c : Cod) (i : Nat) : Out Nat := match c.spcod[i]? with | none => .ub | some v => .ok v
def Cod.levels (c : Cod) : Out Nat := c.sp 0
def Cod.style (c : Cod) : Out Nat := c.sp 3
def Cod.transformation (c : Cod) : Out Nat := c.sp 4

/-- j2kmarkers.cpp:458-471 `get_codeblock_size`. -/
def Cod.blockSize (c : Cod) : Out (Nat × Nat) :=
  (c.sp 1).bind fun x => (c.sp 2).bind fun y =>
    if 8 < x ∨ 8 < y ∨ 8 < x + y then .throws else .ok (1 <<< (x + 2), 1 <<< (y + 2))

/-- j2kmarkers.cpp:473-489 `get_precinct_size`. -/
def Cod.precinctSize (c : Cod) (r : Nat) : Out (Nat × Nat) :=
  if c.isMax then .ok (15, 15)
  else if c.spcod.length ≤ 5 + r then .throws
  else (c.sp (5 + r)).bind fun v => .ok (v &&& 0x0F, (v &&& 0xF0) >>> 4)

/-- j2kmarkers.hpp:183-202 `COC_marker`. -/
structure Coc where
  lmar : Nat
  comp : Nat
  scoc : Nat
  spcoc : List Nat
  deriving DecidableEq, Repr

/-- A component index: one byte when there are fewer than 257 components, else two. -/
def rCompIdx (csiz : Nat) : Rd Nat := if csiz < 257 then rByte else rWord

/-- `len` after the length field and a component index. -/
def idxLen (csiz : Nat) : Nat := if csiz < 257 then 3 else 4

/-- j2kmarkers.cpp:504-530 `COC_marker(in, Csiz)`: the vector starts empty. -/
def readCoc (csiz : Nat) : Rd Coc := do
  let l ← rLmar
  let c ← rCompIdx csiz
  let s ← rByte
  let sp ← rRep rByte (usz l (idxLen csiz + 1))
  return ⟨l, c, s, sp⟩

/-- `SPcoc[i]`. -/
def Coc.sp (c : Coc) (i : Nat) : Out Nat := match c.spcoc[i]? with | none => .ub | some v => .ok v

/-- j2kmarkers.cpp:536 `is_dfs_defined`. -/
def Coc.dfs (c : Coc) : Out Bool := (c.sp 0).bind fun v => .ok (v &&& 0x80 != 0)

/-- j2kmarkers.cpp:542 `get_dwt_levels`. -/
def Coc.levels (c : Coc) : Out Nat := (c.sp 0).bind fun v => .ok (v &&& 0x1F)

/-! ### RGN, DFS, ATK -/

/-- j2kmarkers.cpp:583-604 `RGN_marker(in, Csiz)`: component, style, shift. -/
def readRgn (csiz : Nat) : Rd (Nat × Nat × Nat × Nat) := do
  let l ← rLmar
  let c ← rCompIdx csiz
  let s ← rByte
  let sp ← rByte
  return (l, c, s, sp)

/-- j2kmarkers.hpp:223-257 `DFS_marker`, without the tables derived from `ddfs`. -/
structure Dfs where
  sdfs : Nat
  ids : Nat
  ddfs : List Nat
  deriving DecidableEq, Repr

/-- The four 2-bit fields of a byte, first the highest. -/
def quads (b : Nat) : List Nat := [b >>> 6 &&& 3, b >>> 4 &&& 3, b >>> 2 &&& 3, b &&& 3]

/-- j2kmarkers.cpp:612-634 `DFS_marker(in)`. -/
def readDfs : Rd Dfs := do
  let sdfs ← rWord
  let ids ← rByte
  rGuard (ids ≤ 32)
  let bs ← rRep rByte ((ids + 3) / 4)
  return ⟨sdfs, ids, (bs.flatMap quads).take ids⟩

/-- j2kmarkers.hpp:269-290 `ATK_marker`; the floats are their 32-bit patterns (1.0 is `0x3F800000`). -/
structure Atk where
  satk : Nat
  katk : Nat
  natk : Nat
  steps : List (Nat × Nat)
  deriving DecidableEq, Repr

/-- One lifting step. -/
def rStep : Rd (Nat × Nat) := do
  let m ← rByte
  let a ← rDword
  return (m, a)

/-- Lines 695-699: the gain of an irreversible kernel. -/
def rKatk (satk : Nat) : Rd Nat := if satk.testBit 12 then pure 0x3F800000 else rDword

/-- Lines 701-710: the steps of an irreversible kernel. -/
def rSteps (satk natk : Nat) : Rd (List (Nat × Nat)) := if satk.testBit 12 then pure [] else rRep rStep natk

/-- j2kmarkers.cpp:690-712 `ATK_marker(in)`. -/
def readAtk : Rd Atk := do
  let satk ← rWord
  let katk ← rKatk satk
  let natk ← rByte
  let steps ← rSteps satk natk
  return ⟨satk, katk, natk, steps⟩

/-! ### QCD and QCC -/

/-- j2kmarkers.hpp:295-316 `QCD_marker`. -/
structure Qcd where
  lmar : Nat
  sqcd : Nat
  spqcd : List Nat
  reversible : Bool
  deriving DecidableEq, Repr

/-- The quantisation values: `nb` bytes for the reversible style, else `nw` words. -/
def rQuant (style nb nw : Nat) : Rd (List Nat) := if style &&& 0x1F = 0 then rRep rByte nb else rRep rWord nw

/-- j2kmarkers.cpp:888-912 `QCD_marker(in)`; `is_reversible` keeps its default `false`. -/
def readQcd : Rd Qcd := do
  let l ← rLmar
  let s ← rByte
  rGuard ((if s &&& 0x1F = 0 then usz l 3 else usz l 3 / 2) < 2 ^ 62)
  let sp ← rQuant s (usz l 3) (usz l 3 / 2)
  return ⟨l, s, sp, false⟩

/-- j2kmarkers.cpp:914-964 `QCD_marker(number_of_guardbits, …)`.  `sp` is what `build_quant_steps` (floating point, not
modelled) returned; `derived` is `is_derived` after lines 919-922.  `reversible ∧ derived` makes `build_quant_steps` throw. -/
def mkQcd (guard levels : Nat) (reversible derived : Bool) (sp : List Nat) : Out Qcd :=
  if reversible && derived then .throws
  else .ok
    { lmar := (if reversible then 4 + 3 * levels else if derived then 5 else 5 + 6 * levels) % 2 ^ 16
      sqcd := ((if reversible then 0 else if derived then 1 else 2) + guard <<< 5) % 2 ^ 8
      spqcd := sp
      reversible := reversible }

/-- j2kmarkers.cpp:966-982 `QCD_marker::write`. -/
def Qcd.write (q : Qcd) : List UInt8 :=
  putWord 0xFF5C ++ putWord q.lmar ++ [UInt8.ofNat q.sqcd] ++
  (if q.reversible then q.spqcd.map UInt8.ofNat else q.spqcd.flatMap putWord)

/-- j2kmarkers.cpp:984-1021, the queries. -/
def Qcd.style (q : Qcd) : Nat := q.sqcd &&& 0x1F
def Qcd.guardBits (q : Qcd) : Nat := q.sqcd >>> 5
/-- `get_exponents`; any style other than 0 and 1 counts as expounded in the release build. -/
def Qcd.exponent (q : Qcd) (nb : Nat) : Out Nat :=
  match q.spqcd[if q.style = 1 then 0 else nb]? with
  | none => .ub
  | some v => .ok ((if q.style = 0 then v >>> 3 else v >>> 11) % 2 ^ 8)
/-- `get_mantissas`. -/
def Qcd.mantissa (q : Qcd) (nb : Nat) : Out Nat :=
  match q.spqcd[if q.style = 1 then 0 else nb]? with
  | none => .ub
  | some v => .ok (v &&& 0x7FF)

/-- j2kmarkers.hpp:321-343 `QCC_marker`. -/
structure Qcc where
  lmar : Nat
  maxComps : Nat
  comp : Nat
  sqcc : Nat
  spqcc : List Nat
  reversible : Bool
  deriving DecidableEq, Repr

/-- j2kmarkers.cpp:1083-1120 `QCC_marker(in, Csiz)`; `is_reversible`, which nothing reads later, is left unset. -/
def readQcc (csiz : Nat) : Rd Qcc := do
  let l ← rLmar
  let c ← rCompIdx csiz
  let s ← rByte
  let sp ← rQuant s (usz l (idxLen csiz + 1)) (uszDiv l (idxLen csiz + 1) 2)
  return ⟨l, csiz, c, s, sp, false⟩

/-- j2kmarkers.cpp:1025-1081 `QCC_marker(Csiz, c, …)`, with the remarks of `mkQcd`. -/
def mkQcc (csiz c guard levels : Nat) (reversible derived : Bool) (sp : List Nat) : Out Qcc :=
  if reversible && derived then .throws
  else .ok
    { lmar := ((if reversible then 5 + 3 * levels else if derived then 6 else 6 + 6 * levels) +
        (if 257 ≤ csiz then 1 else 0)) % 2 ^ 16
      maxComps := csiz
      comp := c
      sqcc := ((if reversible then 0 else if derived then 1 else 2) + guard <<< 5) % 2 ^ 8
      spqcc := sp
      reversible := reversible }

/-- j2kmarkers.cpp:1122-1143 `QCC_marker::write`. -/
def Qcc.write (q : Qcc) : List UInt8 :=
  putWord 0xFF5D ++ putWord q.lmar ++ (if q.maxComps < 257 then [UInt8.ofNat q.comp] else putWord q.comp) ++
  [UInt8.ofNat q.sqcc] ++ (if q.reversible then q.spqcc.map UInt8.ofNat else q.spqcc.flatMap putWord)

/-! ### POC, TLM -/

/-- j2kmarkers.hpp:348-364 `POC_marker`, one entry: `RSpoc`, `CSpoc`, `LYEpoc`, `REpoc`, `CEpoc`, `Ppoc`. -/
structure PocEntry where
  rs : Nat
  cs : Nat
  lye : Nat
  re : Nat
  ce : Nat
  p : Nat
  deriving DecidableEq, Repr

/-- j2kmarkers.cpp:1205-1251, one round of the loop. -/
def rPoc (csiz : Nat) : Rd PocEntry := do
  let rs ← rByte
  let cs ← rCompIdx csiz
  let lye ← rWord
  let re ← rByte
  let ce ← rCompIdx csiz
  let p ← rByte
  return ⟨rs, cs, lye, re, ce, p⟩

/-- j2kmarkers.cpp:1193-1253 `POC_marker(in, Csiz)`. -/
def readPoc (csiz : Nat) : Rd (Nat × List PocEntry) := do
  let l ← rLmar
  let es ← rRep (rPoc csiz) (uszDiv l 2 (if csiz < 257 then 7 else 9))
  return (l, es)

/-- j2kmarkers.hpp:369-390 `TLM_marker`. -/
structure Tlm where
  ztlm : Nat
  stlm : Nat
  ttlm : List Nat
  ptlm : List Nat
  deriving DecidableEq, Repr

/-- The fields `ST` and `SP` of `Stlm`. -/
def tlmST (s : Nat) : Nat := s >>> 4 &&& 3
def tlmSP (s : Nat) : Nat := (s >>> 4 &&& 0x0C) >>> 2
/-- Bytes of an entry. -/
def tlmEntry (s : Nat) : Nat := (if tlmST s = 0 then 0 else if tlmST s = 1 then 1 else 2) + (if tlmSP s = 0 then 2 else 4)

/-- Lines 1307-1319: the tile index. -/
def rTlmTile (s : Nat) : Rd (List Nat) := if tlmST s = 1 then rRep rByte 1 else if tlmST s = 2 then rRep rWord 1 else pure []

/-- Lines 1320-1333: the length. -/
def rTlmLen (s : Nat) : Rd Nat := if tlmSP s = 0 then rWord else rDword

/-- j2kmarkers.cpp:1306-1334, one round: a tile index, if there is one, and a length. -/
def rTlm (s : Nat) : Rd (List Nat × Nat) := do
  let t ← rTlmTile s
  let p ← rTlmLen s
  return (t, p)

/-- j2kmarkers.cpp:1277-1337 `TLM_marker(in)`. -/
def readTlm : Rd Tlm := do
  let l ← rLmar
  let z ← rByte
  let s ← rByte
  let es ← rRep (rTlm s) (uszDiv l 4 (tlmEntry s))
  return ⟨z, s, es.flatMap Prod.fst, es.map Prod.snd⟩

/-- j2kmarkers.cpp:1339-1348 `TLM_marker(ztlm, tile_indices, tile_part_lengths)`. -/
def mkTlm (z : Nat) (tiles lengths : List Nat) : Tlm :=
  ⟨z, (if tiles = [] then 0 else 2) <<< 4 ||| 1 <<< 6, tiles, lengths⟩

/-- j2kmarkers.cpp:1350-1365 `TLM_marker::write`; reading `Ttlm` beyond its end is undefined. -/
def Tlm.write (t : Tlm) : Out (List UInt8) :=
  if tlmST t.stlm ≠ 0 ∧ tlmST t.stlm ≠ 3 ∧ t.ttlm.length < t.ptlm.length then .ub
  else .ok (putWord 0xFF55 ++ putWord ((4 + t.ptlm.length * tlmEntry t.stlm) % 2 ^ 16) ++
    [UInt8.ofNat t.ztlm, UInt8.ofNat t.stlm] ++
    t.ptlm.zipIdx.flatMap fun p =>
      (if tlmST t.stlm = 1 then [UInt8.ofNat (t.ttlm.getD p.2 0)] else if tlmST t.stlm = 2 then putWord (t.ttlm.getD p.2 0)
        else []) ++
      (if tlmSP t.stlm = 0 then putWord (p.1 % 2 ^ 16) else putDword p.1))

/-! ### PLM, PPM, PLT, PPT, CRG, COM, SOT -/

/-- The common shape of `PLM_marker`, `PPM_marker`, `PLT_marker`, `PPT_marker`: the index, the 16-bit length, and the bytes
from the stored pointer on. -/
structure Raw where
  lmar : Nat
  z : Nat
  len : Nat
  mem : List UInt8
  deriving DecidableEq, Repr

/-- j2kmarkers.cpp:1372-1384, 1390-1401, 1539-1550, 1556-1566. -/
def readRaw : Rd Raw := do
  let l ← rLmar
  let z ← rByte
  let m ← rBuf
  return ⟨l, z, if 3 ≤ l then l - 3 else l + 2 ^ 16 - 3, m⟩

/-- One entry of CRG. -/
def rPair : Rd (Nat × Nat) := do
  let x ← rWord
  let y ← rWord
  return (x, y)

/-- j2kmarkers.cpp:1410-1426 `CRG_marker(in)`. -/
def readCrg : Rd (List (Nat × Nat)) := do
  let l ← rLmar
  rRep rPair (uszDiv l 2 4)

/-- j2kmarkers.hpp:437-447 `COM_marker`. -/
structure Com where
  lmar : Nat
  rcom : Nat
  ccom : List Nat
  deriving DecidableEq, Repr

/-- j2kmarkers.cpp:1431-1447 `COM_marker(in)`. -/
def readCom : Rd Com := do
  let l ← rLmar
  let r ← rWord
  let cs ← rRep rByte (usz l 4)
  return ⟨l, r, cs⟩

/-- j2kmarkers.cpp:1449-1462 `COM_marker(com, is_text)`. -/
def mkCom (com : List UInt8) (isText : Bool) : Com := ⟨(4 + com.length) % 2 ^ 16, if isText then 1 else 0, com.map (·.toNat)⟩

/-- j2kmarkers.cpp:1464-1473 `COM_marker::write`. -/
def Com.write (c : Com) : List UInt8 := putWord 0xFF64 ++ putWord c.lmar ++ putWord c.rcom ++ c.ccom.map UInt8.ofNat

/-- j2kmarkers.hpp:452-472 `SOT_marker`. -/
structure Sot where
  isot : Nat
  psot : Nat
  tpsot : Nat
  tnsot : Nat
  deriving DecidableEq, Repr

/-- j2kmarkers.cpp:1493-1496. -/
def readSotBody : Rd Sot := do
  let i ← rWord
  let p ← rDword
  let t ← rByte
  let n ← rByte
  return ⟨i, p, t, n⟩

/-- j2kmarkers.cpp:1485-1498 `SOT_marker(in)`: the length is checked before the body is entered. -/
def readSot (pad : List UInt8) (s : Src) : Out (Sot × Src) :=
  s.getWord.bind fun l => if l.1 ≠ 10 then .throws else segment pad readSotBody s

/-- j2kmarkers.cpp:1500-1512 `set_SOT_marker` and `set_tile_part_length`: `length` bytes of packets, 32-bit sum. -/
def mkSot (tile part parts length : Nat) : Sot := ⟨tile, (length + 10 + 2 + 2) % 2 ^ 32, part, parts⟩

/-- j2kmarkers.cpp:1514-1524 `SOT_marker::write`, which also writes SOD. -/
def Sot.write (s : Sot) : List UInt8 :=
  putWord 0xFF90 ++ putWord 10 ++ putWord s.isot ++ putDword s.psot ++ [UInt8.ofNat s.tpsot, UInt8.ofNat s.tnsot] ++
  putWord 0xFF93

/-! ### The main header -/

/-- j2kmarkers.hpp:512-550 `j2k_main_header`.  The chain of PPM buffers is the list of its nodes. -/
structure Hdr where
  siz : Option Siz := none
  cap : Option Cap := none
  prf : Option (List Nat × Nat) := none
  cod : Option Cod := none
  coc : List Coc := []
  cpf : Option (List Nat) := none
  qcd : Option Qcd := none
  qcc : List Qcc := []
  rgn : List (Nat × Nat × Nat × Nat) := []
  poc : Option (Nat × List PocEntry) := none
  ppm : List Raw := []
  tlm : List Tlm := []
  plm : List Raw := []
  crg : Option (List (Nat × Nat)) := none
  com : List Com := []
  dfs : List Dfs := []
  atk : List Atk := []
  chain : Option (List (List UInt8)) := none
  deriving DecidableEq, Repr

/-- j2kmarkers.cpp:1628-1660 `flush`; `none` where a pointer that is used is null. -/
def Hdr.flush (h : Hdr) : Out (List UInt8) :=
  match h.siz, h.cod, h.qcd with
  | some siz, some cod, some qcd =>
    (writeAll h.tlm).bind fun t =>
      .ok (siz.write ++ (match h.cap with | some c => c.write | none => []) ++ cod.write ++ qcd.write ++
        h.qcc.flatMap Qcc.write ++ t ++ h.com.flatMap Com.write)
  | _, _, _ => .ub
where
  /-- the TLM segments -/
  writeAll : List Tlm → Out (List UInt8)
    | [] => .ok []
    | t :: ts => t.write.bind fun b => (writeAll ts).bind fun r => .ok (b ++ r)

/-- Runs `f` on the number of components; throws before SIZ. -/
def needSiz {α : Type} (h : Hdr) (f : Nat → Out α) : Out α :=
  match h.siz with
  | none => .throws
  | some z => f z.csiz

/-- j2kmarkers.cpp:1753-1764: skipping a segment that is not known. -/
def skipSegment (word : Nat) (s : Src) : Out Src :=
  if word < 0xFF30 ∨ 0xFF3F < word then
    s.getWord.bind fun l => if 2 ≤ l.1 then l.2.forward (l.1 - 2) else .ok l.2
  else .ok s

/-- j2kmarkers.cpp:1688-1766, the `switch`. -/
def Hdr.step (pad : List UInt8) (h : Hdr) (word : Nat) (s : Src) : Out (Hdr × Src) :=
  if word = 0xFF51 then (segment pad readSiz s).bind fun r => .ok ({ h with siz := some r.1 }, r.2)
  else if word = 0xFF50 then (segment pad readCap s).bind fun r => .ok ({ h with cap := some r.1 }, r.2)
  else if word = 0xFF56 then (segment pad readPrf s).bind fun r => .ok ({ h with prf := some r.1 }, r.2)
  else if word = 0xFF52 then (segment pad readCod s).bind fun r => .ok ({ h with cod := some r.1 }, r.2)
  else if word = 0xFF53 then
    needSiz h fun c => (segment pad (readCoc c) s).bind fun r => .ok ({ h with coc := h.coc ++ [r.1] }, r.2)
  else if word = 0xFF55 then (segment pad readTlm s).bind fun r => .ok ({ h with tlm := h.tlm ++ [r.1] }, r.2)
  else if word = 0xFF57 then (segment pad readRaw s).bind fun r => .ok ({ h with plm := h.plm ++ [r.1] }, r.2)
  else if word = 0xFF59 then (segment pad readCpf s).bind fun r => .ok ({ h with cpf := some r.1 }, r.2)
  else if word = 0xFF5C then (segment pad readQcd s).bind fun r => .ok ({ h with qcd := some r.1 }, r.2)
  else if word = 0xFF5D then
    needSiz h fun c => (segment pad (readQcc c) s).bind fun r => .ok ({ h with qcc := h.qcc ++ [r.1] }, r.2)
  else if word = 0xFF5E then
    needSiz h fun c => (segment pad (readRgn c) s).bind fun r => .ok ({ h with rgn := h.rgn ++ [r.1] }, r.2)
  else if word = 0xFF5F then
    needSiz h fun c => (segment pad (readPoc c) s).bind fun r => .ok ({ h with poc := some r.1 }, r.2)
  else if word = 0xFF60 then (segment pad readRaw s).bind fun r => .ok ({ h with ppm := h.ppm ++ [r.1] }, r.2)
  else if word = 0xFF63 then (segment pad readCrg s).bind fun r => .ok ({ h with crg := some r.1 }, r.2)
  else if word = 0xFF64 then (segment pad readCom s).bind fun r => .ok ({ h with com := h.com ++ [r.1] }, r.2)
  else if word = 0xFF72 then (segment pad readDfs s).bind fun r => .ok ({ h with dfs := h.dfs ++ [r.1] }, r.2)
  else if word = 0xFF79 then (segment pad readAtk s).bind fun r => .ok ({ h with atk := h.atk ++ [r.1] }, r.2)
  else (skipSegment word s).bind fun s' => .ok (h, s')

/-- j2kmarkers.cpp:1687-1767, the loop up to SOT; `none` if `fuel` rounds do not end it. -/
def Hdr.loop (pad : List UInt8) : Nat → Hdr → Src → Option (Out (Hdr × Src))
  | 0, _, _ => none
  | fuel + 1, h, s =>
    match s.getWord with
    | .throws => some .throws
    | .ub => some .ub
    | .ok (w, s') =>
      if w = 0xFF90 then some (.ok (h, s'))
      else match h.step pad w s' with
        | .ok (h', s'') => Hdr.loop pad fuel h' s''
        | .throws => some .throws
        | .ub => some .ub

/-- j2kmarkers.cpp:1773-1779: all PPM bodies in one buffer. -/
def joinPpm : List Raw → Out (List UInt8)
  | [] => .ok []
  | p :: ps => if p.mem.length < p.len then .ub else (joinPpm ps).bind fun r => .ok (p.mem.take p.len ++ r)

/-- j2kmarkers.cpp:1783-1800: the buffer cut into nodes, each preceded by its 32-bit length; fewer than four bytes at the end
are ignored. -/
def cutPpm : List UInt8 → Out (List (List UInt8))
  | a :: b :: c :: d :: rest =>
    let n := a.toNat * 2 ^ 24 + b.toNat * 2 ^ 16 + c.toNat * 2 ^ 8 + d.toNat
    if rest.length < n then .throws
    else (cutPpm (rest.drop n)).bind fun r => .ok (rest.take n :: r)
  | _ => .ok []
termination_by l => l.length
decreasing_by simp only [List.length_drop, List.length_cons]; omega

/-- j2kmarkers.cpp:1768-1802: the chain of packet headers.  `len`, the size allocated for the buffer, is a 32-bit sum; the
copy then writes as many bytes as the exact sum. -/
def Hdr.finish (h : Hdr) : Out Hdr :=
  if h.ppm = [] then .ok h
  else if 2 ^ 32 ≤ (h.ppm.map Raw.len).sum then .ub
  else (joinPpm h.ppm).bind fun b => (cutPpm b).bind fun ns => (Chain.activate ns).bind fun c => .ok { h with chain := some c.nodes }

/-- j2kmarkers.cpp:1662-1805 `j2k_main_header::read` into an object that may hold an earlier header: the vectors are cleared,
the single markers are kept. -/
def Hdr.read (pad : List UInt8) (fuel : Nat) (h0 : Hdr) (s : Src) : Option (Out (Hdr × Src)) :=
  let h := { h0 with coc := [], tlm := [], plm := [], qcc := [], rgn := [], ppm := [], com := [], dfs := [], atk := [],
                     chain := none }
  match s.getWord with
  | .throws => some .throws
  | .ub => some .ub
  | .ok (_, s') =>
    match Hdr.loop pad fuel h s' with
    | none => none
    | some (.ok (h', s'')) => some (h'.finish.bind fun h'' => .ok (h'', s''))
    | some .throws => some .throws
    | some .ub => some .ub

end Verif.Cs
