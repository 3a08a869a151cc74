import Mathlib.Data.List.Basic
/-
Picture files: how the decoder program writes them and how the encoder program reads them.
Source: /repo/source/apps/decoder/main_dec.cpp:60-457, 640-822 (rows to bytes, headers), /repo/source/apps/imgio/imgio.cpp:20-277 (readers of the
streaming encoder), /repo/source/core/interface/encoder.cpp:109-384 (`image::read_pnmpgx`, reader of the other encoder path).

A file is a list of bytes (numbers below 256).  A position in a file is the rest of the bytes; the empty list is the end of the file.
Simplified: the C library works (no read or write errors other than the end of the file); sizes of lines and offsets in files are not cut to 32 bits except where
said; components deeper than 16 bits, TIFF, ASCII PNM (P2, P3) and the conversion from YCbCr are not modelled.
-/
namespace Verif.Img

/-- What a reader does: a result, an error reported (or an exception), undefined behaviour, or a loop that never ends. -/
inductive Out (α : Type) where
  | ok (a : α)
  | fail
  | ub
  | hang
  deriving DecidableEq, Repr

namespace Out
variable {α β : Type}
/-- Sequential composition. -/
def bind (x : Out α) (f : α → Out β) : Out β :=
  match x with
  | ok a => f a
  | fail => fail
  | ub => ub
  | hang => hang
end Out

/-! ### Writing -/

/-- `%d` of a number that is not negative. -/
def dec (n : Nat) : List Nat := if h : n < 10 then [48 + n] else dec (n / 10) ++ [48 + n % 10]
termination_by n
decreasing_by omega

/-- `%d` of an `uint32_t`. -/
def fmtD (n : Nat) : List Nat := if n < 2 ^ 31 then dec n else 45 :: dec (2 ^ 32 - n)

/-- A component as the decoder hands it out. -/
structure Plane where
  width : Nat
  height : Nat
  depth : Nat
  signed : Bool
  rows : List (List Int)
  deriving DecidableEq, Repr

/-- The kind of the output file, by its extension. -/
inductive Kind where
  | pgm
  | pgx
  | raw
  deriving DecidableEq, Repr

/-- Conversion to `uint8_t`. -/
def byte (v : Int) : Nat := (v % 256).toNat

/-- main_dec.cpp:194-197 `pack_i32_to_u8`, scalar. -/
def packU8 (off : Int) (row : List Int) : List Nat := row.map fun v => byte (v + off)
/-- main_dec.cpp:105-110 `pack_i32_to_be16`, scalar. -/
def packBe16 (off : Int) (row : List Int) : List Nat := row.flatMap fun v => [byte ((v + off) / 256), byte (v + off)]
/-- main_dec.cpp:143-148 `pack_i32_to_le16`, scalar. -/
def packLe16 (row : List Int) : List Nat := row.flatMap fun v => [byte v, byte (v / 256)]

/-- `_mm256_packs_epi32`: a 32-bit number to 16 bits with saturation. -/
def sat16 (v : Int) : Int := if v < -32768 then -32768 else if 32767 < v then 32767 else v
/-- main_dec.cpp:65-85 `pack_i32_to_be16` with AVX2: whole groups of 16 samples go through `_mm256_packs_epi32`. -/
def packBe16Avx2 (off : Int) (row : List Int) : List Nat :=
  packBe16 0 ((row.take (row.length / 16 * 16)).map fun v => sat16 (v + off)) ++ packBe16 off (row.drop (row.length / 16 * 16))

/-- main_dec.cpp:669: bytes per sample, of component 0. -/
def bytesPer (depth0 : Nat) : Nat := (depth0 + 7) / 8
/-- main_dec.cpp:670: what is added to the samples, by component 0. -/
def offset (k : Kind) (depth0 : Nat) (signed0 : Bool) : Int := if k = .pgm ∧ signed0 = true then 2 ^ (depth0 - 1) else 0

/-- main_dec.cpp:705-718: headers of the files of components; `none` if `1 << depth` or the subtraction is undefined. -/
def compHeader (k : Kind) (C : Plane) : Option (List Nat) :=
  match k with
  | .pgm => if C.depth ≤ 30 then
      some ([80, 53, 32] ++ fmtD C.width ++ [32] ++ fmtD C.height ++ [32] ++ fmtD (2 ^ C.depth - 1) ++ [10]) else none
  | .pgx => some ([80, 71, 32, 76, 77, 32, if C.signed then 45 else 43, 32] ++ fmtD C.depth ++ [32] ++ fmtD C.width ++ [32] ++ fmtD C.height ++ [10])
  | .raw => some []

/-- main_dec.cpp:811-820: the bytes of a row; more than two bytes per sample are not modelled. -/
def rowBytes (k : Kind) (bpp : Nat) (off : Int) (row : List Int) : Option (List Nat) :=
  if bpp = 1 then some (packU8 off row)
  else if bpp = 2 then some (if k = .pgx then packLe16 row else packBe16 off row)
  else none

/-- main_dec.cpp:690-722, 806-821: the file of a component. -/
def compFile (k : Kind) (bpp : Nat) (off : Int) (C : Plane) : Option (List Nat) :=
  (compHeader k C).bind fun h => (C.rows.mapM (rowBytes k bpp off)).map fun l => h ++ l.flatten

/-- main_dec.cpp:690-822: all files of components. -/
def compFiles (k : Kind) (l : List Plane) : Option (List (List Nat)) :=
  match l with
  | [] => some []
  | C0 :: _ => l.mapM (compFile k (bytesPer C0.depth) (offset k C0.depth C0.signed))

/-- main_dec.cpp:297-306, 436-449: clamping in the PPM writers. -/
def clampPpm (depth : Nat) (v : Int) : Int := if v < 0 then 0 else if 2 ^ depth - 1 < v then 2 ^ depth - 1 else v

/-- A sample of a PPM row in bytes. -/
def ppmSample (bpp : Nat) (v : Int) : List Nat := if bpp = 1 then [byte v] else [byte (v / 256), byte v]

/-- main_dec.cpp:760-793: a row of a PPM file from the rows of three components of widths `w0`, `w1`, `w2`; `none` outside of the rows.  Without colour
conversion.  The offset is zero for PPM (670). -/
def ppmRow (bpp depth0 w0 w1 w2 : Nat) (r0 r1 r2 : List Int) : Option (List Nat) :=
  ((List.range w0).mapM fun n =>
    if w0 = w1 ∧ w0 = w2 then
      (r0[n]?).bind fun a => (r1[n]?).bind fun b => (r2[n]?).map fun c =>
        ppmSample bpp (clampPpm depth0 a) ++ ppmSample bpp (clampPpm depth0 b) ++ ppmSample bpp (clampPpm depth0 c)
    else
      (r0[n]?).bind fun a => (r1[n * w1 % 2 ^ 32 / w0]?).bind fun b => (r2[n * w2 % 2 ^ 32 / w0]?).map fun c =>
        ppmSample bpp a ++ ppmSample bpp b ++ ppmSample bpp c).map List.flatten

/-- main_dec.cpp:676-689, 727-795: a PPM file; `rows y` are the rows handed out with row `y` of component 0. -/
def ppmFile (w0 h0 depth0 w1 w2 : Nat) (rows : List (List Int × List Int × List Int)) : Option (List Nat) :=
  if 30 < depth0 ∨ 2 < bytesPer depth0 then none
  else
    (rows.mapM fun r => ppmRow (bytesPer depth0) depth0 w0 w1 w2 r.1 r.2.1 r.2.2).map fun l =>
      [80, 54, 32] ++ fmtD w0 ++ [32] ++ fmtD h0 ++ [32] ++ fmtD (2 ^ depth0 - 1) ++ [10] ++ l.flatten

/-! ### The streaming readers -/

/-- White space of the PNM reader. -/
def ws4 (c : Nat) : Bool := decide (c = 32 ∨ c = 9 ∨ c = 10 ∨ c = 13)
/-- White space of the other readers. -/
def ws3 (c : Nat) : Bool := decide (c = 32 ∨ c = 10 ∨ c = 13)
/-- `isdigit`. -/
def isDig (c : Nat) : Bool := decide (48 ≤ c ∧ c ≤ 57)

/-- imgio.cpp:32-41 `skip_ws`; the flag says that a comment is being read. -/
def skipWs : Bool → List Nat → List Nat
  | _, [] => []
  | true, c :: l => if c = 10 then skipWs false l else skipWs true l
  | false, c :: l => if c = 35 then skipWs true l else if ws4 c then skipWs false l else c :: l

/-- Digits in front of the rest of a file, in `uint32_t`. -/
def digits : Nat → List Nat → Nat × List Nat
  | v, [] => (v, [])
  | v, c :: l => if isDig c then digits ((v * 10 + (c - 48)) % 2 ^ 32) l else (v, c :: l)

/-- imgio.cpp:43-50 `read_uint`. -/
def readUint (l : List Nat) : Nat × List Nat := digits 0 (skipWs false l)

/-- imgio.cpp:96-97: `while ((1U << bd) <= maxval) bd++` for `maxval` up to 65535; the first argument is fuel, 17 is enough. -/
def bdLoop (m : Nat) : Nat → Nat → Nat
  | 0, bd => bd
  | f + 1, bd => if 2 ^ bd ≤ m then bdLoop m f (bd + 1) else bd

/-- An open PNM file; `data` are the bytes from `data_start_` on. -/
structure Pnm where
  width : Nat
  height : Nat
  nc : Nat
  depth : Nat
  data : List Nat
  deriving DecidableEq, Repr

/-- imgio.cpp:60-107 `PnmStreamReader::open`. -/
def pnmOpen (file : List Nat) : Out Pnm :=
  match file with
  | 80 :: m :: l =>
    if m = 53 ∨ m = 54 then
      let w := readUint l
      let h := readUint w.2
      let x := readUint h.2
      match x.2 with
      | [] => .fail
      | s :: data =>
        if ws4 s = false then .fail
        else if x.1 = 0 ∨ 65535 < x.1 then .fail
        else .ok ⟨w.1, h.1, if m = 53 then 1 else 3, bdLoop x.1 17 1, data⟩
    else .fail
  | _ => .fail

/-- A sample of one or two bytes, big-endian, at byte `i`. -/
def be (bps : Nat) (raw : List Nat) (i : Nat) : Option Int :=
  if bps = 1 then (raw[i]?).map Int.ofNat
  else (raw[i]?).bind fun a => (raw[i + 1]?).map fun b => ((a * 256 + b : Nat) : Int)

/-- imgio.cpp:99: bytes per sample. -/
def bpsOf (depth : Nat) : Nat := if 8 < depth then 2 else 1

/-- imgio.cpp:118-146 `PnmStreamReader::get_row`: the rows of the components. -/
def pnmRow (p : Pnm) (y : Nat) : Out (List (List Int)) :=
  let bps := bpsOf p.depth
  let n := p.width * p.nc * bps
  let raw := (p.data.drop (y * n)).take n
  if raw.length ≠ n then .fail
  else
    match (List.range p.nc).mapM fun c => (List.range p.width).mapM fun x => be bps raw ((x * p.nc + c) * bps) with
    | some r => .ok r
    | none => .ub

/-- Bytes up to and including the first one with the property; `none` at the end of the file. -/
def skipTo (p : Nat → Bool) : List Nat → Option (Nat × List Nat)
  | [] => none
  | c :: l => if p c then some (c, l) else skipTo p l

/-- White space of the header of PGX files. -/
def dropWs3 : List Nat → List Nat
  | [] => []
  | c :: l => if ws3 c then dropWs3 l else c :: l

/-- An open PGX file. -/
structure Pgx where
  width : Nat
  height : Nat
  depth : Nat
  signed : Bool
  big : Bool
  data : List Nat
  deriving DecidableEq, Repr

/-- imgio.cpp:166-206 `parse_pgx_header`. -/
def pgxHeader (file : List Nat) : Option Pgx :=
  match file with
  | 80 :: 71 :: l =>
    (skipTo (fun c => decide (c = 77 ∨ c = 76)) l).bind fun e =>
    (skipTo (fun c => decide (c = 43 ∨ c = 45) || isDig c) (e.2.drop 1)).bind fun s =>
    (if isDig s.1 then some s else skipTo isDig s.2).bind fun d =>
      let b := digits 0 (d.1 :: d.2)
      let w := digits 0 (dropWs3 b.2)
      let h := digits 0 (dropWs3 w.2)
      match h.2 with
      | [] => none
      | t :: data => if ws4 t then some ⟨w.1, h.1, b.1 % 256, decide (s.1 = 45), decide (e.1 = 77), data⟩ else none
  | _ => none

/-- imgio.cpp:213-237 `PgxStreamReader::open`: the files, each with its subsampling factors. -/
def pgxOpen (files : List (List Nat)) : Out (List (Pgx × Nat × Nat)) :=
  match files.mapM pgxHeader with
  | none => .fail
  | some [] => .ok []
  | some (C0 :: l) =>
    if ∃ C ∈ l, C.width = 0 ∨ C.height = 0 then .ub
    else if ∃ C ∈ l, C0.width % C.width ≠ 0 ∨ C0.height % C.height ≠ 0 then .fail
    else .ok ((C0, 1, 1) :: l.map fun C => (C, C0.width / C.width % 256, C0.height / C.height % 256))

/-- imgio.cpp:263-274: a sample of a PGX file at byte `i`. -/
def pgxSample (C : Pgx) (raw : List Nat) (i : Nat) : Option Int :=
  if bpsOf C.depth = 1 then (raw[i]?).map fun a => if C.signed ∧ 128 ≤ a then (a : Int) - 256 else a
  else (raw[i]?).bind fun a => (raw[i + 1]?).map fun b =>
    let v := if C.big then a * 256 + b else b * 256 + a
    if C.signed ∧ 32768 ≤ v then (v : Int) - 65536 else v

/-- imgio.cpp:251-276: one component of `PgxStreamReader::get_row`. -/
def pgxRow1 (C : Pgx × Nat × Nat) (y : Nat) : Out (List Int) :=
  if C.2.2 = 0 then .ub
  else
    let n := C.1.width * bpsOf C.1.depth
    let raw := (C.1.data.drop (y / C.2.2 * n)).take n
    if raw.length ≠ n then .fail
    else
      match (List.range C.1.width).mapM fun x => pgxSample C.1 raw (x * bpsOf C.1.depth) with
      | some r => .ok r
      | none => .ub

/-- imgio.cpp:250-276 `PgxStreamReader::get_row`. -/
def pgxRow : List (Pgx × Nat × Nat) → Nat → Out (List (List Int))
  | [], _ => .ok []
  | C :: l, y => (pgxRow1 C y).bind fun r => (pgxRow l y).bind fun rs => .ok (r :: rs)

/-! ### The other reader -/

/-- Where the loop of encoder.cpp:222-236 and 281-294 is: at its test, behind a white space, inside a comment. -/
inductive Eat where
  | test
  | behind
  | comment
  deriving DecidableEq, Repr

/-- encoder.cpp:222-236, 281-294: white space and comments are eaten; `none` is the exception. -/
def eat : Eat → List Nat → Option (List Nat)
  | .comment, [] => none
  | _, [] => some []
  | .test, c :: l => if ws3 c then eat .behind l else some (c :: l)
  | .behind, c :: l => if c = 35 then eat .comment l else if ws3 c then eat .behind l else some (c :: l)
  | .comment, c :: l => if c = 10 ∨ c = 13 then eat .test l else eat .comment l

/-- encoder.cpp:237-241: a number up to the next white space; everything counts as a digit.  `none`: the loop does not end. -/
def number : Nat → List Nat → Option (Nat × List Nat)
  | _, [] => none
  | v, c :: l => if ws3 c then some (v, l) else number ((v * 10 + c + 2 ^ 32 - 48) % 2 ^ 32) l

/-- encoder.cpp:219-241: one field of the header. -/
def field (l : List Nat) : Out (Nat × List Nat) :=
  match eat .test l with
  | none => .fail
  | some l =>
    match number 0 l with
    | none => .hang
    | some r => .ok r

/-- What the header says. -/
structure Head where
  width : Nat
  height : Nat
  depth : Nat
  nc : Nat
  signed : Bool
  big : Bool
  rest : List Nat
  deriving DecidableEq, Repr

/-- encoder.cpp:163-205: the first part of the header of PGX files. -/
def pgxStart (l : List Nat) : Out (Nat × Bool × Bool × List Nat) :=
  match skipTo (fun c => decide (c = 77 ∨ c = 76)) l with
  | none => .hang
  | some e =>
    match skipTo (fun c => decide (c = 43 ∨ c = 45) || isDig c) (e.2.drop 1) with
    | none => .hang
    | some s =>
      match (if isDig s.1 then some s else skipTo isDig s.2) with
      | none => .hang
      | some d =>
        match number (d.1 - 48) d.2 with
        | none => .hang
        | some b => .ok (b.1 % 256, decide (s.1 = 45), decide (e.1 = 77), b.2)

/-- encoder.cpp:134-270: the header.  The bit depth of PNM files is computed in floating point (`log2`), here exactly; `log2(0)` cannot be converted. -/
def readHead (file : List Nat) : Out Head :=
  match file with
  | 80 :: m :: l =>
    if m = 53 ∨ m = 54 then
      (field l).bind fun w => (field w.2).bind fun h => (field h.2).bind fun x =>
        if x.1 = 0 then .ub
        else .ok ⟨w.1, h.1, Nat.log2 x.1 + 1, if m = 53 then 1 else 3, false, true, x.2⟩
    else if m = 71 then
      (pgxStart l).bind fun b => (field b.2.2.2).bind fun w => (field w.2).bind fun h =>
        .ok ⟨w.1, h.1, b.1, 1, b.2.1, b.2.2.1, h.2⟩
    else .fail
  | _ => .fail

/-- encoder.cpp:280-295: where the samples begin.  White space and comments are eaten, then the file is set back by one byte (at the end of
the file too). -/
def rasterOf (file rest : List Nat) : Out (List Nat) :=
  match eat .test rest with
  | none => .fail
  | some [] => .ok (file.drop (file.length - 1))
  | some l => .ok l

/-- encoder.cpp:336-362: a sample. -/
def sampleB (bps : Nat) (signed big : Bool) (raw : List Nat) (i : Nat) : Option Int :=
  if bps = 1 then (raw[i]?).map fun a => if signed ∧ 128 ≤ a then (a : Int) - 256 else a
  else (raw[i]?).bind fun a => (raw[i + 1]?).map fun b =>
    let v := if big then a * 256 + b else b * 256 + a
    if signed ∧ 32768 ≤ v then (v : Int) - 65536 else v

/-- encoder.cpp:297-368: the samples of all components, row by row. -/
def samplesOf (h : Head) (raster : List Nat) : Out (List (List Int)) :=
  let bps := (h.depth + 7) / 8
  let line := h.nc * bps * h.width
  if 2 ^ 32 ≤ line then .ub
  else if raster.length < h.height * line then .fail
  else if h.height ≠ 0 ∧ bps ≠ 1 ∧ bps ≠ 2 then .fail
  else
    match (List.range h.nc).mapM fun c => (List.range h.height).mapM fun y => (List.range h.width).mapM fun x =>
        sampleB bps h.signed h.big ((raster.drop (y * line)).take line) ((x * h.nc + c) * bps) with
    | some r => .ok (r.map List.flatten)
    | none => .ub

/-- encoder.cpp:109-384 `image::read_pnmpgx` for one file. -/
def readFile (file : List Nat) : Out (Head × List (List Int)) :=
  (readHead file).bind fun h => (rasterOf file h.rest).bind fun r => (samplesOf h r).bind fun s => .ok (h, s)

end Verif.Img
