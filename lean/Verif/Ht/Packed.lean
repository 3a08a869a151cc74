import Verif.Ht.Refine

/-!
# HT refinement passes: the vector builds' packed significance

Model of `pack_sigma`, `ht_sigprop_decode`, `ht_magref_decode` and their caller in the AVX2 build
(source/core/coding/ht_block_decoding_avx2.cpp 492-656, 1010-1022).  The NEON build (ht_block_decoding_neon.cpp 592-750,
1043-1052) and the WebAssembly build (ht_block_decoding_wasm.cpp 91-120, 560-700, 977-990) contain the same text.

`none` is undefined behaviour: an access outside an array or outside the code-block's bytes.  Numbers of type `uint32_t` are natural
numbers below 2^32.  The 32-bit loads through `reinterpret_cast` are two neighbouring 16-bit elements, the first in the low
half (little endian); that they may be misaligned is left out.  Samples are bit patterns, as in Refine.lean.  `while` loops
have a bound on the number of rounds, running out of which is `none`.
-/

namespace Verif.Ht

/-- `~x` of a 32-bit number. -/
def not32 (x : Nat) : Nat := 0xFFFFFFFF ^^^ x
/-- `x << n` of a 32-bit number. -/
def shl32 (x n : Nat) : Nat := (x <<< n) % 2 ^ 32

/-- `openhtj2k_ctz32` (utils.hpp 141-149), for a number other than zero. -/
def ctz32 (x : Nat) : Nat := ((List.range 32).find? fun k => x.testBit k).getD 32

/-- Elements of `sigma_buf` (ht_block_decoding_avx2.cpp 1015). -/
def sigmaLen : Nat := (17 + 1) * 24
/-- Elements of `prev_row_sig` (ht_block_decoding_avx2.cpp 534). -/
def prevLen : Nat := 264

/-- `qw` and `qh` (ht_block_decoding_avx2.cpp 498-499, 1013). -/
def quads (n : Nat) : Nat := (n + 3) / 4
/-- `mstr` (ht_block_decoding_avx2.cpp 1014). -/
def mstrOf (w : Nat) : Nat := (quads w + 2 + 7) / 8 * 8

/-- `sh`, `sw`: rows or columns of the block in group `q` (ht_block_decoding_avx2.cpp 502, 505, 538). -/
def part (n q : Nat) : Nat := if n - q * 4 < 4 then n - q * 4 else 4

/-- Bits of a group, column by column: loops of ht_block_decoding_avx2.cpp 507-509. -/
def bitScan (sw sh : Nat) : List (Nat × Nat) := (List.range sw).flatMap fun col => (List.range sh).map fun row => (col, row)

/-- One group (ht_block_decoding_avx2.cpp 506-513). -/
def packGroup (b : RBlk) (qy qx : Nat) : Option Nat :=
  (bitScan (part b.w qx) (part b.h qy)).foldlM (fun s (x : Nat × Nat) =>
    (b.getSt (qy * 4 + 1 + x.2) (qx * 4 + x.1 + 1)).map fun v => s ||| ((v &&& 1) <<< (x.1 * 4 + x.2)) % 2 ^ 16) 0

/-- A store into an array of `n` elements. -/
def stA (n : Nat) (a : Nat → Nat) (i v : Nat) : Option (Nat → Nat) :=
  if i < n then some (fun k => if k = i then v else a k) else none

/-- The stores of `pack_sigma` in their order (loops of ht_block_decoding_avx2.cpp 500-521): group by group, a zero after each
row of groups, a row of zeros at the end. -/
def packScan (w h : Nat) : List (Nat × Nat) :=
  ((List.range (quads h)).flatMap fun qy => (List.range (quads w)).map (fun qx => (qy, qx)) ++ [(qy, quads w)]) ++
    (List.range (quads w + 1)).map fun qx => (quads h, qx)

/-- `pack_sigma` (ht_block_decoding_avx2.cpp 496-522) on the zeroed array of the caller (1015-1016). -/
def packSigma (b : RBlk) : Option (Nat → Nat) :=
  (packScan b.w b.h).foldlM (fun a (q : Nat × Nat) =>
    (if q.1 < quads b.h ∧ q.2 < quads b.w then packGroup b q.1 q.2 else some 0).bind fun v =>
      stA sigmaLen a (q.1 * mstrOf b.w + q.2) v) (fun _ => 0)

/-- 32-bit load at element `i` of an array of `n` 16-bit elements (ht_block_decoding_avx2.cpp 552-554). -/
def ld32 (n : Nat) (a : Nat → Nat) (i : Nat) : Option Nat :=
  if i + 1 < n then some (a i ||| a (i + 1) <<< 16) else none

/-- `row_masks` (ht_block_decoding_avx2.cpp 576). -/
def rowMask : Nat → Nat
  | 0 => 0x33
  | 1 => 0x76
  | 2 => 0xEC
  | _ => 0xC8

/-- The loop over `mbr` (ht_block_decoding_avx2.cpp 582-591): `new_sig` and the reader afterwards. -/
def spPos (D : Nat → Option Nat) (lref inv : Nat) : Nat → Nat → Nat → SpDec → Option (Nat × SpDec)
  | 0, _, _, _ => none
  | n + 1, mbr, new, rd =>
    if mbr = 0 then some (new, rd)
    else
      let pos := ctz32 mbr
      let smask := shl32 1 pos
      let mbr := mbr &&& not32 smask
      (rd.bit D lref).bind fun r =>
        let bitMask := (2 ^ 32 - r.1) % 2 ^ 32
        let new := new ||| (smask &&& bitMask)
        let neighbor := shl32 (rowMask (pos &&& 3)) (pos &&& not32 3)
        spPos D lref inv n (mbr ||| (neighbor &&& inv &&& not32 new &&& bitMask)) new r.2

/-- `while (bits) { pos = ctz(bits); bits &= bits - 1; … }` (ht_block_decoding_avx2.cpp 595-599, 601-607, 646-655). -/
def eachBit {σ : Type} (f : σ → Nat → Option σ) : Nat → Nat → σ → Option σ
  | 0, _, _ => none
  | n + 1, bits, s => if bits = 0 then some s else (f s (ctz32 bits)).bind (eachBit f n (bits &&& (bits - 1)))

/-- State of `ht_sigprop_decode` between two groups: the block, the reader, `prev_row_sig` and `prev`. -/
structure PackSt where
  b : RBlk
  rd : SpDec
  row : Nat → Nat
  prev : Nat

/-- `pattern` and `pat` (ht_block_decoding_avx2.cpp 539-540, 547-549). -/
def patOf (w sh x : Nat) : Nat :=
  let pattern := if sh < 4 then (if sh = 3 then 0x7777 else if sh = 2 then 0x3333 else 0x1111) else 0xFFFF
  if w < x + 4 then pattern >>> ((x + 4 - w) * 4) else pattern

/-- `u` (ht_block_decoding_avx2.cpp 557-558). -/
def aboveBelow (causal : Bool) (ps ns : Nat) : Nat :=
  let u := (ps &&& 0x88888888) >>> 3
  if causal then u else u ||| shl32 (ns &&& 0x11111111) 3

/-- `mbr` after the vertical integration (ht_block_decoding_avx2.cpp 561-564). -/
def spreadCol (cs u : Nat) : Nat := cs ||| shl32 (cs &&& 0x77777777) 1 ||| ((cs &&& 0xEEEEEEEE) >>> 1) ||| u

/-- `mbr` (ht_block_decoding_avx2.cpp 561-572). -/
def mbrWord (cs u prev pat : Nat) : Nat :=
  let t := spreadCol cs u
  (t ||| shl32 t 4 ||| (t >>> 4) ||| (prev >>> 12)) &&& pat &&& not32 cs

/-- Magnitude of one new sample (ht_block_decoding_avx2.cpp 526, 533, 598). -/
def putMag (p qy qx : Nat) (b : RBlk) (pos : Nat) : Option RBlk :=
  b.modSmp (qy * 4 + (pos &&& 3)) (qx * 4 + pos >>> 2) (· ||| 3 <<< (p - 1))

/-- Sign of one new sample (ht_block_decoding_avx2.cpp 605-606). -/
def putSgn (D : Nat → Option Nat) (lref qy qx : Nat) (t : RBlk × SpDec) (pos : Nat) : Option (RBlk × SpDec) :=
  (t.2.bit D lref).bind fun r =>
    (t.1.modSmp (qy * 4 + (pos &&& 3)) (qx * 4 + pos >>> 2) (· ||| r.1 <<< 31)).map fun b => (b, r.2)

/-- The body of the group when `mbr` is known (ht_block_decoding_avx2.cpp 574-609): `new_sig`, the block and the reader. -/
def packNew (D : Nat → Option Nat) (lref p qy qx cs pat mbr : Nat) (b : RBlk) (rd : SpDec) : Option (Nat × RBlk × SpDec) :=
  if mbr ≠ 0 then
    (spPos D lref (not32 cs &&& pat) 33 mbr 0 rd).bind fun r =>
      if r.1 ≠ 0 then
        (eachBit (putMag p qy qx) 33 r.1 b).bind fun b =>
          (eachBit (putSgn D lref qy qx) 33 r.1 (b, r.2)).map fun t => (r.1, t.1, t.2)
      else some (r.1, b, r.2)
  else some (0, b, rd)

/-- `prev` (ht_block_decoding_avx2.cpp 617-620), `t` being `new_sig`. -/
def prevOf (t u : Nat) : Nat := (t ||| shl32 (t &&& 0x7777) 1 ||| (t &&& 0xEEEE) >>> 1 ||| u) &&& 0xF000

/-- One 4×4 group (ht_block_decoding_avx2.cpp 545-621). -/
def packQuad (D : Nat → Option Nat) (lref p : Nat) (sg : Nat → Nat) (qy : Nat) (s : PackSt) (qx : Nat) : Option PackSt := do
  let pat := patOf s.b.w (part s.b.h qy) (qx * 4)
  let cs ← ld32 sigmaLen sg (qy * mstrOf s.b.w + qx)
  let ps ← ld32 prevLen s.row qx
  let ns ← ld32 sigmaLen sg (qy * mstrOf s.b.w + mstrOf s.b.w + qx)
  let u := aboveBelow s.b.causal ps ns
  let r ← packNew D lref p qy qx cs pat (mbrWord cs u s.prev pat) s.b s.rd
  let new := r.1 ||| (cs &&& 0xFFFF)
  let row ← stA prevLen s.row qx (new % 2 ^ 16)
  return ⟨r.2.1, r.2.2, row, prevOf new u⟩

/-- One row of groups (ht_block_decoding_avx2.cpp 538-622). -/
def packRow (D : Nat → Option Nat) (lref p : Nat) (sg : Nat → Nat) (s : PackSt) (qy : Nat) : Option PackSt :=
  (List.range (quads s.b.w)).foldlM (packQuad D lref p sg qy) { s with prev := 0 }

/-- `ht_sigprop_decode` (ht_block_decoding_avx2.cpp 524-623). -/
def sigpropPacked (D : Nat → Option Nat) (lref p : Nat) (sg : Nat → Nat) (b : RBlk) : Option RBlk :=
  if p = 0 then some b
  else ((List.range (quads b.h)).foldlM (packRow D lref p sg) ⟨b, SpDec.init, fun _ => 0, 0⟩).map PackSt.b

/-- MagRef, one sample (ht_block_decoding_avx2.cpp 649-654). -/
def refBit (D : Nat → Option Nat) (p qy qx : Nat) (t : RBlk × MrDec) (pos : Nat) : Option (RBlk × MrDec) := do
  let r ← t.2.bit D
  let mask := ((0xFFFFFFFE ||| r.1) <<< p) % 2 ^ 32
  let b ← t.1.modSmp (qy * 4 + (pos &&& 3)) (qx * 4 + pos >>> 2) (· &&& mask)
  let b ← b.modSmp (qy * 4 + (pos &&& 3)) (qx * 4 + pos >>> 2) (· ||| 1 <<< (p - 1))
  return (b, r.2)

/-- MagRef, one 4×4 group (ht_block_decoding_avx2.cpp 638-655). -/
def magQuad (D : Nat → Option Nat) (p : Nat) (sg : Nat → Nat) (qy : Nat) (s : RBlk × MrDec) (qx : Nat) : Option (RBlk × MrDec) :=
  (if qy * mstrOf s.1.w + qx < sigmaLen then some (sg (qy * mstrOf s.1.w + qx)) else none).bind fun sig =>
    if sig = 0 then some s else eachBit (refBit D p qy qx) 33 sig s

/-- `ht_magref_decode` (ht_block_decoding_avx2.cpp 625-656). -/
def magrefPacked (D : Nat → Option Nat) (lref p : Nat) (sg : Nat → Nat) (b : RBlk) : Option RBlk :=
  if p = 0 then some b
  else ((List.range (quads b.h)).foldlM (fun s qy => (List.range (quads b.w)).foldlM (magQuad D p sg qy) s)
    (b, MrDec.init lref)).map Prod.fst

/-- The refinement passes in the vector builds (ht_block_decoding_avx2.cpp 1012-1021); `z` is `num_ht_passes`, `p` is
`30 - (S_blk + 1)`. -/
def refinePacked (D : Nat → Option Nat) (lref p z : Nat) (b : RBlk) : Option RBlk := do
  let sg ← packSigma b
  let b ← sigpropPacked D lref p sg b
  if 2 < z then magrefPacked D lref p sg b else some b

/-- The refinement passes in the scalar build (ht_block_decoding.cpp 1085-1090). -/
def refineScalar (D : Nat → Option Nat) (lref p z : Nat) (b : RBlk) : Option RBlk := do
  let b ← sigpropDecode D lref p b
  if 2 < z then magrefDecode D lref p b else some b

end Verif.Ht
