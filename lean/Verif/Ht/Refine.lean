import Verif.Ht.Cleanup

/-!
# HT refinement passes: SigProp and MagRef

Model of the scalar build of

* `SP_enc`, `MR_enc` (source/core/coding/ht_block_encoding.hpp 135-199), `termSPandMR` (.cpp 412-436)
* `ht_sigprop_encode`, `ht_magref_encode` (.cpp 838-953)
* `SP_dec`, `MR_dec` (source/core/coding/ht_block_decoding.hpp 2016-2057, 2331-2377)
* `calc_mbr`, `ht_sigprop_decode`, `ht_magref_decode` (.cpp 41-54, 694-823)

`none` is undefined behaviour: an access outside an array or the code-block's bytes.  The encoder's passes
are compiled but nothing calls them unless `ENABLE_SP_MR` is defined; they are modelled as functions of
`block_states`.  As in Cleanup.lean, an encoder pass yields the bits it sends, the writer runs afterwards.
Loop counters of type `uint16_t` are unbounded here (a block has at most 1024 rows and columns).
-/

namespace Verif.Ht

/-! ## Writers -/

/-- `SP_enc` (ht_block_encoding.hpp 135-145): `buf` holds the bytes written at `buf[0..pos)`. -/
structure SpEnc where
  buf : List Nat
  bits : Nat
  max : Nat
  tmp : Nat

/-- Constructor of `SP_enc` (ht_block_encoding.hpp 145). -/
def SpEnc.init : SpEnc := ⟨[], 0, 8, 0⟩

/-- `SP_enc::emitSPBit` (ht_block_encoding.hpp 146-156). -/
def SpEnc.emit (s : SpEnc) (b : Bool) : SpEnc :=
  let tmp := s.tmp ||| (b.toNat <<< s.bits) % 256
  if s.bits + 1 = s.max then ⟨s.buf ++ [tmp], 0, if tmp = 0xFF then 7 else 8, 0⟩
  else ⟨s.buf, s.bits + 1, s.max, tmp⟩

/-- `SP_enc::termSP` (ht_block_encoding.hpp 157-167): the bytes `buf[0..pos)`. -/
def SpEnc.term (s : SpEnc) : List Nat :=
  let buf := if s.tmp ≠ 0 then s.buf ++ [s.tmp] else s.buf
  let max := if s.tmp ≠ 0 then (if s.tmp = 0xFF then 7 else 8) else s.max
  if max = 7 then buf ++ [0] else buf

/-- `MR_enc` (ht_block_encoding.hpp 173-183): `buf` holds the bytes written so far, first written first;
they sit at falling addresses `MAX_Lref, MAX_Lref - 1, …`. -/
structure MrEnc where
  buf : List Nat
  bits : Nat
  tmp : Nat
  last : Nat

/-- Constructor of `MR_enc` (ht_block_encoding.hpp 183). -/
def MrEnc.init : MrEnc := ⟨[], 0, 0, 255⟩

/-- `MR_enc::emitMRBit` (ht_block_encoding.hpp 184-197). -/
def MrEnc.emit (s : MrEnc) (b : Bool) : MrEnc :=
  let tmp := s.tmp ||| (b.toNat <<< s.bits) % 256
  let bits := s.bits + 1
  let bits := if 0x8F < s.last ∧ tmp = 0x7F then bits + 1 else bits
  if bits = 8 then ⟨s.buf ++ [tmp], 0, 0, tmp⟩ else ⟨s.buf, bits, tmp, s.last⟩

/-- `termSPandMR` (ht_block_encoding.cpp 412-436). -/
def termSpMr (sp : SpEnc) (mr : MrEnc) : List Nat :=
  let spMask := (0xFF >>> (8 - sp.bits)) ||| ((1 <<< sp.max) &&& 0x80)
  let mrMask := 0xFF >>> (8 - mr.bits)
  if spMask ||| mrMask = 0 then sp.buf ++ mr.buf.reverse
  else
    let fuse := sp.tmp ||| mr.tmp
    if ((fuse ^^^ sp.tmp) &&& spMask) ||| ((fuse ^^^ mr.tmp) &&& mrMask) = 0 then
      sp.buf ++ [fuse] ++ mr.buf.reverse
    else sp.buf ++ [sp.tmp] ++ [mr.tmp] ++ mr.buf.reverse

/-- `MAX_Lref` (ht_block_encoding.hpp 36). -/
def maxLref : Nat := 2046

/-- The refinement segment that `htj2k_encode` (ht_block_encoding.cpp 966-977) assembles from the bits of the
two passes when it writes both.  The two writers share `Dref[2047]`; `none` when they meet. -/
def refSegment (spBits mrBits : List Bool) : Option (List Nat) :=
  let sp := spBits.foldl SpEnc.emit SpEnc.init
  let mr := mrBits.foldl MrEnc.emit MrEnc.init
  if sp.buf.length + mr.buf.length + 2 ≤ maxLref + 1 then some (termSpMr sp mr) else none

/-! ## Readers -/

/-- `SP_dec` (ht_block_decoding.hpp 2016-2034). -/
structure SpDec where
  bits : Nat
  tmp : Nat
  last : Nat
  pos : Nat

/-- Constructor of `SP_dec` (ht_block_decoding.hpp 2026-2032). -/
def SpDec.init : SpDec := ⟨0, 0, 0, 0⟩

/-- `SP_dec::importSigPropBit` (ht_block_decoding.hpp 2331-2352).  `D k` is the byte at `Dref + k`, if that is
inside the bytes of the code-block. -/
def SpDec.bit (D : Nat → Option Nat) (lref : Nat) (s : SpDec) : Option (Nat × SpDec) :=
  (if s.bits = 0 then
    (if s.pos < lref then (D s.pos).map fun b => (b, s.pos + 1) else some (0, s.pos)).map fun r =>
      (⟨if s.last = 0xFF then 7 else 8, r.1, r.1, r.2⟩ : SpDec)
   else some s).map fun s => (s.tmp &&& 1, { s with tmp := s.tmp >>> 1, bits := s.bits - 1 })

/-- `MR_dec` (ht_block_decoding.hpp 2039-2057); `pos` is one more than the member, zero when exhausted. -/
structure MrDec where
  bits : Nat
  tmp : Nat
  last : Nat
  pos : Nat

/-- Constructor of `MR_dec` (ht_block_decoding.hpp 2049-2055). -/
def MrDec.init (lref : Nat) : MrDec := ⟨0, 0, 0xFF, lref⟩

/-- `MR_dec::importMagRefBit` (ht_block_decoding.hpp 2357-2377). -/
def MrDec.bit (D : Nat → Option Nat) (s : MrDec) : Option (Nat × MrDec) :=
  (if s.bits = 0 then
    (if 0 < s.pos then (D (s.pos - 1)).map fun b => (b, s.pos - 1) else some (0, 0)).map fun r =>
      (⟨if 0x8F < s.last ∧ r.1 &&& 0x7F = 0x7F then 7 else 8, r.1, r.1, r.2⟩ : MrDec)
   else some s).map fun s => (s.tmp &&& 1, { s with tmp := s.tmp >>> 1, bits := s.bits - 1 })

/-! ## The block -/

/-- The parts of `j2k_codeblock` the passes work on: `block_states` and `sample_buf` by row and column. -/
structure RBlk where
  w : Nat
  h : Nat
  causal : Bool
  st : Nat → Nat → Nat
  smp : Nat → Nat → Nat

/-- `round_up(x, 8)`. -/
def rup8 (x : Nat) : Nat := (x + 7) / 8 * 8

/-- coding_units.cpp 1401-1403, subband_row_buf.cpp 335-347, 379-382: sizes of the two arrays. -/
def RBlk.inSt (b : RBlk) (r c : Nat) : Prop := r < rup8 b.h + 2 ∧ c < rup8 b.w + 2
@[inherit_doc RBlk.inSt]
def RBlk.inSmp (b : RBlk) (r c : Nat) : Prop := r < rup8 b.h ∧ c < rup8 b.w

instance (b : RBlk) (r c : Nat) : Decidable (b.inSt r c) := by unfold RBlk.inSt; infer_instance
instance (b : RBlk) (r c : Nat) : Decidable (b.inSmp r c) := by unfold RBlk.inSmp; infer_instance

/-- Replace one element. -/
def upd2 (f : Nat → Nat → Nat) (r c v : Nat) : Nat → Nat → Nat := fun r' c' => if r' = r ∧ c' = c then v else f r' c'

/-- Reads and writes of one element. -/
def RBlk.getSt (b : RBlk) (r c : Nat) : Option Nat := if b.inSt r c then some (b.st r c) else none
@[inherit_doc RBlk.getSt]
def RBlk.orSt (b : RBlk) (r c v : Nat) : Option RBlk :=
  if b.inSt r c then some { b with st := upd2 b.st r c (b.st r c ||| v) } else none
@[inherit_doc RBlk.getSt]
def RBlk.modSmp (b : RBlk) (r c : Nat) (f : Nat → Nat) : Option RBlk :=
  if b.inSmp r c then some { b with smp := upd2 b.smp r c (f (b.smp r c)) } else none

/-- `j2k_codeblock::calc_mbr` (ht_block_decoding.cpp 41-54). -/
def calcMbr (b : RBlk) (i j : Nat) (causalCond : Bool) : Option Nat := do
  let a0 ← b.getSt i j
  let a1 ← b.getSt i (j + 1)
  let a2 ← b.getSt i (j + 2)
  let b0 ← b.getSt (i + 1) j
  let b2 ← b.getSt (i + 1) (j + 2)
  let c0 ← b.getSt (i + 2) j
  let c1 ← b.getSt (i + 2) (j + 1)
  let c2 ← b.getSt (i + 2) (j + 2)
  let m0 := a0 ||| a1 ||| a2
  let m1 := b0 ||| b2
  let m2 := c0 ||| c1 ||| c2
  let cc := causalCond.toNat
  let m := m0 ||| m1 ||| (m2 &&& cc)
  let m := m ||| ((m0 >>> 3) &&& (m0 >>> 4))
  let m := m ||| ((m1 >>> 3) &&& (m1 >>> 4))
  let m := m ||| ((m2 >>> 3) &&& (m2 >>> 4) &&& cc)
  return m &&& 1

/-- Whether the sample at row `i` looks at the row below, `iEnd` being the end of its stripe
(ht_block_decoding.cpp 709, ht_block_encoding.cpp 851). -/
def looksDown (b : RBlk) (i iEnd : Nat) : Bool := !b.causal || decide (i ≠ iEnd - 1)

/-- `mbr` of the sample at `i, j` (ht_block_decoding.cpp 709-713, ht_block_encoding.cpp 851-856). -/
def mbrAt (b : RBlk) (i j iEnd : Nat) : Option Nat := do
  let x ← b.getSt (i + 1) (j + 1)
  if x >>> 0 &&& 1 = 0 then calcMbr b i j (looksDown b i iEnd) else some 0

/-- The samples of a stripe group, column by column (loops of ht_block_decoding.cpp 705-706). -/
def groupScan (i0 j0 wd ht : Nat) : List (Nat × Nat) :=
  (List.range wd).flatMap fun j => (List.range ht).map fun i => (i0 + i, j0 + j)

/-- The stripe groups `(i_start, j_start, width, height)` in the order of `ht_sigprop_decode`
(ht_block_decoding.cpp 751-774) and `ht_sigprop_encode` (ht_block_encoding.cpp 892-914). -/
def groups (w h : Nat) : List (Nat × Nat × Nat × Nat) :=
  let row := fun i0 ht => (List.range (w / 4)).map (fun n2 => (i0, 4 * n2, 4, ht)) ++
    (if w % 4 ≠ 0 then [(i0, 4 * (w / 4), w % 4, ht)] else [])
  (List.range (h / 4)).flatMap (fun n1 => row (4 * n1) 4) ++ row (4 * (h / 4)) (h % 4)

/-- The samples in the order of `ht_magref_decode` (ht_block_decoding.cpp 789-811) and `ht_magref_encode`
(ht_block_encoding.cpp 928-951). -/
def magScan (w h : Nat) : List (Nat × Nat) :=
  (List.range (h / 4)).flatMap (fun n1 => groupScan (4 * n1) 0 w 4) ++ groupScan (4 * (h / 4)) 0 w (h % 4)

/-! ## Decoder -/

/-- SigProp, magnitude of one sample (ht_block_decoding.cpp 707-724). -/
def spMagStep (D : Nat → Option Nat) (lref p iEnd : Nat) (s : RBlk × SpDec) (x : Nat × Nat) : Option (RBlk × SpDec) := do
  let mbr ← mbrAt s.1 x.1 x.2 iEnd
  let s ← if mbr ≠ 0 then do
      let b ← s.1.orSt (x.1 + 1) (x.2 + 1) (1 <<< 2)
      let (bit, r) ← s.2.bit D lref
      let b ← b.orSt (x.1 + 1) (x.2 + 1) (bit <<< 3)
      let b ← b.modSmp x.1 x.2 (· ||| bit <<< p)
      let b ← b.modSmp x.1 x.2 (· ||| bit <<< (p - 1))
      some (b, r)
    else some s
  let b ← s.1.orSt (x.1 + 1) (x.2 + 1) (1 <<< 4)
  return (b, s.2)

/-- SigProp, sign of one sample (ht_block_decoding.cpp 730-735). -/
def spSgnStep (D : Nat → Option Nat) (lref : Nat) (s : RBlk × SpDec) (x : Nat × Nat) : Option (RBlk × SpDec) := do
  let st ← s.1.getSt (x.1 + 1) (x.2 + 1)
  if (st >>> 3) &&& 1 ≠ 0 then do
    let (bit, r) ← s.2.bit D lref
    let b ← s.1.modSmp x.1 x.2 (· ||| bit <<< 31)
    return (b, r)
  else return s

/-- `process_stripes_block_dec` (ht_block_decoding.cpp 694-738). -/
def spGroup (D : Nat → Option Nat) (lref p : Nat) (s : RBlk × SpDec) (g : Nat × Nat × Nat × Nat) : Option (RBlk × SpDec) := do
  let xs := groupScan g.1 g.2.1 g.2.2.1 g.2.2.2
  let s ← xs.foldlM (spMagStep D lref p (g.1 + g.2.2.2)) s
  xs.foldlM (spSgnStep D lref) s

/-- `ht_sigprop_decode` (ht_block_decoding.cpp 740-775). -/
def sigpropDecode (D : Nat → Option Nat) (lref p : Nat) (b : RBlk) : Option RBlk :=
  if p = 0 then some b
  else ((groups b.w b.h).foldlM (spGroup D lref p) (b, SpDec.init)).map Prod.fst

/-- MagRef, one sample (ht_block_decoding.cpp 792-802, 810-820).  `1 << (pLSB - 1)` and the mask are 32-bit
numbers. -/
def mrStep (D : Nat → Option Nat) (p : Nat) (s : RBlk × MrDec) (x : Nat × Nat) : Option (RBlk × MrDec) := do
  let st ← s.1.getSt (x.1 + 1) (x.2 + 1)
  if st >>> 0 &&& 1 ≠ 0 then do
    let b ← s.1.orSt (x.1 + 1) (x.2 + 1) (1 <<< 2)
    let (bit, r) ← s.2.bit D
    let tmp := ((0xFFFFFFFE ||| bit) <<< p) % 2 ^ 32
    let b ← b.modSmp x.1 x.2 (· &&& tmp)
    let b ← b.modSmp x.1 x.2 (· ||| 1 <<< (p - 1))
    return (b, r)
  else return s

/-- `ht_magref_decode` (ht_block_decoding.cpp 777-823). -/
def magrefDecode (D : Nat → Option Nat) (lref p : Nat) (b : RBlk) : Option RBlk :=
  if p = 0 then some b
  else ((magScan b.w b.h).foldlM (mrStep D p) (b, MrDec.init lref)).map Prod.fst

/-! ## Encoder -/

/-- SigProp, magnitude of one sample (ht_block_encoding.cpp 849-869): the block and the bits sent so far. -/
def spMagEnc (iEnd : Nat) (s : RBlk × List Bool) (x : Nat × Nat) : Option (RBlk × List Bool) := do
  let mbr ← mbrAt s.1 x.1 x.2 iEnd
  let s ← if mbr ≠ 0 then do
      let st ← s.1.getSt (x.1 + 1) (x.2 + 1)
      let bit := (st >>> 5) &&& 1
      let b ← s.1.orSt (x.1 + 1) (x.2 + 1) (1 <<< 2)
      let b ← b.orSt (x.1 + 1) (x.2 + 1) (bit <<< 3)
      some (b, s.2 ++ [decide (bit = 1)])
    else some s
  let b ← s.1.orSt (x.1 + 1) (x.2 + 1) (1 <<< 4)
  return (b, s.2)

/-- SigProp, sign of one sample (ht_block_encoding.cpp 874-879). -/
def spSgnEnc (s : RBlk × List Bool) (x : Nat × Nat) : Option (RBlk × List Bool) := do
  let st ← s.1.getSt (x.1 + 1) (x.2 + 1)
  if (st >>> 3) &&& 1 ≠ 0 then return (s.1, s.2 ++ [decide ((st >>> 6) &&& 1 = 1)]) else return s

/-- `process_stripes_block_enc` (ht_block_encoding.cpp 838-881). -/
def spGroupEnc (s : RBlk × List Bool) (g : Nat × Nat × Nat × Nat) : Option (RBlk × List Bool) := do
  let xs := groupScan g.1 g.2.1 g.2.2.1 g.2.2.2
  let s ← xs.foldlM (spMagEnc (g.1 + g.2.2.2)) s
  xs.foldlM spSgnEnc s

/-- `ht_sigprop_encode` (ht_block_encoding.cpp 883-915). -/
def sigpropEncode (b : RBlk) : Option (RBlk × List Bool) := (groups b.w b.h).foldlM spGroupEnc (b, [])

/-- MagRef, one sample (ht_block_encoding.cpp 931-939, 945-950). -/
def mrEnc (s : RBlk × List Bool) (x : Nat × Nat) : Option (RBlk × List Bool) := do
  let st ← s.1.getSt (x.1 + 1) (x.2 + 1)
  if st >>> 0 &&& 1 ≠ 0 then do
    let b ← s.1.orSt (x.1 + 1) (x.2 + 1) (1 <<< 2)
    return (b, s.2 ++ [decide ((st >>> 5) &&& 1 = 1)])
  else return s

/-- `ht_magref_encode` (ht_block_encoding.cpp 919-953). -/
def magrefEncode (b : RBlk) : Option (RBlk × List Bool) := (magScan b.w b.h).foldlM mrEnc (b, [])

/-- Both refinement passes and the segment (ht_block_encoding.cpp 966-977, where both are written). -/
def refineEncode (b : RBlk) : Option (List Nat) := do
  let s ← sigpropEncode b
  let m ← magrefEncode s.1
  refSegment s.2 m.2

end Verif.Ht
