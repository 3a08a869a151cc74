import Verif.Ebcot.Irrev
import Verif.Ht.Cleanup
/-
Registers of 32-bit lanes for the kernels in which every instruction acts on each lane for itself: a register of `k` lanes (4 NEON and SSE, 8 AVX2, 16 AVX-512) is a function
from lane numbers to 32 bits.  What the instructions do is written from memory of the Intel and Arm manuals, which are not at hand.
-/
namespace Verif.Simd

/-- A register of `k` 32-bit lanes. -/
abbrev V (k : Nat) := Fin k → BitVec 32

section
variable {k : Nat}

/-- `_mm256_set1_epi32`, `_mm512_set1_epi32`, `vdupq_n_s32`; zero registers. -/
def vset (c : BitVec 32) : V k := fun _ => c
/-- `_mm256_and_si256`, `vandq_s32`. -/
def vand (a b : V k) : V k := fun i => a i &&& b i
/-- `_mm256_or_si256`, `vorrq_s32`. -/
def vor (a b : V k) : V k := fun i => a i ||| b i
/-- `_mm256_xor_si256`, `veorq_s32`. -/
def vxor (a b : V k) : V k := fun i => a i ^^^ b i
/-- `_mm256_add_epi32`, `vaddq_s32`. -/
def vadd (a b : V k) : V k := fun i => a i + b i
/-- `_mm256_sub_epi32`, `vsubq_s32`. -/
def vsub (a b : V k) : V k := fun i => a i - b i
/-- `_mm256_mullo_epi32`, `vmulq_s32`. -/
def vmul (a b : V k) : V k := fun i => a i * b i
/-- `_mm256_max_epi32`, `vmaxq_s32`: numbers with sign. -/
def vmax (a b : V k) : V k := fun i => if (a i).slt (b i) then b i else a i
/-- A lane of all ones or of all zeros. -/
def laneMask (c : Bool) : BitVec 32 := if c then BitVec.allOnes 32 else 0#32
/-- `_mm256_cmpgt_epi32`, `vcgtq_s32`; with exchanged operands `vcltq_s32`. -/
def vgt (a b : V k) : V k := fun i => laneMask ((b i).slt (a i))
/-- `_mm256_cmpeq_epi32`, `vceqq_s32`. -/
def veq (a b : V k) : V k := fun i => laneMask (a i == b i)
/-- `_mm256_blendv_epi8`, for masks of whole lanes: the second where the mask is set. -/
def vblend (a b m : V k) : V k := fun i => if (m i).msb then b i else a i
/-- `_mm256_slli_epi32`: zero for counts above 31. -/
def vslli (a : V k) (c : Nat) : V k := fun i => a i <<< c
/-- `_mm256_sllv_epi32`: counts without sign, zero for counts above 31. -/
def vsllv (a c : V k) : V k := fun i => a i <<< (c i).toNat
/-- `_mm256_srli_epi32`. -/
def vsrli (a : V k) (c : Nat) : V k := fun i => a i >>> c
/-- `_mm256_srai_epi32`, `vshrq_n_s32`: counts above 31 are as 31. -/
def vsrai (a : V k) (c : Nat) : V k := fun i => (a i).sshiftRight (min c 31)
/-- `_mm256_sign_epi32`: the first, its negative or zero, as the second is above, below or equal to zero. -/
def vsign (a b : V k) : V k := fun i => if (b i).msb then -a i else if b i = 0#32 then 0#32 else a i
/-- `_mm256_cvtepu8_epi32` of loaded bytes. -/
def vcvtU8 (a : Fin k → BitVec 8) : V k := fun i => (a i).setWidth 32
/-- `vshlq_s32` on a lane: the count is the lowest byte with sign; to the right if it is negative. -/
def shlN (a c : BitVec 32) : BitVec 32 := if 0 ≤ (c.setWidth 8).toInt then a <<< (c.setWidth 8).toInt.toNat else a.sshiftRight (-(c.setWidth 8).toInt).toNat
/-- `vshlq_s32`. -/
def vshlN (a c : V k) : V k := fun i => shlN (a i) (c i)
/-- AVX-512: mask registers. -/
abbrev K (k : Nat) := Fin k → Bool
/-- `_mm512_cmpgt_epi32_mask`. -/
def kgt (a b : V k) : K k := fun i => (b i).slt (a i)
/-- `_mm512_cmpeq_epi32_mask`. -/
def keq (a b : V k) : K k := fun i => a i == b i
/-- `_kand_mask16`. -/
def kand (a b : K k) : K k := fun i => a i && b i
/-- `_mm512_mask_slli_epi32`. -/
def kslli (s : V k) (m : K k) (a : V k) (c : Nat) : V k := fun i => if m i then a i <<< c else s i
/-- `_mm512_mask_or_epi32`. -/
def kor (s : V k) (m : K k) (a b : V k) : V k := fun i => if m i then a i ||| b i else s i
end

/-! ### Dequantisation of Part 1 code-blocks -/

/-- block_dequant_avx2.cpp:47, block_dequant_neon.cpp:42: `mask`. -/
def roiMask (mb : Nat) : BitVec 32 := BitVec.allOnes 32 >>> (mb + 1)

/-- block_dequant_avx2.cpp:64-104: eight samples `val` with the bytes `st`, reversible. -/
def revAvx2 (mb roi : Nat) (val : V 8) (st : Fin 8 → BitVec 8) : V 8 :=
  let pLSB : Int := 31 - mb
  let vSign := vsrai val 31
  let vVal := vand val (vset 0x7FFFFFFF#32)
  let vVal := if roi ≠ 0 then vblend vVal (vslli vVal roi) (veq (vand vVal (vset (~~~ roiMask mb))) (vset 0#32)) else vVal
  let vState := if roi ≠ 0 then vset (BitVec.ofInt 32 (30 - pLSB + 1)) else vadd (vsub (vset 30#32) (vsrli (vcvtU8 st) 3)) (vset 1#32)
  let vOffset := vmax (vsub (vset (BitVec.ofNat 32 mb)) vState) (vset 0#32)
  let vShift := vadd (vset (BitVec.ofInt 32 (pLSB - 1))) vOffset
  let vRval := vsllv (vset 1#32) vShift
  let vCond := vand (vgt vVal (vset 0#32)) (vgt (vset (BitVec.ofNat 32 mb)) vState)
  let vVal := vor vVal (vand vRval vCond)
  let vVal := vsub (vxor vVal vSign) vSign
  vsrai vVal pLSB.toNat

/-- block_dequant_avx512.cpp:62-98: sixteen samples, reversible. -/
def revAvx512 (mb roi : Nat) (val : V 16) (st : Fin 16 → BitVec 8) : V 16 :=
  let pLSB : Int := 31 - mb
  let vSign := vsrai val 31
  let vVal := vand val (vset 0x7FFFFFFF#32)
  let vVal := if roi ≠ 0 then kslli vVal (keq (vand vVal (vset (~~~ roiMask mb))) (vset 0#32)) vVal roi else vVal
  let vState := if roi ≠ 0 then vset (BitVec.ofInt 32 (30 - pLSB + 1)) else vadd (vsub (vset 30#32) (vsrli (vcvtU8 st) 3)) (vset 1#32)
  let vOffset := vmax (vsub (vset (BitVec.ofNat 32 mb)) vState) (vset 0#32)
  let vShift := vadd (vset (BitVec.ofInt 32 (pLSB - 1))) vOffset
  let vRval := vsllv (vset 1#32) vShift
  let kCond := kand (kgt vVal (vset 0#32)) (kgt (vset (BitVec.ofNat 32 mb)) vState)
  let vVal := kor vVal kCond vVal vRval
  let vVal := vsub (vxor vVal vSign) vSign
  vsrai vVal pLSB.toNat

/-- block_dequant_neon.cpp:57-104: four samples, reversible.  The loop over the four samples in memory (63-71) is written as a function of the lane; there a left shift out of
the range of `int32_t` is undefined, here it is as on the machine. -/
def revNeon (mb roi : Nat) (val : V 4) (st : Fin 4 → BitVec 8) : V 4 :=
  let pLSB : Int := 31 - mb
  let vSign := vsrai val 31
  let vVal := vand val (vset 0x7FFFFFFF#32)
  let vVal : V 4 := if roi ≠ 0 then (fun i => if vVal i &&& ~~~ roiMask mb = 0#32 then vVal i <<< roi else vVal i) else vVal
  let vState := if roi ≠ 0 then vset (BitVec.ofInt 32 (30 - pLSB + 1)) else vadd (vsub (vset 30#32) (fun i => (st i).setWidth 32 >>> 3)) (vset 1#32)
  let vOffset := vmax (vsub (vset (BitVec.ofNat 32 mb)) vState) (vset 0#32)
  let vShift := vadd (vset (BitVec.ofInt 32 (pLSB - 1))) vOffset
  let vRval := vshlN (vset 1#32) vShift
  let vCond := vand (vgt vVal (vset 0#32)) (vgt (vset (BitVec.ofNat 32 mb)) vState)
  let vVal := vor vVal (vand vRval vCond)
  let vVal := vsub (vxor vVal vSign) vSign
  vshlN vVal (vset (BitVec.ofInt 32 (-pLSB)))

/-- block_dequant_avx2.cpp:163-216: eight samples, irreversible. -/
def irrAvx2 (mb roi : Nat) (scale : Int) (val : V 8) (st : Fin 8 → BitVec 8) : V 8 :=
  let pLSB : Int := 31 - mb
  let vSign := vsrai val 31
  let vVal := vand val (vset 0x7FFFFFFF#32)
  let vVal := if roi ≠ 0 then vblend vVal (vslli vVal roi) (veq (vand vVal (vset (~~~ roiMask mb))) (vset 0#32)) else vVal
  let vState := if roi ≠ 0 then vset (BitVec.ofInt 32 (30 - pLSB + 1)) else vadd (vsub (vset 30#32) (vsrli (vcvtU8 st) 3)) (vset 1#32)
  let vOffset := vmax (vsub (vset (BitVec.ofNat 32 mb)) vState) (vset 0#32)
  let vShift := vadd (vset (BitVec.ofInt 32 (pLSB - 1))) vOffset
  let vRval := vsllv (vset 1#32) vShift
  let vVal := vor vVal (vand vRval (vgt vVal (vset 0#32)))
  let vVal := vsrai (vadd vVal (vset 0x8000#32)) 16
  let vVal := vmul vVal (vset (BitVec.ofInt 32 scale))
  let vQ := vsrai (vadd vVal (vset 0x4000#32)) 15
  vsub (vxor vQ vSign) vSign

/-- block_dequant_avx512.cpp:174-224: sixteen samples, irreversible. -/
def irrAvx512 (mb roi : Nat) (scale : Int) (val : V 16) (st : Fin 16 → BitVec 8) : V 16 :=
  let pLSB : Int := 31 - mb
  let vSign := vsrai val 31
  let vVal := vand val (vset 0x7FFFFFFF#32)
  let vVal := if roi ≠ 0 then kslli vVal (keq (vand vVal (vset (~~~ roiMask mb))) (vset 0#32)) vVal roi else vVal
  let vState := if roi ≠ 0 then vset (BitVec.ofInt 32 (30 - pLSB + 1)) else vadd (vsub (vset 30#32) (vsrli (vcvtU8 st) 3)) (vset 1#32)
  let vOffset := vmax (vsub (vset (BitVec.ofNat 32 mb)) vState) (vset 0#32)
  let vShift := vadd (vset (BitVec.ofInt 32 (pLSB - 1))) vOffset
  let vRval := vsllv (vset 1#32) vShift
  let vVal := kor vVal (kgt vVal (vset 0#32)) vVal vRval
  let vVal := vsrai (vadd vVal (vset 0x8000#32)) 16
  let vVal := vmul vVal (vset (BitVec.ofInt 32 scale))
  let vQ := vsrai (vadd vVal (vset 0x4000#32)) 15
  vsub (vxor vQ vSign) vSign

/-- block_dequant_neon.cpp:174-232: four samples, irreversible; the up-shift as in `revNeon`. -/
def irrNeon (mb roi : Nat) (scale : Int) (val : V 4) (st : Fin 4 → BitVec 8) : V 4 :=
  let pLSB : Int := 31 - mb
  let vSign := vsrai val 31
  let vVal := vand val (vset 0x7FFFFFFF#32)
  let vVal : V 4 := if roi ≠ 0 then (fun i => if vVal i &&& ~~~ roiMask mb = 0#32 then vVal i <<< roi else vVal i) else vVal
  let vState := if roi ≠ 0 then vset (BitVec.ofInt 32 (30 - pLSB + 1)) else vadd (vsub (vset 30#32) (fun i => (st i).setWidth 32 >>> 3)) (vset 1#32)
  let vOffset := vmax (vsub (vset (BitVec.ofNat 32 mb)) vState) (vset 0#32)
  let vShift := vadd (vset (BitVec.ofInt 32 (pLSB - 1))) vOffset
  let vRval := vshlN (vset 1#32) vShift
  let vVal := vor vVal (vand vRval (vgt vVal (vset 0#32)))
  let vVal := vsrai (vadd vVal (vset 0x8000#32)) 16
  let vVal := vmul vVal (vset (BitVec.ofInt 32 scale))
  let vQ := vsrai (vadd vVal (vset 0x4000#32)) 15
  vsub (vxor vQ vSign) vSign

/-! ### Rows -/

/-- The builds. -/
inductive Arch
  | avx2 | avx512 | neon
deriving DecidableEq, Repr

/-- Lanes of a register. -/
def Arch.lanes : Arch → Nat
  | .avx2 => 8
  | .avx512 => 16
  | .neon => 4

/-- The reversible group of a build. -/
def Arch.rev : (a : Arch) → Nat → Nat → V a.lanes → (Fin a.lanes → BitVec 8) → V a.lanes
  | .avx2 => revAvx2
  | .avx512 => revAvx512
  | .neon => revNeon

/-- The irreversible group of a build. -/
def Arch.irr : (a : Arch) → Nat → Nat → Int → V a.lanes → (Fin a.lanes → BitVec 8) → V a.lanes
  | .avx2 => irrAvx2
  | .avx512 => irrAvx512
  | .neon => irrNeon

open Verif.Ebcot

/-- Loading of `n` samples or bytes one after the other. -/
def loadN (f : Nat → Except DErr Nat) : Nat → Nat → Except DErr (List Nat)
  | _, 0 => .ok []
  | x, n + 1 => (f x).bind fun v => (loadN f (x + 1) n).map fun l => v :: l

/-- block_dequant_avx2.cpp:57-125, block_dequant_avx512.cpp:55-121, block_dequant_neon.cpp:50-127: a row from column `c` on, whole registers and then single samples (which are
written as in the scalar build).  Counts of shifts outside of 0..31 (`mask` and `pLSB`, from `M_b` alone) are errors. -/
def revRow (a : Arch) (x : CbIn) (b : Blk) (y c : Nat) : Except DErr (List Int) :=
  if 0 < a.lanes ∧ c + a.lanes ≤ x.w then
    if 31 ≤ x.mb then .error .shift
    else (loadN (b.getSmp y) c a.lanes).bind fun v => (loadN (fun c => b.getSt (y + 1) (c + 1)) c a.lanes).bind fun st =>
      let q := a.rev x.mb x.roi (fun i => BitVec.ofNat 32 (v.getD i 0)) fun i => BitVec.ofNat 8 (st.getD i 0)
      (revRow a x b y (c + a.lanes)).map fun r => List.ofFn (fun i => (q i).toInt) ++ r
  else dequantRow x b y (List.range' c (x.w - c))
termination_by x.w - c

/-- block_dequant_avx2.cpp:57-126 and the others: the rows. -/
def revRows (a : Arch) (x : CbIn) (b : Blk) : List Nat → Except DErr (List (List Int))
  | [] => .ok []
  | y :: l => (revRow a x b y 0).bind fun r => (revRows a x b l).map fun rs => r :: rs

/-- block_decoding.cpp:486-603 with the dequantisation of a build: a block of a reversible subband. -/
def j2kBlockSimd (a : Arch) (x : CbIn) : Except DErr (List (List Int)) := (j2kDecode x).bind fun b => revRows a x b (List.range x.h)

/-- block_dequant_avx2.cpp:156-246, block_dequant_avx512.cpp:167-255, block_dequant_neon.cpp:168-266: a row, irreversible.  The NEON build multiplies single samples without sign (254-257); where
the scalar product is defined that is the same. -/
def irrRow (a : Arch) (x : CbIn) (scale : Int) (b : Blk) (y c : Nat) : Except IErr (List Int) :=
  if 0 < a.lanes ∧ c + a.lanes ≤ x.w then
    if 31 ≤ x.mb then .error (.dec .shift)
    else ((loadN (b.getSmp y) c a.lanes).mapError IErr.dec).bind fun v => ((loadN (fun c => b.getSt (y + 1) (c + 1)) c a.lanes).mapError IErr.dec).bind fun st =>
      let q := a.irr x.mb x.roi scale (fun i => BitVec.ofNat 32 (v.getD i 0)) fun i => BitVec.ofNat 8 (st.getD i 0)
      (irrRow a x scale b y (c + a.lanes)).map fun r => List.ofFn (fun i => (q i).toInt) ++ r
  else dequantIrrRow x scale b y (List.range' c (x.w - c))
termination_by x.w - c

/-- The rows. -/
def irrRows (a : Arch) (x : CbIn) (scale : Int) (b : Blk) : List Nat → Except IErr (List (List Int))
  | [] => .ok []
  | y :: l => (irrRow a x scale b y 0).bind fun r => (irrRows a x scale b l).map fun rs => r :: rs

/-- block_decoding.cpp:486-603 with the dequantisation of a build: a block of an irreversible subband. -/
def j2kBlockIrrSimd (a : Arch) (x : CbIn) (step : ℚ) : Except IErr (List (List Int)) :=
  ((j2kDecode x).mapError IErr.dec).bind fun b => (scaleIrr step x.mb).bind fun s => irrRows a x s b (List.range x.h)

/-! ### Dequantisation of HT code-blocks -/

/-- ht_block_decoding.cpp:845-870: a sample of a reversible subband, the scalar code.  A left shift out of the range of `int32_t` is an error, as are counts outside of 0..31. -/
def htRev (mb roi val : Nat) : Except DErr Int :=
  if 31 ≤ mb then .error .shift
  else (roiUp mb roi (val % 2 ^ 31)).bind fun v => .ok (if val / 2 ^ 31 % 2 = 1 then -((v / 2 ^ (31 - mb) % 2 ^ 31 : Nat) : Int) else (v / 2 ^ (31 - mb) : Nat))

/-- ht_block_decoding.cpp:894-925: a sample of an irreversible subband with a region of interest, the scalar code. -/
def htIrrRoi (mb roi : Nat) (scale : Int) (val : Nat) : Except IErr Int :=
  if 31 ≤ mb then .error (.dec .shift)
  else ((roiUp mb roi (val % 2 ^ 31)).mapError IErr.dec).bind fun v => (mulIrr scale v).bind fun q => .ok (if val / 2 ^ 31 % 2 = 1 then -(q % 2 ^ 31) else q)

/-- ht_block_decoding_avx2.cpp:675-711: one of the two registers of the loops, reversible. -/
def htRevAvx2 (mb roi : Nat) (val : V 8) : V 8 :=
  let pLSB := 31 - mb
  let v := vand val (vset 0x7FFFFFFF#32)
  let v := if roi = 0 then v else vsllv v (vand (veq (vand v (vset (~~~ roiMask mb))) (vset 0#32)) (vset (BitVec.ofNat 32 roi)))
  vsign (vsrai v pLSB) val

/-- ht_block_decoding_avx2.cpp:813-846: irreversible with a region of interest. -/
def htIrrAvx2 (mb roi : Nat) (scale : Int) (val : V 8) : V 8 :=
  let v := vand val (vset 0x7FFFFFFF#32)
  let v := vsllv v (vand (veq (vand v (vset (~~~ roiMask mb))) (vset 0#32)) (vset (BitVec.ofNat 32 roi)))
  let v := vsrai (vadd v (vset 0x8000#32)) 16
  let v := vmul v (vset (BitVec.ofInt 32 scale))
  let v := vsrai (vadd v (vset 0x4000#32)) 15
  vsign v val

/-- `vbslq_s32` with a mask of whole lanes. -/
def vbsl {k : Nat} (m a b : V k) : V k := fun i => if (m i).msb then a i else b i
/-- `vnegq_s32`. -/
def vneg {k : Nat} (a : V k) : V k := fun i => -a i
/-- `vrshrq_n_s32`: to the right with rounding, the sum not being reduced to 32 bits. -/
def vrshr {k : Nat} (a : V k) (c : Nat) : V k := fun i => BitVec.ofInt 32 (((a i).toInt + 2 ^ (c - 1)) / 2 ^ c)

/-- ht_block_decoding_neon.cpp:762-778: one of the two registers, reversible; one shift by the difference of both counts. -/
def htRevNeon (mb roi : Nat) (val : V 4) : V 4 :=
  let s := vsrai val 31
  let v := vand val (vset 0x7FFFFFFF#32)
  let m := vand (veq (vand v (vset (~~~ roiMask mb))) (vset 0#32)) (vset (BitVec.ofNat 32 roi))
  let v := vshlN v (vsub m (vset (BitVec.ofNat 32 (31 - mb))))
  vbsl s (vneg v) v

/-- ht_block_decoding_neon.cpp:872-898: irreversible with a region of interest. -/
def htIrrNeon (mb roi : Nat) (scale : Int) (val : V 4) : V 4 :=
  let s := vsrai val 31
  let v := vand val (vset 0x7FFFFFFF#32)
  let m := vand (veq (vand v (vset (~~~ roiMask mb))) (vset 0#32)) (vset (BitVec.ofNat 32 roi))
  let v := vshlN v m
  let v := vrshr v 16
  let v := vmul v (vset (BitVec.ofInt 32 scale))
  let v := vrshr v 15
  vbsl s (vneg v) v

/-- A row of samples `smp`, one after the other. -/
def htRow {ε : Type} (f : Nat → Except ε Int) (smp : Nat → Nat) : List Nat → Except ε (List Int)
  | [] => .ok []
  | c :: l => (f (smp c)).bind fun q => (htRow f smp l).map fun r => q :: r

/-- The loops over a row of `w` samples: two registers of `k` lanes at a time, the rest (`f`) one sample at a time. -/
def htRowSimd {ε : Type} (k : Nat) (g : V k → V k) (f : Nat → Except ε Int) (w : Nat) (smp : Nat → Nat) (c : Nat) : Except ε (List Int) :=
  if 0 < k ∧ c + 2 * k ≤ w then
    let a := g fun i => BitVec.ofNat 32 (smp (c + i))
    let b := g fun i => BitVec.ofNat 32 (smp (c + k + i))
    (htRowSimd k g f w smp (c + 2 * k)).map fun r => List.ofFn (fun i => (a i).toInt) ++ (List.ofFn (fun i => (b i).toInt) ++ r)
  else htRow f smp (List.range' c (w - c))
termination_by w - c

end Verif.Simd
