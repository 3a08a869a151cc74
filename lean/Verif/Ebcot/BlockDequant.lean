import Verif.Ebcot.BlockDec
/-
The reversible dequantization of a Part 1 code-block: source/core/coding/block_dequant.cpp:34-72.
-/
namespace Verif.Ebcot

/-- block_dequant.cpp:50-52: the coefficients of the background are scaled up. A left shift out of the range of `int32_t` is an error here. -/
def roiUp (mb roi v : Nat) : Except DErr Nat :=
  if roi ≠ 0 ∧ v / 2 ^ (31 - mb) = 0 then (if v * 2 ^ roi < 2 ^ 31 ∧ roi < 32 then .ok (v * 2 ^ roi) else .error .shift) else .ok v

/-- block_dequant.cpp:53-60: half of the last bit-plane is added. -/
def midBit (mb roi state v : Nat) : Except DErr Nat :=
  let plsb : Int := 31 - mb
  let nb : Int := if roi ≠ 0 then 30 - plsb + 1 else 30 - (state / 8 : Nat) + 1
  if v ≠ 0 ∧ nb < mb then
    let sh := plsb - 1 + mb - nb
    if 0 ≤ sh ∧ sh < 31 then .ok (v ||| 2 ^ sh.toNat) else .error .shift
  else .ok v

/-- block_dequant.cpp:39-40, 48-66: the body of the loops of `j2k_dequant_rev_scalar`, on the sample `val` (the bits of `int32_t`) and the byte `state`. Shift
counts outside of 0..31 are errors (`mask`, 40, is computed from `M_b` alone). The store into `band_buf` is that of `StoreI32`; without it the number
is converted to `float`, which is exact below 2^24. -/
def dequantRev (mb roi val state : Nat) : Except DErr Int :=
  if 31 ≤ mb then .error .shift
  else
    (roiUp mb roi (val % 2 ^ 31)).bind fun v => (midBit mb roi state v).bind fun v =>
      .ok ((if val / 2 ^ 31 % 2 = 1 then -(v : Int) else v) / 2 ^ (31 - mb))

/-- block_dequant.cpp:81-91, the step size of a reversible subband being 1 (coding_units.cpp:2628-2632): the `float` that is converted to `int32_t`. All
factors are powers of two, so there is no rounding. -/
def dequantScale (mb : Nat) : Rat := 2 ^ 13 / (if mb ≤ 31 then 2 ^ (31 - mb) else 1) * (if mb ≤ 31 then 1 else 2 ^ (mb - 31)) * 2 ^ 16 * 2 ^ 15

/-- A row of samples. -/
def dequantRow (x : CbIn) (b : Blk) (y : Nat) : List Nat → Except DErr (List Int)
  | [] => .ok []
  | c :: l => (b.getSmp y c).bind fun v => (b.getSt (y + 1) (c + 1)).bind fun st => (dequantRev x.mb x.roi v st).bind fun q =>
    (dequantRow x b y l).map fun r => q :: r

/-- block_dequant.cpp:42-70: the loops. -/
def dequantRows (x : CbIn) (b : Blk) : List Nat → Except DErr (List (List Int))
  | [] => .ok []
  | y :: l => (dequantRow x b y (List.range x.w)).bind fun r => (dequantRows x b l).map fun rs => r :: rs

/-- block_decoding.cpp:486-603: `j2k_decode` on a block of a reversible subband: the coefficients, row by row. -/
def j2kBlock (x : CbIn) : Except DErr (List (List Int)) := (j2kDecode x).bind fun b => dequantRows x b (List.range x.h)

end Verif.Ebcot
