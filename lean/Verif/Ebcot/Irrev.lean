import Mathlib.Data.Rat.Floor
import Verif.Ebcot.BlockDequant
/-
The irreversible dequantization of a Part 1 code-block: source/core/coding/block_dequant.cpp:73-91, 101-135 (the scalar path).

Simplified: `float` values are rational numbers. The scale is rounded to an integer by the code itself; with the 24 bits of a `float` the number it
is rounded from is off by at most 2^-23 of its value before that.
-/
namespace Verif.Ebcot

/-- What can go wrong: what `DErr` has, or a value outside of `int32_t`. -/
inductive IErr
  | dec (e : DErr)
  | overflow
deriving DecidableEq, Repr

/-- A result of the type `int32_t`. -/
def int32 (z : Int) : Except IErr Int := if -2 ^ 31 ≤ z ∧ z < 2 ^ 31 then .ok z else .error .overflow

/-- block_dequant.cpp:82-91: `scale`. -/
def scaleIrr (step : ℚ) (mb : Nat) : Except IErr Int :=
  let f : ℚ := if mb ≤ 31 then step * 2 ^ 13 / 2 ^ (31 - mb) else step * 2 ^ 13 * 2 ^ (mb - 31)
  let f := f * (2 ^ 16 * 2 ^ 15) + 1 / 2
  int32 (if 0 ≤ f then ⌊f⌋ else -⌊-f⌋)

/-- block_dequant.cpp:114-125: half of the last bit-plane is added; unlike in the reversible path also below the last one. -/
def midIrr (mb roi state v : Nat) : Except IErr Nat :=
  let plsb : Int := 31 - mb
  let nb : Int := if roi ≠ 0 then 30 - plsb + 1 else 30 - (state / 8 : Nat) + 1
  let off : Int := if nb < mb then mb - nb else 0
  let sh := plsb - 1 + off
  if 0 ≤ sh ∧ sh < 31 then .ok (if v ≠ 0 then v ||| 2 ^ sh.toNat else v) else .error (.dec .shift)

/-- block_dequant.cpp:126-128: the product, with the upper 15 bits of the magnitude. -/
def mulIrr (scale : Int) (v : Nat) : Except IErr Int :=
  (int32 (v + 2 ^ 15)).bind fun a => (int32 (a / 2 ^ 16 * scale)).bind fun p => (int32 (p + 2 ^ 14)).bind fun s => .ok (s / 2 ^ 15)

/-- block_dequant.cpp:79-80, 105-131: the body of the loops, on the sample `val` (the bits of `int32_t`) and the byte `state`. -/
def dequantIrr (mb roi : Nat) (scale : Int) (val state : Nat) : Except IErr Int :=
  if 31 ≤ mb then .error (.dec .shift)
  else
    ((roiUp mb roi (val % 2 ^ 31)).mapError IErr.dec).bind fun v => (midIrr mb roi state v).bind fun v => (mulIrr scale v).bind fun q =>
      .ok (if val / 2 ^ 31 % 2 = 1 then -q else q)

/-- A row of samples. -/
def dequantIrrRow (x : CbIn) (scale : Int) (b : Blk) (y : Nat) : List Nat → Except IErr (List Int)
  | [] => .ok []
  | c :: l => ((b.getSmp y c).mapError IErr.dec).bind fun v => ((b.getSt (y + 1) (c + 1)).mapError IErr.dec).bind fun st =>
    (dequantIrr x.mb x.roi scale v st).bind fun q => (dequantIrrRow x scale b y l).map fun r => q :: r

/-- block_dequant.cpp:103-134: the loops. -/
def dequantIrrRows (x : CbIn) (scale : Int) (b : Blk) : List Nat → Except IErr (List (List Int))
  | [] => .ok []
  | y :: l => (dequantIrrRow x scale b y (List.range x.w)).bind fun r => (dequantIrrRows x scale b l).map fun rs => r :: rs

/-- block_decoding.cpp:486-603: `j2k_decode` on a block of an irreversible subband: the coefficients, row by row. -/
def j2kBlockIrr (x : CbIn) (step : ℚ) : Except IErr (List (List Int)) :=
  ((j2kDecode x).mapError IErr.dec).bind fun b => (scaleIrr step x.mb).bind fun s => dequantIrrRows x s b (List.range x.h)

end Verif.Ebcot
