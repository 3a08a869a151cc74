import Mathlib.Data.Rat.Floor
import Verif.Ht.Cleanup
/-!
# Code-blocks of irreversible subbands, HT block coder

Source: source/core/coding/ht_block_encoding.cpp 45-92 (`quantize`), coding_units.cpp 487-614 (`sink_quantize_row`, its scalar
path; the same for one sample), ht_block_decoding.cpp 57-76 (`dequant_store_scalar`), 90-107 and 835-843 (the scale), 879-891
(`dequantize` without ROI).

Simplified: `float` values are rational numbers, the three roundings (of the scale, of the product, of the decoded magnitude) are
left out.  Each is at most 2^-24 of its value.
-/

namespace Verif.Ht

/-- `static_cast<int32_t>` of a `float`: towards zero. -/
def truncQ (x : ℚ) : Int := if 0 ≤ x then ⌊x⌋ else -⌊-x⌋

/-- ht_block_encoding.cpp 51-55, 69-74; coding_units.cpp 502-503, 587: the quantiser index of a coefficient.  `step` is `stepsize`. -/
def quantIrr (step c : ℚ) : Int := truncQ (c * (1 / step / 2 ^ 13))

/-- `htj2k_cleanup_encode` on a block of an irreversible subband: `quantize`, then as for reversible ones.  `none` also when
an index does not fit `int32_t` or its negation does not. -/
def encodeIrr (w h : Nat) (step : ℚ) (c : Nat → Nat → ℚ) : Option (List Nat) :=
  if ∀ y < h, ∀ x < w, (quantIrr step (c y x)).natAbs < 2 ^ 31 then encodeBlock w h fun y x => quantIrr step (c y x) else none

/-- ht_block_decoding.cpp 100-105, 837-843: `fscale_direct`. -/
def scaleDirect (step : ℚ) (mb : Nat) : ℚ := if mb ≤ 31 then step * 2 ^ 13 / 2 ^ (31 - mb) else step * 2 ^ 13 * 2 ^ (mb - 31)

/-- ht_block_decoding.cpp 70-73, 884-887. -/
def dequantIrr (step : ℚ) (mb val : Nat) : ℚ :=
  let f : ℚ := (val &&& 0x7FFFFFFF : Nat) * scaleDirect step mb
  if val.testBit 31 then -f else f

/-- `htj2k_decode` as `decodeBlock`, on a block of an irreversible subband without ROI. -/
def decodeIrr (w h mb zbp : Nat) (step : ℚ) (pm pv pd : Nat) (sp : Nat → Nat) (d : List Nat) : Option (Nat → Nat → ℚ) :=
  if d = [] then some fun _ _ => 0
  else if 30 ≤ zbp then none
  else do
    let (msBytes, seg) ← openCup d
    let sstr := (w + 2 + 7) / 8 * 8
    let sp ← decStep1 ((w + 1) / 2) ((h + 1) / 2) sstr pm pv seg sp
    let out ← decStep2 w h (30 - zbp) sstr pd msBytes sp
    return fun y x => dequantIrr step mb (out y x)

end Verif.Ht
