import Mathlib.Algebra.Order.Round
import Mathlib.Data.Rat.Floor
import Mathlib.Tactic.Linarith
import Mathlib.Tactic.Positivity
import Mathlib.Tactic.FieldSimp
/-
The step sizes of the irreversible transform: from a number to exponent and mantissa and back.
Source: /repo/source/core/codestream/j2kmarkers.cpp:728-748 (`pack_quant_step`), 866-883 (packing), 986-1005 (`get_exponents`,
`get_mantissas`), /repo/source/core/coding/coding_units.cpp:2633-2650 (`delta`).

Numbers are rationals.  The `double` operations of `pack_quant_step` are exact for the values below 2 that it gets to round:
doubling is, the difference to 1 of a number in [1, 2) is, and 52 bits hold its 2048-fold plus one half.  For larger values only
that they are larger matters.  So is `delta` before it is scaled by the nominal range: two factors of 1 and 12 bits.  How the
requested step comes about (`sqrt`, `pow`) is not modelled.
-/
namespace Verif.Tile

/-- j2kmarkers.cpp:730-732: exponent and doubled number; `none` when the loop has not ended after the given number of rounds. -/
def packLoop : Nat → ℚ → Nat → Option (Nat × ℚ)
  | 0, _, _ => none
  | n + 1, f, e => if f < 1 then packLoop n (2 * f) (e + 1) else some (e, f)

/-- j2kmarkers.cpp:733-747: `none` when the mantissa does not fit `int32_t`. -/
def packFinish (e : Nat) (g : ℚ) : Option (Nat × Nat) :=
  let m : Int := ⌊(g - 1) * 2048 + 1 / 2⌋
  if 2 ^ 31 ≤ m then none
  else
    let p : Int × Int := if 2048 ≤ m then ((e : Int) - 1, 0) else ((e : Int), m)
    let p : Int × Int := if 31 < p.1 then (31, 0) else p
    let p : Int × Int := if p.1 < 0 then (0, 2047) else p
    some (p.1.toNat, p.2.toNat)

/-- j2kmarkers.cpp:728-748 `pack_quant_step`. -/
def packQuantStep (fuel : Nat) (f : ℚ) : Option (Nat × Nat) := (packLoop fuel f 0).bind fun p => packFinish p.1 p.2

/-- j2kmarkers.cpp:874, 881: the word, an `uint16_t`. -/
def stepWord (p : Nat × Nat) : Nat := (p.1 * 2048 + p.2) % 65536

/-- coding_units.cpp:2648-2649 with j2kmarkers.cpp:986-1005: `delta` before scaling.  `1 << 31` is the smallest `int` (C++14 and
C++17), larger shifts are undefined. -/
def deltaOf (eps mu : Nat) : Option ℚ :=
  if eps < 31 then some (1 / 2 ^ eps * (1 + mu / 2048))
  else if eps = 31 then some (1 / (-2 ^ 31) * (1 + mu / 2048))
  else none

/-- coding_units.cpp:2642-2644 (style 2): `delta` from the word of the subband. -/
def deltaExp (w : Nat) : Option ℚ := deltaOf (w / 2048) (w % 2048)

/-- coding_units.cpp:2635-2638 (style 1): `delta` at level `nb` of `nl` from the only word; the exponent is an `uint8_t`. -/
def deltaDer (nl nb w : Nat) : Option ℚ := deltaOf ((w / 2048 + 256 - nl + nb) % 256) (w % 2048)

end Verif.Tile
