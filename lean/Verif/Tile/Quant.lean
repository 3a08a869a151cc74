import Mathlib.Tactic.NormNum

/-!
# The exponents of a reversible QCD marker segment and the number of magnitude bit-planes

Models the reversible part of `build_quant_steps` (source/core/codestream/j2kmarkers.cpp 760-884), the writing and
reading of QCD (888-915, 960-993) and the derivation of `M_b` (source/core/coding/coding_units.cpp 2617-2632).  The
gains are dyadic rationals; the code holds them in `double`, here they are pairs of a numerator and a denominator
(the `double` additions are exact as long as 53 bits suffice, that is for 17 levels; beyond that the code rounds).
-/

namespace Verif.Tile

/-- Sum of two coefficient lists, the shorter one padded with zeros. -/
def addTaps : List Int → List Int → List Int
  | [], b => b
  | a, [] => a
  | x :: a, y :: b => (x + y) :: addTaps a b

/-- The double loops j2kmarkers.cpp:812-824: the convolution of two filters. -/
def conv : List Int → List Int → List Int
  | [], _ => []
  | x :: a, b => addTaps (b.map (x * ·)) (0 :: conv a b)

/-- j2kmarkers.cpp:804-811: a zero after each tap. -/
def upsample : List Int → List Int
  | [] => []
  | x :: a => x :: 0 :: upsample a

/-- `CDF53L` (line 770), times 8. -/
def cdfL : List Int := [-1, 2, 6, 2, -1]

/-- `outL` at iteration `level` of the loop at line 790, times `8 ^ (level + 1)`. -/
def outL : Nat → List Int
  | 0 => cdfL
  | level + 1 => conv cdfL (upsample (outL level))

/-- `outH`, with `CDF53H` from line 771, times `8 ^ (level + 1)`. -/
def outH : Nat → List Int
  | 0 => [-4, 8, -4]
  | level + 1 => conv cdfL (upsample (outH level))

/-- j2kmarkers.cpp:793-798: `gain_low` and `gain_high`, times `8 ^ (level + 1)`. -/
def absSum (l : List Int) : Nat := (l.map Int.natAbs).sum

/-- The entries HH, LH, HL pushed for one level (lines 800-802). -/
def levelGains (level : Nat) : List (Nat × Nat) :=
  let gl := absSum (outL level)
  let gh := absSum (outH level)
  let den := 64 ^ (level + 1)
  [(gh * gh, den), (gl * gh, den), (gh * gl, den)]

/-- `wmse_or_BIBO` (lines 786-828) as numerators and denominators, in the order pushed: finest level first, LL last. -/
def gains (levels : Nat) : List (Nat × Nat) :=
  if levels = 0 then [(1, 1)]
  else (List.range levels).flatMap levelGains ++
    [(absSum (outL (levels - 1)) * absSum (outL (levels - 1)), 64 ^ levels)]

/-- The `while` loop of lines 835-838: how often the gain is halved until it is at most 0.9.  `fuel` bounds the
recursion; `num + 1` is enough (`halvings_spec`). -/
def halvings : Nat → Nat → Nat → Nat
  | 0, _, _ => 0
  | fuel + 1, num, den => if 10 * num > 9 * den then halvings fuel num (2 * den) + 1 else 0

/-- Lines 833-838: `epsilon` of one band, an `uint8_t`: the subtraction and the increments wrap modulo 256. -/
def epsilonRev (guard ri ycc : Nat) (g : Nat × Nat) : Nat :=
  (ri + 256 - guard + ycc + halvings (g.1 + 1) g.1 g.2) % 256

/-- Lines 834, 865-872: the words `SPqcd` (or `SPqcc`) of the reversible transform, LL first. -/
def quantSteps (guard levels ri ycc : Nat) : List Nat :=
  (gains levels).reverse.map fun g => epsilonRev guard ri ycc g * 8

/-- j2kmarkers.cpp:980-984 and coding_units.cpp:2628-2631: `M_b` from a word `SPqcd[i]`, all in `uint8_t`. -/
def magBits (guard sp : Nat) : Nat := (sp / 8 % 256 + guard + 255) % 256

/-- j2kmarkers.cpp:962-968 and 896-901: each word is written as one byte, and read back. -/
def throughByte (sp : Nat) : Nat := sp % 256

/-- encoder.cpp:650-651, 834-835: the QCD of a codestream is made for the bit depth of component 0. -/
def encoderSteps (guard levels ycc : Nat) (depths : List Nat) : List Nat :=
  quantSteps guard levels (depths.headD 0) ycc

end Verif.Tile
