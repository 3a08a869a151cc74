import Verif.Tactics
/-
Model of the geometry of tiles, tile-components, resolutions, subbands, precincts and code-blocks.
Source: /repo/source/core/codestream/j2kmarkers.cpp:1807-1815, /repo/source/core/common/utils.hpp:38,
/repo/source/core/coding/coding_units.cpp:1597-1652, 2381-2420, 2541-2615, 2659-2694, 3527-3530, 3738-3755, 4011-4027.
All coordinates are `uint32_t`.  Every rectangle is a product of two spans, so the model works on one axis at a time; the
two axes are treated by the same code.  The DFS extension (arbitrary decomposition) is not modelled: both axes are halved
at every level.
-/
namespace Verif.Tile

/-- `uint32_t` truncation. -/
def w32 (n : Nat) : Nat := n % 2 ^ 32

/-- `uint32_t` subtraction of values below `2 ^ 32`. -/
def usub (a b : Nat) : Nat := if b ≤ a then a - b else a + 2 ^ 32 - b

/-- utils.hpp:38 `ceil_int`, in `uint32_t`. -/
def ceilInt (a b : Nat) : Nat := w32 (a + (b - 1)) / b

/-- A half-open span of coordinates on one axis. -/
abbrev Span := Nat × Nat

/-- One axis of the SIZ segment: image end, image origin, tile size, tile origin. -/
structure Axis where
  siz : Nat
  osiz : Nat
  tsiz : Nat
  tosiz : Nat
  deriving DecidableEq, Repr

/-- j2kmarkers.cpp:1807-1815 `get_number_of_tiles`. -/
def numTiles (a : Axis) : Nat := ceilInt (usub a.siz a.tosiz) a.tsiz

/-- coding_units.cpp:4024-4027 (decoder), 6840-6843 (encoder): a tile, from its index on the axis. -/
def tileSpan (a : Axis) (p : Nat) : Span :=
  (max (w32 (a.tosiz + w32 (p * a.tsiz))) a.osiz, min (w32 (a.tosiz + w32 ((p + 1) * a.tsiz))) a.siz)

/-- coding_units.cpp:4017-4018: the tile index on each axis; both are cut to 16 bits. -/
def tileX (ax : Axis) (idx : Nat) : Nat := idx % numTiles ax % 65536
def tileY (ax : Axis) (idx : Nat) : Nat := idx / numTiles ax % 65536

/-- coding_units.cpp:3527-3530: the tile-component. -/
def tcSpan (t : Span) (sub : Nat) : Span := (ceilInt t.1 sub, ceilInt t.2 sub)

/-- coding_units.cpp:3740-3750: resolution `r`; `1 << (NL - r)` is a shift of a 32-bit `int`. -/
def resSpan (tc : Span) (NL r : Nat) : Option Span :=
  if NL - r < 32 then some (ceilInt tc.1 (2 ^ (NL - r)), ceilInt tc.2 (2 ^ (NL - r))) else none

/-- coding_units.cpp:3754-3755: number of precincts on the axis. -/
def numPrec (s : Span) (lpp : Nat) : Nat :=
  if s.1 < s.2 then usub (ceilInt s.2 (2 ^ lpp)) (s.1 / 2 ^ lpp) else 0

/-- coding_units.cpp:2679-2685: precinct number `x` of a resolution. -/
def precSpan (s : Span) (lpp x : Nat) : Span :=
  (max s.1 (w32 (2 ^ lpp * w32 (x + s.1 / 2 ^ lpp))), min s.2 (w32 (2 ^ lpp * w32 (x + 1 + s.1 / 2 ^ lpp))))

/-- coding_units.cpp:2609-2612: a subband other than LL; `nb` is its decomposition level, `o` its orientation on the axis
(1 for high-pass). -/
def bandSpan (tc : Span) (nb o : Nat) : Span :=
  (ceilInt (usub tc.1 (2 ^ (nb - 1) * o)) (2 ^ nb), ceilInt (usub tc.2 (2 ^ (nb - 1) * o)) (2 ^ nb))

/-- coding_units.cpp:2405-2412: the part of a subband that belongs to a precinct; `sr` is 1 for LL and 2 otherwise. -/
def pbandSpan (p : Span) (sr o : Nat) : Span := (ceilInt (usub p.1 o) sr, ceilInt (usub p.2 o) sr)

/-- coding_units.cpp:1604-1615: number of code-blocks on the axis. -/
def numCblk (s : Span) (cb : Nat) : Nat := if s.1 < s.2 then usub (ceilInt s.2 cb) (s.1 / cb) else 0

/-- coding_units.cpp:1635-1638: code-block number `x`. -/
def cblkSpan (s : Span) (cb x : Nat) : Span :=
  (max s.1 (w32 (cb * w32 (x + s.1 / cb))), min s.2 (w32 (cb * w32 (x + 1 + s.1 / cb))))

end Verif.Tile
