import Verif.Jpip.View
/-
Specification of the image geometry, over natural numbers, after ISO/IEC 15444-1 Annex B.
-/
namespace Verif.Jpip

/-- `⌈a / b⌉`. -/
def cdiv (a b : Nat) : Nat := (a + b - 1) / b

/-- Span of tile column (row) `k`: tile grid origin `org`, tile size `ts`, image area `[o, siz)` (B-7 … B-10). -/
def spanSpec (org ts o siz k : Nat) : Nat × Nat := (max (org + k * ts) o, min (org + (k + 1) * ts) siz)

/-- Span of tile column `k` of an image. -/
def tileX (h : MainHdr) (k : Nat) : Nat × Nat := spanSpec h.xtosiz h.xtsiz h.xosiz h.xsiz k
/-- Span of tile row `k` of an image. -/
def tileY (h : MainHdr) (k : Nat) : Nat × Nat := spanSpec h.ytosiz h.ytsiz h.yosiz h.ysiz k

/-- Span of a resolution with `d` decomposition levels above it, of a tile-component with subsampling `sub` and
tile span `s` (B-12, B-14). -/
def resSpan (s : Nat × Nat) (sub d : Nat) : Nat × Nat := (cdiv (cdiv s.1 sub) (2 ^ d), cdiv (cdiv s.2 sub) (2 ^ d))

/-- Number of precinct columns (rows) of a resolution with span `s` and precinct exponent `pp` (B-16). -/
def numPrec (s : Nat × Nat) (pp : Nat) : Nat := if s.1 < s.2 then cdiv s.2 (2 ^ pp) - s.1 / 2 ^ pp else 0

/-- Column (row) of the precinct that holds coordinate `u`. -/
def precOf (s : Nat × Nat) (pp u : Nat) : Nat := u / 2 ^ pp - s.1 / 2 ^ pp

/-- A main header with legal image and tile sizes whose coordinates are below 2^31, component parameters in the
range of their fields, and at most 31 decomposition levels. -/
structure Legal (h : MainHdr) : Prop where
  x1 : h.xtosiz ≤ h.xosiz
  x2 : h.xosiz < h.xsiz
  x3 : h.xosiz < h.xtosiz + h.xtsiz
  x4 : h.xsiz < 2 ^ 31
  x5 : h.xtsiz ≤ 2 ^ 31
  y1 : h.ytosiz ≤ h.yosiz
  y2 : h.yosiz < h.ysiz
  y3 : h.yosiz < h.ytosiz + h.ytsiz
  y4 : h.ysiz < 2 ^ 31
  y5 : h.ytsiz ≤ 2 ^ 31
  comps : ∀ cp ∈ h.comps, 0 < cp.subX ∧ cp.subX < 256 ∧ 0 < cp.subY ∧ cp.subY < 256 ∧ cp.NL ≤ 31 ∧
    ∀ r, cp.ppx r ≤ 15 ∧ cp.ppy r ≤ 15

/-- `u` is a coordinate of the span. -/
def inSpan (s : Nat × Nat) (u : Nat) : Prop := s.1 ≤ u ∧ u < s.2

/-- How far, on the grid of a resolution `d > 0` levels down, coefficients can lie from a sample that depends on them:
the limit of the series `w (1 + 1/2 + 1/4 + …)` for synthesis filters that reach `w` samples (`w = 2` for 5/3,
`w = 4` for 9/7).  For `d = 0` the code uses 0; see `C14_boundary_precinct_missing`. -/
def reach (irr : Bool) (d : Nat) : Nat := if d = 0 then 0 else if irr then 8 else 4

/-- Coordinate `u` of the resolution `d` levels down lies within reach of coordinate `x` of the component. -/
def Near (irr : Bool) (d x u : Nat) : Prop := x / 2 ^ d ≤ u + reach irr d ∧ u ≤ x / 2 ^ d + reach irr d

/-- The precinct of resolution `r` that holds `(u, v)`, precincts being numbered row by row. -/
def precKey (h : MainHdr) (ntx : Nat) (cp : CompHdr) (tx ty c r u v : Nat) : Key :=
  ⟨ty * ntx + tx, c, r, precOf (resSpan (tileY h ty) cp.subY (cp.NL - r)) (cp.ppy r) v *
    numPrec (resSpan (tileX h tx) cp.subX (cp.NL - r)) (cp.ppx r) +
    precOf (resSpan (tileX h tx) cp.subX (cp.NL - r)) (cp.ppx r) u⟩

end Verif.Jpip
