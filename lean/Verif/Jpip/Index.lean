import Verif.Tactics
/-
Model of the precinct index: geometry of every tile-component and precinct identifiers.
Source: /repo/source/core/jpip/precinct_index.cpp, precinct_index.hpp; the identifier inverse is in
/repo/source/core/jpip/codestream_assembler.cpp.

All quantities of the code are `uint32_t`; the model keeps them as naturals and writes the reduction modulo 2^32
wherever the code adds or multiplies.  `none` stands for undefined behaviour (division by zero, shift by 32 or
more) and for a thrown exception.
-/
namespace Verif.Jpip

/-- `uint32_t` addition. -/
def add32 (a b : Nat) : Nat := (a + b) % 2 ^ 32
/-- `uint32_t` multiplication. -/
def mul32 (a b : Nat) : Nat := (a * b) % 2 ^ 32
/-- `uint32_t` subtraction of values below 2^32. -/
def sub32 (a b : Nat) : Nat := (a + (2 ^ 32 - b)) % 2 ^ 32

/-- utils.hpp:38 `ceil_int` on `uint32_t` operands (also view_window.cpp:15 `ceil_div_u`). -/
def ceilDiv32 (a b : Nat) : Option Nat := if b = 0 then none else some (add32 a (b - 1) / b)

/-- `1u << n`. -/
def shl1 (n : Nat) : Option Nat := if n < 32 then some (2 ^ n) else none

/-- What the index reads of one component: subsampling (SIZ), decomposition levels and precinct exponents per
resolution (COC if present, else COD).  The exponents are nibbles or the default 15
(j2kmarkers.cpp:473-489, 553-568). -/
structure CompHdr where
  subX : Nat
  subY : Nat
  NL : Nat
  ppx : Nat → Nat
  ppy : Nat → Nat

/-- What the index reads of a main header (precinct_index.cpp:119-149). -/
structure MainHdr where
  xsiz : Nat
  ysiz : Nat
  xosiz : Nat
  yosiz : Nat
  xtsiz : Nat
  ytsiz : Nat
  xtosiz : Nat
  ytosiz : Nat
  comps : List CompHdr
  layers : Nat := 1
  prog : Nat := 0
  useSOP : Bool := false
  useEPH : Bool := false
  irreversible : Bool := false

/-- precinct_index.hpp:52-75 `TileComponentInfo`, one entry of each of its vectors. -/
structure Level where
  npw : Nat
  nph : Nat
  sOff : Nat
  lppx : Nat
  lppy : Nat
  rx0 : Nat
  ry0 : Nat
  deriving DecidableEq, Repr

/-- precinct_index.hpp:52-75 `TileComponentInfo`; `levels` has `NL + 1` entries. -/
structure TcInfo where
  NL : Nat
  levels : List Level
  total : Nat
  deriving DecidableEq, Repr

/-- precinct_index.cpp:63-84, one coordinate of one resolution: number of precincts and `respos0`. -/
def levelGeo (NL : Nat) (c0 c1 : Nat) (lpp r : Nat) : Option (Nat × Nat) := do
  let scale ← shl1 (NL - r)
  let r0 ← ceilDiv32 c0 scale
  let r1 ← ceilDiv32 c1 scale
  let pp ← shl1 lpp
  let hi ← ceilDiv32 r1 pp
  return (if r0 < r1 then sub32 hi (r0 / pp) else 0, r0)

/-- precinct_index.cpp:61-95, the loop over resolutions `r, r+1, …, NL` (`n` of them) with `cumulative = cum`:
the entries and the final `cumulative`. -/
def buildLevels (cp : CompHdr) (x0 y0 x1 y1 : Nat) : Nat → Nat → Nat → Option (List Level × Nat)
  | 0, _, cum => some ([], cum)
  | n + 1, r, cum => do
    let gx ← levelGeo cp.NL x0 x1 (cp.ppx r) r
    let gy ← levelGeo cp.NL y0 y1 (cp.ppy r) r
    let rest ← buildLevels cp x0 y0 x1 y1 n (r + 1) (add32 cum (mul32 gx.1 gy.1))
    return (⟨gx.1, gy.1, cum, cp.ppx r, cp.ppy r, gx.2, gy.2⟩ :: rest.1, rest.2)

/-- precinct_index.cpp:30-96 `build_tile_component` for the tile `[tx0, tx1) × [ty0, ty1)`. -/
def buildTc (cp : CompHdr) (tx0 ty0 tx1 ty1 : Nat) : Option TcInfo := do
  let x0 ← ceilDiv32 tx0 cp.subX
  let y0 ← ceilDiv32 ty0 cp.subY
  let x1 ← ceilDiv32 tx1 cp.subX
  let y1 ← ceilDiv32 ty1 cp.subY
  let l ← buildLevels cp x0 y0 x1 y1 (cp.NL + 1) 0 0
  return ⟨cp.NL, l.1, l.2⟩

/-- precinct_index.hpp:81-147 `CodestreamIndex`.  `tcinfo_` is kept per (tile, component). -/
structure Index where
  hdr : MainHdr
  ntx : Nat
  nty : Nat
  tcs : List (List TcInfo)

/-- `num_tiles()`. -/
def Index.nT (i : Index) : Nat := mul32 i.ntx i.nty
/-- `num_components()`. -/
def Index.nC (i : Index) : Nat := i.hdr.comps.length

/-- precinct_index.cpp:164-167: the span of tile `k` in one direction. -/
def tileSpan (org ts o siz k : Nat) : Nat × Nat :=
  (max (add32 org (mul32 k ts)) o, min (add32 org (mul32 (add32 k 1) ts)) siz)

/-- precinct_index.cpp:98-176 `CodestreamIndex::build`, after the marker parser. -/
def buildIndex (h : MainHdr) : Option Index := do
  let ntx ← ceilDiv32 (sub32 h.xsiz h.xtosiz) h.xtsiz
  let nty ← ceilDiv32 (sub32 h.ysiz h.ytosiz) h.ytsiz
  let tcs ← (List.range (ntx * nty)).mapM fun t =>
    let sx := tileSpan h.xtosiz h.xtsiz h.xosiz h.xsiz (t % ntx)
    let sy := tileSpan h.ytosiz h.ytsiz h.yosiz h.ysiz (t / ntx)
    h.comps.mapM fun cp => buildTc cp sx.1 sy.1 sx.2 sy.2
  return ⟨h, ntx, nty, tcs⟩

/-- precinct_index.cpp:178-183 `tile_component` (throws when out of range). -/
def Index.tc (i : Index) (t c : Nat) : Option TcInfo :=
  if i.nT ≤ t ∨ i.nC ≤ c then none else (i.tcs[t]?).bind (·[c]?)

/-- precinct_index.hpp:41-46 `PrecinctKey`. -/
structure Key where
  t : Nat
  c : Nat
  r : Nat
  p : Nat
  deriving DecidableEq, Repr

/-- precinct_index.cpp:185-191 `CodestreamIndex::s`. -/
def Index.s (i : Index) (k : Key) : Option Nat := do
  let info ← i.tc k.t k.c
  if info.NL < k.r then none
  else
    let l ← info.levels[k.r]?
    if mul32 l.npw l.nph ≤ k.p then none else some (add32 l.sOff k.p)

/-- precinct_index.cpp:193-197 `CodestreamIndex::I` (64-bit arithmetic). -/
def Index.I (i : Index) (k : Key) : Option Nat :=
  (i.s k).map fun s => (k.t + (k.c + s * i.nC) * i.nT) % 2 ^ 64

/-- codestream_assembler.cpp:186-193, the search over resolutions `r, r+1, …` for sequence number `s`. -/
def findLevel (s : Nat) : Nat → List Level → Option (Nat × Nat)
  | _, [] => none
  | r, l :: ls =>
    if l.sOff ≤ s ∧ s < add32 l.sOff (mul32 l.npw l.nph) then some (r, s - l.sOff) else findLevel s (r + 1) ls

/-- codestream_assembler.cpp:177-195 `decompose_precinct_I`.  `none` for the return value `false` and for an
exception of `tile_component`. -/
def Index.decompose (i : Index) (id : Nat) : Option Key :=
  if i.nT = 0 ∨ i.nC = 0 then none
  else do
    let t := id % i.nT % 2 ^ 16
    let c := id / i.nT % i.nC % 2 ^ 16
    let s := id / i.nT / i.nC % 2 ^ 32
    let info ← i.tc t c
    let rp ← findLevel s 0 (info.levels.take (info.NL + 1))
    return ⟨t, c, rp.1, rp.2⟩

/-- precinct_index.cpp:218-224 `max_NL`. -/
def Index.maxNL (i : Index) : Nat := ((i.tcs.map fun l => (l.map TcInfo.NL).foldl max 0).foldl max 0)

end Verif.Jpip
