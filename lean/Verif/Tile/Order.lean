import Verif.Tile.Geometry
/-
Model of the packet sequencing of a tile.
Source: /repo/source/core/coding/coding_units.cpp: decoder `j2k_tile::create_tile_buf` 4130-4582, encoder
`j2k_tile::construct_packets` 4647-4978 and `write_packets_direct_impl` 5050-5391, `find_gcd_of_precinct_size` 5474-5486,
`access_precinct` 2696-2702; coding_units.cpp:2494 (`is_empty`).
The three functions have the same loops, up to braces and what is done with a packet (checked by comparing the text); one
model serves all of them.  Nested loops are written as the list of their iterations, in order.  Left out: the DFS
extension and the reading or writing of the packet itself.
-/
namespace Verif.Tile

/-- How a traversal can end other than normally: undefined behaviour, an exception, or not at all. -/
inductive Bad
  | undefined
  | throws
  | diverges
  deriving DecidableEq, Repr

/-- One tile-component: decomposition levels, subsampling factors, precinct exponents of each resolution. -/
structure Comp where
  NL : Nat
  subx : Nat
  suby : Nat
  ppx : Nat → Nat
  ppy : Nat → Nat

/-- A tile: its spans on both axes, number of layers and components. -/
structure TileP where
  x : Span
  y : Span
  layers : Nat
  ncomp : Nat
  comp : Nat → Comp

/-- coding_units.cpp:3740-3750: the resolution; the undefined shift is treated in `traverse`. -/
def TileP.resx (T : TileP) (c r : Nat) : Span := (resSpan (tcSpan T.x (T.comp c).subx) (T.comp c).NL r).getD (0, 0)
def TileP.resy (T : TileP) (c r : Nat) : Span := (resSpan (tcSpan T.y (T.comp c).suby) (T.comp c).NL r).getD (0, 0)

/-- coding_units.cpp:3754-3755: precincts per row and column. -/
def TileP.npw (T : TileP) (c r : Nat) : Nat := numPrec (T.resx c r) ((T.comp c).ppx r)
def TileP.nph (T : TileP) (c r : Nat) : Nat := numPrec (T.resy c r) ((T.comp c).ppy r)

/-- `npw * nph`, in `uint32_t`. -/
def TileP.np (T : TileP) (c r : Nat) : Nat := w32 (T.npw c r * T.nph c r)

/-- A packet. -/
structure Pkt where
  l : Nat
  r : Nat
  c : Nat
  p : Nat
  deriving DecidableEq, Repr

/-- One entry of `porder_info`: a progression order change, or the default order. -/
structure Seg where
  RS : Nat
  CS : Nat
  LYE : Nat
  RE : Nat
  CE : Nat
  PO : Nat
  deriving DecidableEq, Repr

/-- The loop `for (v = a; v < b; v++)`. -/
def rng (a b : Nat) : List Nat := List.range' a (b - a)

/-- Largest number of decomposition levels, coding_units.cpp:4149. -/
def TileP.maxNL (T : TileP) : Nat := (List.range T.ncomp).foldl (fun m c => max (T.comp c).NL m) 0

/-- coding_units.cpp:4151-4157: the size of the packet array. -/
def TileP.numPackets (T : TileP) : Nat :=
  w32 (w32 ((List.range T.ncomp).map fun c => ((List.range ((T.comp c).NL + 1)).map (T.np c)).sum).sum * T.layers)

/-- coding_units.cpp:5474-5486, one axis. -/
def minPP (T : TileP) (pp : Comp → Nat → Nat) : Nat :=
  (List.range T.ncomp).foldl (fun m c => (List.range ((T.comp c).NL + 1)).foldl (fun m r => min m (pp (T.comp c) r)) m) 16

/-- coding_units.cpp:4283-4288: the multiples of `2 ^ k` from `x` to `p1` that are above `p0`.  When the 32-bit counter
wraps before it reaches `p1` the loop starts again from 0 and never ends. -/
def multiples (p0 p1 k x : Nat) : Except Bad (List Nat) :=
  if x < p1 then
    if x + 2 ^ k < 2 ^ 32 then do
      let t ← multiples p0 p1 k (x + 2 ^ k)
      pure (if p0 < x then x :: t else t)
    else .error .diverges
  else pure []
termination_by 2 ^ 32 - x
decreasing_by have := Nat.two_pow_pos k; omega

/-- coding_units.cpp:4282-4294: `x_examin` or `y_examin`. -/
def examin (s : Span) (k : Nat) : Except Bad (List Nat) := do
  let t ← multiples s.1 s.2 k 0
  pure (s.1 :: t)

/-- What the loops carry: `p_x`, `p_y`, `is_packet_read`, and the packets so far. -/
structure St where
  px : Nat × Nat → Nat
  py : Nat × Nat → Nat
  read : Pkt → Bool
  out : List Pkt

/-- coding_units.cpp:4229-4245: a packet is processed unless it has been; the packet array has `N` places. -/
def emit (N : Nat) (st : St) (q : Pkt) : Except Bad St :=
  if st.read q then .ok st
  else if st.out.length < N then
    .ok { st with read := Function.update st.read q true, out := st.out ++ [q] }
  else .error .undefined

/-- coding_units.cpp:4316-4320: one of the two position conditions. -/
def cond (x t0 tr0 csub pp d : Nat) : Except Bad Bool :=
  if pp + d < 32 then
    if w32 (csub * 2 ^ (pp + d)) = 0 then .error .undefined
    else .ok (x % w32 (csub * 2 ^ (pp + d)) == 0 || (x == t0 && !(w32 (tr0 * 2 ^ d) % 2 ^ (pp + d) == 0)))
  else .error .undefined

/-- An iteration of the position loops. -/
structure Visit where
  r : Nat
  y : Nat
  x : Nat
  c : Nat
  deriving DecidableEq, Repr

/-- coding_units.cpp:4346-4350: on to the next precinct of the resolution. -/
def bump (T : TileP) (st : St) (c r : Nat) : St :=
  if st.px (c, r) + 1 = T.npw c r then
    { st with px := Function.update st.px (c, r) 0, py := Function.update st.py (c, r) (w32 (st.py (c, r) + 1)) }
  else { st with px := Function.update st.px (c, r) (w32 (st.px (c, r) + 1)) }

/-- coding_units.cpp:4322-4345: at a hit, all layers of the precinct the counters point at. -/
def take (T : TileP) (N LYE : Nat) (st : St) (c r : Nat) : Except Bad St :=
  let p := w32 (st.px (c, r) + w32 (st.py (c, r) * T.npw c r))
  if p < T.np c r then do
    let st ← ((List.range LYE).map fun l => Pkt.mk l r c p).foldlM (emit N) st
    pure (bump T st c r)
  else .error .undefined

/-- coding_units.cpp:4303-4351: the body of the position loops. -/
def step (T : TileP) (N LYE : Nat) (st : St) (v : Visit) : Except Bad St :=
  if T.np v.c v.r = 0 then .ok st
  else do
    let xc ← cond v.x T.x.1 (T.resx v.c v.r).1 (T.comp v.c).subx ((T.comp v.c).ppx v.r) ((T.comp v.c).NL - v.r)
    let yc ← cond v.y T.y.1 (T.resy v.c v.r).1 (T.comp v.c).suby ((T.comp v.c).ppy v.r) ((T.comp v.c).NL - v.r)
    if xc && yc then take T N LYE st v.c v.r else .ok st

/-- coding_units.cpp:4219-4250 (order 0, LRCP). -/
def loopLRCP (T : TileP) (S : Seg) : List Pkt :=
  (List.range S.LYE).flatMap fun l => (rng S.RS S.RE).flatMap fun r => (rng S.CS S.CE).flatMap fun c =>
    if r ≤ (T.comp c).NL then
      if T.np c r = 0 then [] else (List.range (T.np c r)).map fun p => ⟨l, r, c, p⟩
    else []

/-- coding_units.cpp:4251-4279 (order 1, RLCP). -/
def loopRLCP (T : TileP) (S : Seg) : List Pkt :=
  (rng S.RS S.RE).flatMap fun r => (List.range S.LYE).flatMap fun l => (rng S.CS S.CE).flatMap fun c =>
    if r ≤ (T.comp c).NL then
      if T.np c r = 0 then [] else (List.range (T.np c r)).map fun p => ⟨l, r, c, p⟩
    else []

/-- coding_units.cpp:4296-4302 (order 2, RPCL). -/
def loopRPCL (T : TileP) (S : Seg) (xs ys : List Nat) : List Visit :=
  (rng S.RS S.RE).flatMap fun r => ys.flatMap fun y => xs.flatMap fun x => (rng S.CS S.CE).flatMap fun c =>
    if r ≤ (T.comp c).NL then [⟨r, y, x, c⟩] else []

/-- coding_units.cpp:4371-4378 (order 3, PCRL); `local_RE` is the lesser of `NL + 1` and `RE`. -/
def loopPCRL (T : TileP) (S : Seg) (xs ys : List Nat) : List Visit :=
  ys.flatMap fun y => xs.flatMap fun x => (rng S.CS S.CE).flatMap fun c =>
    (rng S.RS (if (T.comp c).NL + 1 < S.RE then (T.comp c).NL + 1 else S.RE)).flatMap fun r => [⟨r, y, x, c⟩]

/-- coding_units.cpp:4440-4447 (order 4, CPRL). -/
def loopCPRL (T : TileP) (S : Seg) (xs ys : List Nat) : List Visit :=
  (rng S.CS S.CE).flatMap fun c => ys.flatMap fun y => xs.flatMap fun x =>
    (rng S.RS (if (T.comp c).NL + 1 < S.RE then (T.comp c).NL + 1 else S.RE)).flatMap fun r => [⟨r, y, x, c⟩]

/-- coding_units.cpp:4511-4516 (order 5, PRCL). -/
def loopPRCL (T : TileP) (S : Seg) (xs ys : List Nat) : List Visit :=
  ys.flatMap fun y => xs.flatMap fun x => (rng S.RS S.RE).flatMap fun r => (rng S.CS S.CE).flatMap fun c =>
    if r ≤ (T.comp c).NL then [⟨r, y, x, c⟩] else []

/-- The position loops of an order. -/
def loopPos (T : TileP) (S : Seg) (xs ys : List Nat) : List Visit :=
  if S.PO = 2 then loopRPCL T S xs ys
  else if S.PO = 3 then loopPCRL T S xs ys
  else if S.PO = 4 then loopCPRL T S xs ys
  else loopPRCL T S xs ys

/-- coding_units.cpp:4201-4581: one entry of `porder_info`; the counters start from 0. -/
def runSeg (T : TileP) (N : Nat) (st : St) (S : Seg) : Except Bad St :=
  let S : Seg := { S with LYE := min S.LYE T.layers, CE := min S.CE T.ncomp }
  let st : St := { st with px := fun _ => 0, py := fun _ => 0 }
  if S.PO = 0 then (loopLRCP T S).foldlM (emit N) st
  else if S.PO = 1 then (loopRLCP T S).foldlM (emit N) st
  else if S.PO ≤ 5 then do
    let xs ← examin T.x (minPP T Comp.ppx)
    let ys ← examin T.y (minPP T Comp.ppy)
    (loopPos T S xs ys).foldlM (step T N S.LYE) st
  else .error .throws

/-- Nothing visited yet. -/
def St.init : St := ⟨fun _ => 0, fun _ => 0, fun _ => false, []⟩

/-- Every resolution of every component can be computed (no shift past the word). -/
def TileP.shiftsOk (T : TileP) : Bool :=
  (List.range T.ncomp).all fun c => (List.range ((T.comp c).NL + 1)).all fun r =>
    (resSpan (tcSpan T.x (T.comp c).subx) (T.comp c).NL r).isSome

/-- coding_units.cpp:4130-4581: the packets in the order they are read; `poc` are the progression order changes and `po`
the order of the COD segment. -/
def traverse (T : TileP) (poc : List Seg) (po : Nat) : Except Bad (List Pkt) :=
  if T.shiftsOk then do
    let st ← (poc ++ [Seg.mk 0 0 T.layers ((T.maxNL + 1) % 256) T.ncomp po]).foldlM (runSeg T T.numPackets) St.init
    pure st.out
  else .error .undefined

/-- coding_units.hpp `cached_crp_`, coding_units.cpp:4171-4183, 4230: the order kept for the next frame; the component is
kept in 8 bits, the precinct in 16. -/
def cacheEntry (q : Pkt) : Pkt := ⟨q.l, q.r, q.c % 256, q.p % 65536⟩

end Verif.Tile
