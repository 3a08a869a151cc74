import Verif.Tile.Pipeline
/-
A picture of many tiles: where the encoder takes the samples of a tile from and where the decoder puts them.
Source: /repo/source/core/interface/encoder.cpp:591-698 (`invoke_internal`), /repo/source/core/coding/coding_units.cpp:3577-3607
(source address), 3799-3812 (DC offset), 6807-6860 (`enc_init`), 6887-6913 (`rgb_to_ycbcr`), 7048-7106 (`encode_line_based`);
/repo/source/core/interface/decoder.cpp:405-487 (`invoke_line_based`), coding_units.cpp:5817-6040 (`decode_line_based`),
/repo/source/core/codestream/j2kmarkers.cpp:191-197 (`get_component_stride`), /repo/source/core/transform/color.cpp:34-54, 220-238.

The reversible path at full resolution.  A tile itself is coded by `encodeTile` and decoded by `decodeTile`; what stands between
two tiles in the codestream (SOT, SOD) is left out: a codestream is the list of what is behind the SOD of each tile.  Simplified:
samples pass through `float` between the stages, which is exact up to 2^24, so they stay integers here; overflow of `int32_t` in
the sums of the colour transform is excluded by C28; the size of the intermediate sample buffers is not cut to 32 bits.
`none` is undefined behaviour (an access outside a buffer, a null pointer, an undefined shift) or an exception.
-/
namespace Verif.Tile.Pipe

/-- SIZ and COD for a picture.  `base` holds the coding parameters of all tiles; the spans `base.T.x`, `base.T.y` are not used.
`cycc` is the colour transform as asked for. -/
structure Picture where
  ax : Axis
  ay : Axis
  depth : Nat → Nat
  signed : Nat → Bool
  cycc : Bool
  base : Coding

namespace Picture
variable (P : Picture)

/-- Number of components. -/
def nc : Nat := P.base.T.ncomp
/-- Subsampling factors. -/
def sx (c : Nat) : Nat := (P.base.T.comp c).subx
@[inherit_doc sx]
def sy (c : Nat) : Nat := (P.base.T.comp c).suby

/-- encoder.cpp:617-630: the colour transform is turned off when there are fewer than three components, and when there are
exactly three which differ in both subsampling factors. -/
def mct : Bool :=
  P.cycc && decide (3 ≤ P.nc) &&
    !(decide (P.nc = 3) && (decide (P.sx 0 ≠ P.sx 1) || decide (P.sx 1 ≠ P.sx 2)) &&
      (decide (P.sy 0 ≠ P.sy 1) || decide (P.sy 1 ≠ P.sy 2)))

/-- encoder.cpp:686, 697: the number of tiles, a product in `uint32_t`. -/
def tiles : Nat := w32 (numTiles P.ax * numTiles P.ay)

/-- coding_units.cpp:6834-6843, 4017-4027: tile `t`. -/
def coding (t : Nat) : Coding :=
  { P.base with T := { P.base.T with x := tileSpan P.ax (tileX P.ax t), y := tileSpan P.ay (tileY P.ax t) } }

/-- coding_units.cpp:3801-3802, 5833-5835: DC offset, smallest and largest sample value; `none` when a shift or a difference is
not defined for `int32_t`. -/
def levels (c : Nat) : Option (Int × Int × Int) :=
  if 1 ≤ P.depth c ∧ P.depth c ≤ 30 then
    some (if P.signed c then (0, -2 ^ (P.depth c - 1), 2 ^ (P.depth c - 1) - 1) else (2 ^ (P.depth c - 1), 0, 2 ^ P.depth c - 1))
  else none

/-! ### Encoder -/

/-- j2kmarkers.cpp:191-197 `get_component_stride`. -/
def srcStride (c : Nat) : Nat := usub (P.ax.siz / P.sx c) P.ax.osiz

/-- coding_units.cpp:3593, 3599: the first sample of tile `t`, as an index into the buffer of component `c`; the product is an
`uint32_t`, the rest is pointer arithmetic. -/
def srcBase (t c : Nat) : Int :=
  (w32 (usub ((P.coding t).tcy c).1 P.ay.osiz * P.srcStride c) : Nat) + ((P.coding t).tcx c).1 - P.ax.osiz

/-- coding_units.cpp:3599-3604, 7088: the sample in row `y` and column `x` of tile `t`.  With the colour transform the pointer
is moved row by row, otherwise the offset of the row is an `uint32_t`. -/
def srcIndex (t c y x : Nat) : Int :=
  P.srcBase t c + ((if P.mct then y * P.srcStride c else w32 (y * P.srcStride c) : Nat) : Int) + x

end Picture

/-- An access to a buffer. -/
def readAt (b : List Int) (i : Int) : Option Int := if 0 ≤ i then b[i.toNat]? else none

/-- coding_units.cpp:7048-7106 with 3799-3812: the samples of component `c` of tile `t`, less the DC offset.  Without the colour
transform (line-based encoding) `samples` is not allocated, so a component without decomposition is read through a null pointer
(7057-7066). -/
def encSamples (P : Picture) (img : Nat → List Int) (t c : Nat) : Option (List (List Int)) := do
  let l ← P.levels c
  (List.range (size ((P.coding t).tcy c))).mapM fun y =>
    (List.range (size ((P.coding t).tcx c))).mapM fun x =>
      if (P.base.T.comp c).NL = 0 ∧ P.mct = false then none
      else (readAt (img c) (P.srcIndex t c y x)).map (· - l.1)

/-- The stride of the sample buffers of a tile-component (coding_units.cpp:3579-3580, 6896). -/
def pitch (w : Nat) : Nat := (w + 31) / 32 * 32

/-- One of three. -/
def pick (k : Nat) (p : Int × Int × Int) : Int := if k = 0 then p.1 else if k = 1 then p.2.1 else p.2.2

/-- coding_units.cpp:6887-6913, color.cpp:34-54: the colour transform of the first three components.  All three are addressed
with the width, the height and the stride of component 0.  `none` for what lies outside a buffer or was never written. -/
def colour (w h : Nat → Nat) (s : List (List (List Int))) : Option (List (List (List Int))) := do
  let get := fun (k i : Nat) =>
    if i % pitch (w k) < w k then ((s[k]?).bind (·[i / pitch (w k)]?)).bind (·[i % pitch (w k)]?) else none
  let ycc ← (List.range (h 0)).mapM fun y => (List.range (w 0)).mapM fun x => do
    let a ← get 0 (y * pitch (w 0) + x)
    let b ← get 1 (y * pitch (w 0) + x)
    let c ← get 2 (y * pitch (w 0) + x)
    pure (Dwt.rct (a, b, c))
  (List.range s.length).mapM fun k =>
    if k < 3 then (List.range (h k)).mapM fun y => (List.range (w k)).mapM fun x =>
      let i := y * pitch (w k) + x
      ((ycc[i / pitch (w 0)]?).bind (·[i % pitch (w 0)]?)).map (pick k)
    else s[k]?

/-- The planes of tile `t` that go into the wavelet transform. -/
def encPlanes (P : Picture) (img : Nat → List Int) (t : Nat) : Option (List (List (List Int))) := do
  let s ← (List.range P.nc).mapM (encSamples P img t)
  if P.mct then colour (fun c => size ((P.coding t).tcx c)) (fun c => size ((P.coding t).tcy c)) s else some s

/-- encoder.cpp:683-698: all tiles. -/
def encodePicture (P : Picture) (img : Nat → List Int) : Option (List (List Nat)) :=
  if 65535 < P.tiles then none
  else (List.range P.tiles).mapM fun t => do
    let s ← encPlanes P img t
    encodeTile (P.coding t) fun c => s.getD c []

/-! ### Decoder -/

namespace Picture
variable (P : Picture)

/-- decoder.cpp:442-447, coding_units.cpp:5840-5842: the component on the reference grid of its own samples. -/
def x0 (c : Nat) : Nat := ceilInt P.ax.osiz (P.sx c)
@[inherit_doc x0]
def y0 (c : Nat) : Nat := ceilInt P.ay.osiz (P.sy c)

/-- decoder.cpp:446-447: columns and rows of the output. -/
def outWidth (c : Nat) : Nat := ceilInt (usub (ceilInt P.ax.siz (P.sx c)) (P.x0 c)) 1
@[inherit_doc outWidth]
def outHeight (c : Nat) : Nat := ceilInt (usub (ceilInt P.ay.siz (P.sy c)) (P.y0 c)) 1

/-- decoder.cpp:448: the number of entries allocated, a product in `uint32_t`. -/
def outSize (c : Nat) : Nat := w32 (P.outWidth c * P.outHeight c)

/-- coding_units.cpp:5851-5853, 5922, 5961: where sample `n` of row `y` of tile `t` goes. -/
def dstIndex (t c y n : Nat) : Nat :=
  usub ((P.coding t).tcx c).1 (P.x0 c) + w32 (w32 (y + usub ((P.coding t).tcy c).1 (P.y0 c)) * P.outWidth c) + n

/-- coding_units.cpp:6012-6017, color.cpp:228-233: DC offset and clamping. -/
def clampTo (l : Int × Int × Int) (v : Int) : Int :=
  let v := v + l.1
  let v := if v > l.2.2 then l.2.2 else v
  if v < l.2.1 then l.2.1 else v

end Picture

/-- A store: component, index, value. -/
abbrev Store := Nat × Nat × Int

/-- coding_units.cpp:5952-5956, 6008-6018: row `y` of a component that is not transformed; rows the component does not have are
skipped. -/
def rowStores (P : Picture) (t : Nat) (s : List (List (List Int))) (y c : Nat) : Option (List Store) :=
  if size ((P.coding t).tcy c) ≤ y then some []
  else do
    let l ← P.levels c
    let row ← (s[c]?).bind (·[y]?)
    (List.range (size ((P.coding t).tcx c))).mapM fun n => do
      let v ← row[n]?
      pure (c, P.dstIndex t c y n, Picture.clampTo l v)

/-- coding_units.cpp:5900-5926, color.cpp:220-238: row `y` of the first three components, in the width of component 0. -/
def colourStores (P : Picture) (t : Nat) (s : List (List (List Int))) (y : Nat) : Option (List Store) := do
  let l0 ← P.levels 0
  let l1 ← P.levels 1
  let l2 ← P.levels 2
  let r0 ← (s[0]?).bind (·[y]?)
  let r1 ← (s[1]?).bind (·[y]?)
  let r2 ← (s[2]?).bind (·[y]?)
  let ws ← (List.range (size ((P.coding t).tcx 0))).mapM fun n => do
    let a ← r0[n]?
    let b ← r1[n]?
    let c ← r2[n]?
    let p := Dwt.rctInv (a, b, c)
    pure [(0, P.dstIndex t 0 y n, Picture.clampTo l0 p.1), (1, P.dstIndex t 1 y n, Picture.clampTo l1 p.2.1),
      (2, P.dstIndex t 2 y n, Picture.clampTo l2 p.2.2)]
  pure ws.flatten

/-- coding_units.cpp:5893-6033: row `y` of all components. -/
def lineStores (P : Picture) (t : Nat) (s : List (List (List Int))) (y : Nat) : Option (List Store) :=
  if P.mct then do
    let first ← colourStores P t s y
    let rest ← (List.range' 3 (P.nc - 3)).mapM (rowStores P t s y)
    pure (first ++ rest.flatten)
  else do
    let all ← (List.range P.nc).mapM (rowStores P t s y)
    pure all.flatten

/-- coding_units.cpp:5893: the loop over rows goes up to the height of component 0. -/
def tileStores (P : Picture) (t : Nat) (s : List (List (List Int))) : Option (List Store) := do
  let ws ← (List.range (size ((P.coding t).tcy 0))).mapM (lineStores P t s)
  pure ws.flatten

/-- The output buffers, by component and index. -/
abbrev Output := Nat → Nat → Int

/-- All stores in order; `none` when one is outside its buffer. -/
def runStores (bufSize : Nat → Nat) : List Store → Output → Option Output
  | [], o => some o
  | w :: ws, o =>
    if w.2.1 < bufSize w.1 then runStores bufSize ws fun c i => if c = w.1 ∧ i = w.2.1 then w.2.2 else o c i else none

/-- decoder.cpp:405-487: all tiles.  `o` is what the buffers hold when they are allocated. -/
def decodePicture (P : Picture) (E : Nat → Env) (fuel : Nat) (bodies : List (List Nat)) (o : Output) : Option Output :=
  if 65535 < P.tiles then none
  else do
    let ws ← (List.range P.tiles).mapM fun t => do
      let b ← bodies[t]?
      let s ← decodeTile (P.coding t) (E t) fuel b
      tileStores P t s
    runStores P.outSize ws.flatten o

end Verif.Tile.Pipe
