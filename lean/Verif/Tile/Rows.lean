import Mathlib.Data.List.Basic
/-
The rows that the decoder hands out one by one, and what the decoder program puts into the file of a component.
Source: /repo/source/core/coding/coding_units.cpp:6056-6618 (`j2k_tile::decode_line_based_stream`), 3106-3190 (`pull_line_ref`,
`pull_strip_into_buf`, `pull_strip_advance`); /repo/source/core/interface/decoder.cpp:501-699 (`invoke_line_based_stream`);
/repo/source/apps/decoder/main_dec.cpp:795-822 (files of components).

Simplified: the rows of a tile-component that come out of the wavelet transform are given as a list (C31, C67 are about them); what
happens to one row on its way (conversion, colour transform, clamping) is a parameter; sums of row numbers are not cut to 32 bits.
`none` is undefined behaviour.
-/
namespace Verif.Tile.Rows

/-- A tile-component as `decode_line_based_stream` sees it.  `yr` is YRsiz, `rows` the rows that `pull_line_ref` returns before it
returns a null pointer (as many as `csize_y`), `fin` what is done to a row, `zeros` a row of zeros as put into the strip buffer,
`blank` the row in `out_rows` before anything was stored (6109). -/
structure Comp (ρ σ : Type) where
  yr : Nat
  rows : List ρ
  fin : ρ → σ
  zeros : ρ
  blank : σ

/-- Arguments of one call.  `mct`: COD asks for the colour transform and it is not to be skipped; `mix` is `fused_mct_finalize`;
`cbh` is the height of code-blocks of component 0; `rowLo`, `rowLimit` the range of rows asked for. -/
structure Job (ρ σ : Type) where
  nc : Nat
  comp : Nat → Comp ρ σ
  cbh : Nat
  mct : Bool
  mix : ρ → ρ → ρ → σ × σ × σ
  rowLo : Nat
  rowLimit : Nat

variable {ρ σ : Type}

namespace Comp
variable (C : Comp ρ σ)

/-- `csize_y` (6102). -/
def height : Nat := C.rows.length

/-- coding_units.cpp:3155-3178 `pull_strip_into_buf` when `cur` rows were pulled before: the rows in the strip buffer. -/
def pulled (cur n : Nat) : List ρ :=
  let l := (C.rows.drop cur).take n
  l ++ List.replicate (n - l.length) C.zeros

/-- coding_units.cpp:3106-3137, 3180-3190: the cursor after `n` pulls. -/
def advance (cur n : Nat) : Nat := min (cur + n) (max cur C.height)

end Comp

namespace Job
variable (J : Job ρ σ)

/-- coding_units.cpp:6115. -/
def doMct : Bool := decide (3 ≤ J.nc) && J.mct

/-- A component that goes through the colour transform. -/
def main (c : Nat) : Bool := J.doMct && decide (c < 3)

/-- coding_units.cpp:6176-6179. -/
def maxYr : Nat := ((List.range J.nc).map fun c => (J.comp c).yr).foldl max 1

/-- coding_units.cpp:6185-6188: rows of component 0 in a strip. -/
def stripHeight : Nat :=
  let h := if J.cbh < 64 then 64 else J.cbh
  (h + J.maxYr - 1) / J.maxYr * J.maxYr

/-- coding_units.cpp:6157. -/
def effectiveH : Nat := min (J.comp 0).height J.rowLimit

/-- coding_units.cpp:6258-6268, 6275, 6310: the entry of `counts` for component `c`; the array has 16 entries. -/
def count (y0 y1 c : Nat) : Option Nat :=
  if 16 ≤ c then none
  else if J.main c then some (y1 - y0)
  else if (J.comp c).yr = 0 then none
  else some (min ((y1 + (J.comp c).yr - 1) / (J.comp c).yr) (J.comp c).height - y0 / (J.comp c).yr)

/-- coding_units.cpp:6272-6312: the strip buffers of all components. -/
def buffers (cur : Nat → Nat) (y0 y1 : Nat) : Option (List (List ρ)) :=
  (List.range J.nc).mapM fun c => (J.count y0 y1 c).map ((J.comp c).pulled (cur c))

/-- The cursors after a strip. -/
def advanced (cur : Nat → Nat) (y0 y1 c : Nat) : Nat := (J.comp c).advance (cur c) ((J.count y0 y1 c).getD 0)

/-- coding_units.cpp:6331-6337, 6449-6455: the row of component `c` in `out_rows` after row `y`; `old` was there before. -/
def put (bufs : List (List ρ)) (y0 y c : Nat) (old : σ) : Option σ :=
  let C := J.comp c
  if C.yr = 0 then none
  else if y % C.yr ≠ 0 then some old
  else if C.height ≤ y / C.yr then some old
  else ((bufs[c]?).bind (·[(y - y0) / C.yr]?)).map C.fin

/-- coding_units.cpp:6324-6329: the first three components through the colour transform. -/
def mixed (bufs : List (List ρ)) (y0 y : Nat) : Option (σ × σ × σ) := do
  let p0 ← (bufs[0]?).bind (·[y - y0]?)
  let p1 ← (bufs[1]?).bind (·[y - y0]?)
  let p2 ← (bufs[2]?).bind (·[y - y0]?)
  pure (J.mix p0 p1 p2)

/-- One of three. -/
def pick3 (k : Nat) (p : σ × σ × σ) : σ := if k = 0 then p.1 else if k = 1 then p.2.1 else p.2.2

/-- coding_units.cpp:6321-6611: `out_rows` after row `y`. -/
def rowOut (bufs : List (List ρ)) (y0 y : Nat) (out : List σ) : Option (List σ) :=
  (List.range J.nc).mapM fun c =>
    if J.main c then (J.mixed bufs y0 y).map (pick3 c)
    else (out[c]?).bind (J.put bufs y0 y c)

/-- coding_units.cpp:6319-6614: `n` rows beginning with row `y`; what is handed to the callback is recorded. -/
def emit (bufs : List (List ρ)) (y0 : Nat) : Nat → Nat → List σ → Option (List σ × List (Nat × List σ))
  | 0, _, out => some (out, [])
  | n + 1, y, out =>
    (J.rowOut bufs y0 y out).bind fun out =>
      (emit bufs y0 n (y + 1) out).map fun r => (r.1, (y, out) :: r.2)

/-- coding_units.cpp:6254-6615: the strips from row `y0` on. -/
def strips : Nat → Nat → (Nat → Nat) → List σ → Option (List (Nat × List σ))
  | 0, _, _, _ => some []
  | fuel + 1, y0, cur, out =>
    if J.effectiveH ≤ y0 then some []
    else
      let y1 := min (y0 + J.stripHeight) J.effectiveH
      (J.buffers cur y0 y1).bind fun bufs =>
        let e := max y0 J.rowLo
        (J.emit bufs y0 (y1 - e) e out).bind fun r =>
          (strips fuel (y0 + J.stripHeight) (J.advanced cur y0 y1) r.1).map (r.2 ++ ·)

/-- coding_units.cpp:6237-6240: the first strip. -/
def startStrip : Nat :=
  if 0 < J.rowLo then min (J.rowLo / J.stripHeight * J.stripHeight) J.effectiveH else 0

/-- coding_units.cpp:6247-6250: the cursors before the first strip. -/
def startCur (c : Nat) : Nat :=
  if 0 < J.startStrip then
    (J.comp c).advance 0 (if J.main c then J.startStrip else J.startStrip / (J.comp c).yr)
  else 0

/-- coding_units.cpp:6056-6618: all calls of the callback, in order.  The fuel is not a bound of the code: a strip has at least one
row. -/
def run : Option (List (Nat × List σ)) :=
  J.strips (J.effectiveH + 1) J.startStrip J.startCur ((List.range J.nc).map fun c => (J.comp c).blank)

end Job

/-! ### All tiles -/

/-- decoder.cpp:594-618: one column of tiles; `gy` is `global_y`. -/
def oneColumn : List (Job ρ σ) → Nat → Option (List (Nat × List σ))
  | [], _ => some []
  | J :: l, gy =>
    J.run.bind fun cbs =>
      (oneColumn l (gy + (J.comp 0).height)).map (cbs.map (fun p => (gy + p.1, p.2)) ++ ·)

/-- decoder.cpp:667-669: `memcpy` of `d` into a row at column `off`; the model asks for it to fit into the row. -/
def patch {α : Type} (row : List α) (off : Nat) (d : List α) : Option (List α) :=
  if off + d.length ≤ row.length then some (row.take off ++ d ++ row.drop (off + d.length)) else none

/-- decoder.cpp:664-671: `scatter`, for the rows of a component of one tile with `band` rows in the band. -/
def scatterRow {α : Type} (off w y : Nat) (row : List α) (acc : List (List α)) : Option (List (List α)) :=
  if w = 0 ∨ acc.length ≤ y then some acc
  else if row.length < w then none
  else (acc[y]?).bind fun r => (patch r off (row.take w)).map (acc.set y)

/-- decoder.cpp:664-671 for all components. -/
def scatter {α : Type} (off w : Nat → Nat) (y : Nat) (rows : List (List α)) (acc : List (List (List α))) :
    Option (List (List (List α))) :=
  (List.range acc.length).mapM fun c =>
    (acc[c]?).bind fun a => (rows[c]?).bind fun r => scatterRow (off c) (w c) y r a

/-- decoder.cpp:683: all rows of one tile go into the accumulators. -/
def scatterAll {α : Type} (off w : Nat → Nat) : List (Nat × List (List α)) → List (List (List α)) → Option (List (List (List α)))
  | [], acc => some acc
  | (y, rows) :: l, acc => (scatter off w y rows acc).bind (scatterAll off w l)

/-- decoder.cpp:650-686: the tiles of one band; each with its columns. -/
def bandTiles {ρ α : Type} : List (Job ρ (List α) × (Nat → Nat) × (Nat → Nat)) → List (List (List α)) → Option (List (List (List α)))
  | [], acc => some acc
  | (J, off, w) :: l, acc => J.run.bind fun cbs => (scatterAll off w cbs acc).bind (bandTiles l)

/-- decoder.cpp:631-697: one band of tiles.  `bandH` is `band_h`, `width` the columns of the components of the picture. -/
def band {ρ α : Type} (nc : Nat) (bandH width : Nat → Nat) (z : α) (tiles : List (Job ρ (List α) × (Nat → Nat) × (Nat → Nat)))
    (gy : Nat) : Option (List (Nat × List (List α))) :=
  (bandTiles tiles ((List.range nc).map fun c => List.replicate (bandH c) (List.replicate (width c) z))).map fun acc =>
    (List.range (bandH 0)).map fun y =>
      (gy + y, (List.range nc).map fun c => ((acc[c]?).getD []).getD (min y (bandH c - 1)) [])

/-! ### The decoder program -/

/-- main_dec.cpp:808-809: the vertical subsampling factor as the program finds it from the heights. -/
def guessedYr (h0 hc : Nat) : Nat := if 0 < hc ∧ hc < h0 then (h0 + hc - 1) / hc else 1

/-- main_dec.cpp:806-821: the rows written to the file of component `c`. -/
def fileRows (h0 hc c : Nat) (cbs : List (Nat × List σ)) : List (Option σ) :=
  cbs.filterMap fun p =>
    if p.1 % guessedYr h0 hc ≠ 0 then none
    else if hc ≤ p.1 / guessedYr h0 hc then none
    else some p.2[c]?

end Verif.Tile.Rows
