import Verif.Jpip.Index
/-
Model of the view-window resolver.
Source: /repo/source/core/jpip/view_window.cpp, view_window.hpp.
`none` stands for undefined behaviour (division by zero, shift by 32 or more) and for a thrown exception.
-/
namespace Verif.Jpip

/-- view_window.hpp:31 `ViewWindow::Round`. -/
inductive Round | down | up | closest
  deriving DecidableEq, Repr

/-- view_window.hpp:19-33 `ViewWindow`. -/
structure ViewWindow where
  fx : Nat := 0
  fy : Nat := 0
  ox : Nat := 0
  oy : Nat := 0
  sx : Nat := 0
  sy : Nat := 0
  comps : List Nat := []
  round : Round := .down
  deriving DecidableEq, Repr

/-- view_window.cpp:21-26 `fsiz_at`. -/
def Index.fsizAt (i : Index) (r : Nat) : Option (Nat × Nat) := do
  let d ← shl1 r
  let x1 ← ceilDiv32 i.hdr.xsiz d
  let x0 ← ceilDiv32 i.hdr.xosiz d
  let y1 ← ceilDiv32 i.hdr.ysiz d
  let y0 ← ceilDiv32 i.hdr.yosiz d
  return (sub32 x1 x0, sub32 y1 y0)

/-- view_window.cpp:55-65, `Round::Down`: resolutions `r, r+1, …` (`n` of them), else `rmax`. -/
def downLoop (f : Nat → Option (Nat × Nat)) (rx ry rmax : Nat) : Nat → Nat → Option Nat
  | 0, _ => some rmax
  | n + 1, r => do
    let s ← f r
    if s.1 ≤ rx ∧ s.2 ≤ ry then some r else downLoop f rx ry rmax n (r + 1)

/-- view_window.cpp:66-75, `Round::Up`: resolutions `n - 1, n - 2, …, 0`, else 0. -/
def upLoop (f : Nat → Option (Nat × Nat)) (rx ry : Nat) : Nat → Option Nat
  | 0 => some 0
  | r + 1 => do
    let s ← f r
    if rx ≤ s.1 ∧ ry ≤ s.2 then some r else upLoop f rx ry r

/-- `|a - b|` as the code forms it (view_window.cpp:87). -/
def absDiff (a b : Nat) : Nat := if b < a then a - b else b - a

/-- view_window.cpp:78-94, `Round::Closest`: resolutions `r, r+1, …` (`n` of them). -/
def closestLoop (f : Nat → Option (Nat × Nat)) (target : Nat) : Nat → Nat → Nat → Nat → Option Nat
  | 0, _, _, best => some best
  | n + 1, r, bestDiff, best => do
    let s ← f r
    let diff := absDiff (s.1 * s.2) target
    if diff < bestDiff then closestLoop f target n (r + 1) diff r else closestLoop f target n (r + 1) bestDiff best

/-- view_window.cpp:46-97 `pick_discard_level`. -/
def pickDiscard (i : Index) (vw : ViewWindow) : Option Nat :=
  let rmax := i.maxNL
  let rx := if vw.fx ≠ 0 then vw.fx else i.hdr.xsiz
  let ry := if vw.fy ≠ 0 then vw.fy else i.hdr.ysiz
  match vw.round with
  | .down => downLoop i.fsizAt rx ry rmax (rmax + 1) 0
  | .up => upLoop i.fsizAt rx ry (rmax + 1)
  | .closest => closestLoop i.fsizAt (rx * ry) (rmax + 1) 0 (2 ^ 64 - 1) 0

/-- view_window.cpp:110-123: the requested interval of one direction, mapped to the canvas and clipped to it;
`org`, `siz` are the canvas origin and size. -/
def regionAxis (o s scale org siz : Nat) (whole : Bool) : Nat × Nat :=
  (min (add32 (mul32 o scale) org) siz,
   min (if whole then siz else add32 (mul32 (add32 o s) scale) org) siz)

/-- view_window.cpp:133-136: the tile columns (rows) met by `[a, b)`. -/
def tileAxis (a b org ts n : Nat) : Option (Nat × Nat) := do
  let hi ← ceilDiv32 (sub32 b org) ts
  return ((a - org) / ts, min n hi)

/-- view_window.cpp:32-36 `dwt_margin_subband`. -/
def dwtMargin (irreversible : Bool) (above : Nat) : Nat :=
  if above = 0 then 0 else 2 * (if irreversible then 4 else 2)

/-- view_window.cpp:171-199: the precinct columns (rows) of one resolution met by the component interval
`[a, b)`.  The code clamps signed differences to 0 and `n`; natural subtraction does the same. -/
def precAxis (a b above margin lpp r0 n : Nat) : Option (Nat × Nat) := do
  let scale ← shl1 above
  let hi ← ceilDiv32 b scale
  let pp ← shl1 lpp
  let sa := a / scale - margin
  let sb := add32 hi margin
  let top ← ceilDiv32 sb pp
  return (sa / pp - r0 / pp, min n (top - r0 / pp))

/-- Concatenation of the lists `f a` for `a` in `l`, undefined when one of them is. -/
def concatM {α β : Type} (l : List α) (f : α → Option (List β)) : Option (List β) :=
  (l.mapM f).map List.flatten

/-- `lo, lo + 1, …, hi - 1`. -/
def between (lo hi : Nat) : List Nat := List.range' lo (hi - lo)

/-- view_window.cpp:167-213: the precincts of one resolution of one tile-component. -/
def levelKeys (irr : Bool) (t c : Nat) (info : TcInfo) (ax bx ay b_y r : Nat) : Option (List Key) := do
  let l ← info.levels[r]?
  let above := info.NL - r
  let m := dwtMargin irr above
  let px ← precAxis ax bx above m l.lppx l.rx0 l.npw
  let py ← precAxis ay b_y above m l.lppy l.ry0 l.nph
  return (between py.1 py.2).flatMap fun y => (between px.1 px.2).map fun x => ⟨t, c, r, (y * l.npw + x) % 2 ^ 32⟩

/-- view_window.cpp:152-215: one component of one tile, clipped canvas region `[ax, bx) × [ay, b_y)`. -/
def compKeys (i : Index) (rstar t ax bx ay b_y c : Nat) : Option (List Key) :=
  match i.hdr.comps[c]? with
  | none => some []
  | some cp => do
    let cax ← ceilDiv32 ax cp.subX
    let cay ← ceilDiv32 ay cp.subY
    let cbx ← ceilDiv32 bx cp.subX
    let cby ← ceilDiv32 b_y cp.subY
    if cbx ≤ cax ∨ cby ≤ cay then some []
    else
      let info ← i.tc t c
      concatM (List.range ((info.NL - rstar) + 1)) fun r => levelKeys i.hdr.irreversible t c info cax cbx cay cby r

/-- view_window.cpp:138-216: one tile. -/
def tileKeys (i : Index) (rstar : Nat) (comps : List Nat) (rx ry : Nat × Nat) (trow tcol : Nat) :
    Option (List Key) :=
  let t := add32 (mul32 trow i.ntx) tcol % 2 ^ 16
  let h := i.hdr
  let sx := tileSpan h.xtosiz h.xtsiz h.xosiz h.xsiz tcol
  let sy := tileSpan h.ytosiz h.ytsiz h.yosiz h.ysiz trow
  let ax := max rx.1 sx.1
  let ay := max ry.1 sy.1
  let bx := min rx.2 sx.2
  let b_y := min ry.2 sy.2
  if bx ≤ ax ∨ b_y ≤ ay then some [] else concatM comps fun c => compKeys i rstar t ax bx ay b_y c

/-- view_window.cpp:99-219 `resolve_view_window`. -/
def resolveView (i : Index) (vw : ViewWindow) : Option (List Key) :=
  if i.nC = 0 ∨ i.nT = 0 then some []
  else do
    let rstar ← pickDiscard i vw
    let scale ← shl1 rstar
    let h := i.hdr
    let whole := decide (vw.sx = 0 ∧ vw.sy = 0)
    let rx := regionAxis vw.ox vw.sx scale h.xosiz h.xsiz whole
    let ry := regionAxis vw.oy vw.sy scale h.yosiz h.ysiz whole
    if rx.2 ≤ rx.1 ∨ ry.2 ≤ ry.1 then some []
    else
      let comps := if vw.comps = [] then List.range i.nC else vw.comps
      let tx ← tileAxis rx.1 rx.2 h.xtosiz h.xtsiz i.ntx
      let ty ← tileAxis ry.1 ry.2 h.ytosiz h.ytsiz i.nty
      concatM (between ty.1 ty.2) fun trow => concatM (between tx.1 tx.2) fun tcol =>
        tileKeys i rstar comps rx ry trow tcol

end Verif.Jpip
