import Verif.Dwt.Filter

/-!
# Two-dimensional and multi-level reversible transform, and the reversible colour transform

Models the rev 5/3 path of `source/core/transform/{fdwt.cpp,idwt.cpp,color.cpp}` and of the level callbacks in
`source/core/coding/coding_units.cpp`.  Samples are mathematical integers: overflow of `int32_t` is not
modelled here.  An image is a list of rows.
-/

namespace Verif.Dwt

/-- The steps of fdwt.cpp:182-194: `X[n] -= (X[n-1] + X[n+1]) >> 1` and `X[n] += (X[n-1] + X[n+1] + 2) >> 2`.
The float kernels (lines 162-177) compute the same values with `floorf`. -/
def rev53 : Filter Int := .two (fun a b t => t - (a + b) / 2) (fun a b t => t + (a + b + 2) / 4)

/-- The steps of idwt.cpp:137-145. -/
def rev53Inv : Filter Int := .two (fun a b t => t + (a + b) / 2) (fun a b t => t - (a + b + 2) / 4)

/-- A lifting step on whole rows, column by column (`adv_fdwt_rev_hp_step_i32_fn` and the like). -/
def rowStep (f : Step Int) : Step (List Int) := fun p q t => (List.zip p q).zipWith (fun pq x => f pq.1 pq.2 x) t

/-- A filter applied to whole rows. -/
def Filter.onRows : Filter Int → Filter (List Int)
  | .two hp lp => .two (rowStep hp) (rowStep lp)
  | .four a b c d => .four (rowStep a) (rowStep b) (rowStep c) (rowStep d)

/-- fdwt.cpp:1046, 1191-1203: a lone sample or row at an odd coordinate is doubled. -/
def double (x : Int) : Int := x * 2

/-- idwt.cpp:1113, 1590: and halved again (`>> 1`). -/
def halve (x : Int) : Int := x / 2

/-- Every second sample, starting with the first. -/
def everyOther {α : Type} : List α → List α
  | [] => []
  | [a] => [a]
  | a :: _ :: l => a :: everyOther l

/-- fdwt.cpp:464-735 `fdwt_2d_deinterleave_fixed` along one axis, and the deinterleaving sink
coding_units.cpp:690-790: samples at even coordinates are low-pass, those at odd coordinates high-pass. -/
def split {α : Type} (i0 : Int) (x : List α) : List α × List α :=
  if i0 % 2 = 0 then (everyOther x, everyOther x.tail) else (everyOther x.tail, everyOther x)

/-- `a[0], b[0], a[1], b[1], …` -/
def weave {α : Type} : List α → List α → List α
  | [], b => b
  | x :: a, b => x :: weave b a
termination_by a b => a.length + b.length

/-- idwt.cpp:1004-1090 `interleave_row_planes` as called at 1200-1205. -/
def join {α : Type} (i0 : Int) (lp hp : List α) : List α :=
  if i0 % 2 = 0 then weave lp hp else weave hp lp

/-- The four subbands of one level. -/
structure Bands where
  ll : List (List Int)
  hl : List (List Int)
  lh : List (List Int)
  hh : List (List Int)

/-- One level of analysis: vertical, then horizontal on every row, then deinterleaving (fdwt.cpp:739-756
`fdwt_2d_sr_fixed`; the streaming version, fdwt.cpp:1033-1058, does the same row by row). -/
def analyse2d (u0 v0 : Int) (rows : List (List Int)) : Option Bands := do
  let v ← if rows = [] then some [] else analyseExt rev53.onRows (List.map double) v0 rows
  let h ← v.mapM (analyseExt rev53 double u0)
  let lp := (split v0 h).1
  let hp := (split v0 h).2
  pure ⟨lp.map (fun r => (split u0 r).1), lp.map (fun r => (split u0 r).2),
        hp.map (fun r => (split u0 r).1), hp.map (fun r => (split u0 r).2)⟩

/-- coding_units.cpp:270-335 (the `DWT_BIDIR` part of `idwt_level_src_fn`) with idwt.cpp:1092-1117: one
horizontally synthesised row from its low-pass and high-pass halves; two all-zero halves give a zero row without
filtering. -/
def fetchRow (u0 : Int) (lp hp : List Int) : Option (List Int) :=
  if 0 < lp.length + hp.length ∧ (∀ a ∈ lp, a = 0) ∧ ∀ a ∈ hp, a = 0 then
    some (List.replicate (lp.length + hp.length) 0)
  else if lp.length + hp.length = 0 then some []
  else synthesiseRow rev53Inv halve u0 (join u0 lp hp)

/-- One level of synthesis: rows are fetched in order, even coordinates from LL and HL, odd ones from LH and HH,
then the vertical transform (idwt.cpp:299-475; single rows as in idwt.cpp:1582-1596). -/
def synthesise2d (u0 v0 : Int) (b : Bands) : Option (List (List Int)) := do
  let lp ← (List.zip b.ll b.hl).mapM fun r => fetchRow u0 r.1 r.2
  let hp ← (List.zip b.lh b.hh).mapM fun r => fetchRow u0 r.1 r.2
  let h := join v0 lp hp
  if h = [] then some [] else synthesiseCols rev53Inv.onRows true (List.map halve) v0 h

/-- The detail bands of one level. -/
structure Detail where
  hl : List (List Int)
  lh : List (List Int)
  hh : List (List Int)

/-- coding_units.cpp:755-790: the LL rows of a level are pushed into the next coarser level, whose coordinates
are halved and rounded up (coding_units.cpp:3363-3371 with the resolution bounds).  The finest level comes first
in the list of detail bands. -/
def analyseLevels : Nat → Int → Int → List (List Int) → Option (List (List Int) × List Detail)
  | 0, _, _, rows => some (rows, [])
  | n + 1, u0, v0, rows =>
    (analyse2d u0 v0 rows).bind fun b =>
      (analyseLevels n (ceilHalf u0) (ceilHalf v0) b.ll).map fun r => (r.1, ⟨b.hl, b.lh, b.hh⟩ :: r.2)

/-- coding_units.cpp:175-340: a level takes its LL rows from the next coarser level. -/
def synthesiseLevels : Int → Int → List (List Int) → List Detail → Option (List (List Int))
  | _, _, ll, [] => some ll
  | u0, v0, ll, d :: ds =>
    (synthesiseLevels (ceilHalf u0) (ceilHalf v0) ll ds).bind fun l => synthesise2d u0 v0 ⟨l, d.hl, d.lh, d.hh⟩

/-- color.cpp:34-54 `cvt_rgb_to_ycbcr_rev` for one pixel. -/
def rct (p : Int × Int × Int) : Int × Int × Int :=
  ((p.1 + 2 * p.2.1 + p.2.2) / 4, p.2.2 - p.2.1, p.1 - p.2.1)

/-- color.cpp:78-98 `cvt_ycbcr_to_rgb_rev` for one pixel. -/
def rctInv (p : Int × Int × Int) : Int × Int × Int :=
  let g := p.1 - (p.2.1 + p.2.2) / 4
  (p.2.2 + g, g, p.2.1 + g)

end Verif.Dwt
