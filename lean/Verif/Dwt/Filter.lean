import Verif.Tactics

/-!
# Lifting filters, symmetric extension and one-dimensional transforms

Models `source/core/transform/{dwt.hpp,fdwt.cpp,idwt.cpp}`.

* Samples have an arbitrary type `α` and every lifting step is an arbitrary function
  `prev → next → target → new target`, so one model serves the float 9/7, the int32 5/3, the "ATK" 5/3 without
  rounding, and vertical filtering, where a "sample" is a whole row.
* A buffer is a partial function: `none` marks a place that was never written (before, after or between the
  data).  Reading such a place makes the whole function return `none`, so "returns `some`" means that no
  uninitialised or out-of-range sample is ever used.
* Only the scalar kernels are modelled (the code paths without `OPENHTJ2K_ENABLE_*`).
* Coordinates are mathematical integers: `int32_t` overflow of coordinates is not modelled.
-/

namespace Verif.Dwt

/-- A lifting step: previous sample, next sample, sample to change. -/
abbrev Step (α : Type) := α → α → α → α

/-- A buffer addressed by a (possibly negative) offset. -/
abbrev Buf (α : Type) := Int → Option α

/-- The samples of a list, at offsets `0, 1, …`. -/
def bufOf {α : Type} (x : List α) : Buf α := fun k => if 0 ≤ k then x[k.toNat]? else none

/-- `for (i = 0; i < n; ++i) body(i)` with a body that may fail. -/
def loopM {σ : Type} : Nat → (Nat → σ → Option σ) → σ → Option σ
  | 0, _, s => some s
  | n + 1, body, s => (loopM n body s).bind (body n)

/-- `X[dst] = X[src]`. -/
def copyTo {α : Type} (dst src : Int) (b : Buf α) : Option (Buf α) :=
  (b src).map fun v => Function.update b dst (some v)

/-- dwt.hpp:102-108 `PSEo`: index of the mirror image of position `i` in the signal `[i0, i1)`.  `none` is the
division by zero of a one-sample signal; C++ `%` truncates towards zero, hence `tmod`. -/
def pseo (i i0 i1 : Int) : Option Int :=
  let tmp0 := 2 * (i1 - i0 - 1)
  let tmp1 := if i - i0 < 0 then i0 - i else i - i0
  if tmp0 = 0 then none
  else
    let m := tmp1.tmod tmp0
    some (if m < tmp0 - m then m else tmp0 - m)

/-- dwt.hpp:221-228 `dwt_1d_extr_fixed` (and, with rows for samples, the extension loops of the vertical
filters, fdwt.cpp:298-319, 376-397, 434-444, idwt.cpp:316-335, 386-400, 445-455): copy the signal and put
`left` mirrored samples before and `right` after it.  Offsets are relative to the first sample. -/
def extend {α : Type} (left right : Nat) (i0 : Int) (x : List α) : Option (Buf α) :=
  let i1 := i0 + x.length
  ((loopM left (fun i b => (pseo (i0 - (i + 1)) i0 i1).bind fun s => copyTo (-(i + 1)) s b) (bufOf x))).bind
    fun b => loopM right
      (fun i b => (pseo (i1 - i0 + (i + 1) - 1 + i0) i0 i1).bind fun s => copyTo (x.length + (i + 1) - 1) s b) b

/-- dwt.hpp:170-172 (scalar `dwt_pse_fill_inplace_simd` / `_i32`): eight mirrored samples on each side. -/
def fillWide {α : Type} (w : Nat) (b : Buf α) : Option (Buf α) :=
  (loopM 8 (fun i b => copyTo (-(i + 1)) (i + 1) b) b).bind
    fun b => loopM 8 (fun i b => copyTo (w + i) (w - 2 - i) b) b

/-- fdwt.cpp:230-238, idwt.cpp:250-258, 838-850: extension in place, with the wide variant from nine samples
on.  (The code then restores the neighbouring memory; a row is modelled on its own here.) -/
def fillRow {α : Type} (left right : Nat) (i0 : Int) (x : List α) : Option (Buf α) :=
  if 9 ≤ x.length then fillWide x.length (bufOf x) else extend left right i0 x

/-- The body of a lifting loop: `X[n] = f(X[n-1], X[n+1], X[n])`. -/
def liftStep {α : Type} (f : Step α) (n : Int) (b : Buf α) : Option (Buf α) :=
  (b (n - 1)).bind fun p => (b (n + 1)).bind fun q => (b n).map fun t => Function.update b n (some (f p q t))

/-- A lifting loop: `cnt` targets `n, n+2, …`. -/
def liftLoop {α : Type} (f : Step α) : Nat → Int → Buf α → Option (Buf α)
  | 0, _, b => some b
  | c + 1, n, b => (liftStep f n b).bind (liftLoop f c (n + 2))

/-- A filter: two lifting steps (5/3: high-pass then low-pass when analysing), or four (9/7: steps A, B, C, D of
the analysis).  The steps of a synthesis filter are those that undo the analysis steps of the same name. -/
inductive Filter (α : Type) where
  | two (hp lp : Step α)
  | four (a b c d : Step α)

/-- `ceil_int(i, 2)` for a nonnegative argument. -/
def ceilHalf (i : Int) : Int := (i + 1) / 2

/-- fdwt.cpp:129-159 `fdwt_1d_filtr_irrev97_fixed`, 162-177 `fdwt_1d_filtr_rev53_fixed`, 182-194
`fdwt_1d_filtr_rev53_i32`, 198-208 `fdwt_1d_filtr_irrev53_fixed`, and the same loops over rows in
fdwt.cpp:320-350, 398-418, 445-461.  `X[left]` is the first sample of the signal. -/
def analyse {α : Type} (flt : Filter α) (left : Int) (i0 i1 : Int) (X : Buf α) : Option (Buf α) :=
  let start := ceilHalf i0
  let stop := ceilHalf i1
  let offset := left + i0 % 2
  match flt with
  | .two hp lp =>
    (liftLoop hp (stop - (start - 1)).toNat (-2 + offset + 1) X).bind
      fun X => liftLoop lp (stop - start).toNat (0 + offset) X
  | .four a b c d =>
    (liftLoop a (stop + 1 - (start - 2)).toNat (-4 + offset + 1) X).bind fun X =>
      (liftLoop b (stop + 1 - (start - 1)).toNat (-2 + offset) X).bind fun X =>
        (liftLoop c (stop - (start - 1)).toNat (-2 + offset + 1) X).bind fun X =>
          liftLoop d (stop - start).toNat (0 + offset) X

/-- idwt.cpp:137-145 `idwt_1d_filtr_rev53_i32_scalar`, 157-188 `idwt_1d_filtr_irrev97_fixed` (its `memcpy` to
the unused array `a` is left out), 190-204 `idwt_1d_filtr_rev53_fixed`, 219-227 `idwt_1d_filtr_irrev53_fixed`,
and the same loops over rows in idwt.cpp:336-365, 401-418, 458-473. -/
def synthesise {α : Type} (flt : Filter α) (left : Int) (i0 i1 : Int) (X : Buf α) : Option (Buf α) :=
  let start := i0 / 2
  let stop := i1 / 2
  let offset := left - i0 % 2
  match flt with
  | .two hp lp =>
    (liftLoop lp (stop + 1 - start).toNat (0 + offset) X).bind
      fun X => liftLoop hp (stop - start).toNat (0 + offset + 1) X
  | .four a b c d =>
    (liftLoop d (stop + 2 - (start - 1)).toNat (-2 + offset) X).bind fun X =>
      (liftLoop c (stop + 1 - (start - 1)).toNat (-2 + offset + 1) X).bind fun X =>
        (liftLoop b (stop + 1 - start).toNat (0 + offset) X).bind fun X =>
          liftLoop a (stop - start).toNat (0 + offset + 1) X

/-- Pointer arithmetic: the buffer seen from `left` places before. -/
def fromLeft {α : Type} (left : Int) (b : Buf α) : Buf α := fun n => b (n - left)

/-- The first `w` samples at offset `left`. -/
def readBack {α : Type} (left : Int) (w : Nat) (X : Buf α) : Option (List α) :=
  (List.range w).mapM fun (k : Nat) => X (k + left)

/-- fdwt.cpp:251-256, 283-286, 357-360, 425-428, 763-771: `num_pse_i0`/`num_pse_i1` of the analysis, indexed by
the parity of the first and of the past-the-end coordinate. -/
def analysisLeft {α : Type} (flt : Filter α) (i0 : Int) : Nat :=
  match flt with
  | .two _ _ => if i0 % 2 = 0 then 2 else 1
  | .four _ _ _ _ => if i0 % 2 = 0 then 4 else 3

@[inherit_doc analysisLeft]
def analysisRight {α : Type} (flt : Filter α) (i1 : Int) : Nat :=
  match flt with
  | .two _ _ => if i1 % 2 = 0 then 1 else 2
  | .four _ _ _ _ => if i1 % 2 = 0 then 3 else 4

/-- idwt.cpp:269-274, 302-305, 372-375, 435-438, 1236-1237: the same for the synthesis. -/
def synthesisLeft {α : Type} (flt : Filter α) (i0 : Int) : Nat :=
  match flt with
  | .two _ _ => if i0 % 2 = 0 then 1 else 2
  | .four _ _ _ _ => if i0 % 2 = 0 then 3 else 4

@[inherit_doc synthesisLeft]
def synthesisRight {α : Type} (flt : Filter α) (i1 : Int) : Nat :=
  match flt with
  | .two _ _ => if i1 % 2 = 0 then 2 else 1
  | .four _ _ _ _ => if i1 % 2 = 0 then 4 else 3

/-- fdwt.cpp:219-249, 251-279 `fdwt_1d_sr_inplace`/`fdwt_hor_sr_fixed` for one row: a single sample is passed
through `single` when its coordinate is odd and left alone otherwise. -/
def analyseRow {α : Type} (flt : Filter α) (single : α → α) (i0 : Int) (x : List α) : Option (List α) :=
  if x.length = 1 then some (if i0 % 2 ≠ 0 then x.map single else x)
  else
    let left := analysisLeft flt i0
    (fillRow left (analysisRight flt (i0 + x.length)) i0 x).bind fun b =>
      (analyse flt left i0 (i0 + x.length) (fromLeft left b)).bind (readBack left x.length)

/-- fdwt.cpp:281-351, 353-423, 425-463 (columns; a sample is a row), and the horizontal part of `emit_ready_f`
fdwt.cpp:1033-1058: as `analyseRow`, with the extension made by `dwt_1d_extr_fixed`. -/
def analyseExt {α : Type} (flt : Filter α) (single : α → α) (i0 : Int) (x : List α) : Option (List α) :=
  if x.length = 1 then some (if i0 % 2 ≠ 0 then x.map single else x)
  else
    let left := analysisLeft flt i0
    (extend left (analysisRight flt (i0 + x.length)) i0 x).bind fun b =>
      (analyse flt left i0 (i0 + x.length) (fromLeft left b)).bind (readBack left x.length)

/-- idwt.cpp:236-265, 267-297 `idwt_1d_sr_inplace`/`idwt_hor_sr_fixed` for one row, and 836-870, 1098-1117
`idwt_1d_row_inplace`, `idwt_1d_row_inplace_i32` behind `idwt_1d_row_from_planar`. -/
def synthesiseRow {α : Type} (flt : Filter α) (single : α → α) (i0 : Int) (x : List α) : Option (List α) :=
  if x.length = 1 then some (if i0 % 2 ≠ 0 then x.map single else x)
  else
    let left := synthesisLeft flt i0
    (fillRow left (synthesisRight flt (i0 + x.length)) i0 x).bind fun b =>
      (synthesise flt left i0 (i0 + x.length) (fromLeft left b)).bind (readBack left x.length)

/-- The two-or-more-rows case of idwt.cpp:299-367, 369-428, 432-475 (columns; a sample is a row). -/
def synthesiseExt {α : Type} (flt : Filter α) (i0 : Int) (x : List α) : Option (List α) :=
  let left := synthesisLeft flt i0
  (extend left (synthesisRight flt (i0 + x.length)) i0 x).bind fun b =>
    (synthesise flt left i0 (i0 + x.length) (fromLeft left b)).bind (readBack left x.length)

/-- idwt.cpp:299-367 `idwt_irrev_ver_sr_fixed`, 369-428 `idwt_rev_ver_sr_fixed`, 432-475
`idwt_irrev53_ver_sr_fixed`.  `evenGuard` tells whether a single row with an even coordinate is caught before
the extension: the reversible filter (line 376) only catches the odd ones. -/
def synthesiseCols {α : Type} (flt : Filter α) (evenGuard : Bool) (single : α → α) (i0 : Int) (x : List α) :
    Option (List α) :=
  if x.length = 1 ∧ (i0 % 2 ≠ 0 ∨ evenGuard) then some (if i0 % 2 ≠ 0 then x.map single else x)
  else synthesiseExt flt i0 x

/-- The clipping lambda of idwt.cpp:891-900 and 931-937: first and last target at distance two from `init`
inside `[lo, hi]` (`none` stands for `INT32_MIN`/`INT32_MAX`). -/
def clip (lo hi : Option Int) (init last : Int) : Int × Int :=
  let ns := match lo with
    | none => init
    | some l => if l > init then l else init
  let ns := if (ns - init) % 2 ≠ 0 then ns + 1 else ns
  let ne := match hi with
    | none => last
    | some h => if h < last then h else last
  let ne := if (ne - init) % 2 ≠ 0 then ne - 1 else ne
  (ns, ne)

/-- `for (n = ns; n <= ne; n += 2)` with target `n + d`. -/
def liftClipped {α : Type} (f : Step α) (lo hi : Option Int) (init last d : Int) (X : Buf α) : Option (Buf α) :=
  let r := clip lo hi init last
  liftLoop f ((r.2 - r.1 + 2) / 2).toNat (r.1 + d) X

/-- idwt.cpp:883-922 `idwt_1d_filtr_irrev97_fixed_range`, 924-950 `idwt_1d_filtr_rev53_fixed_range`. -/
def synthesiseClipped {α : Type} (flt : Filter α) (left : Int) (i0 i1 : Int) (lo hi : Option Int) (X : Buf α) :
    Option (Buf α) :=
  let start := i0 / 2
  let stop := i1 / 2
  let offset := left - i0 % 2
  match flt with
  | .two hp lp =>
    (liftClipped lp lo hi offset (offset + 2 * (stop - start)) 0 X).bind fun X =>
      liftClipped hp lo hi offset (offset + 2 * (stop - start - 1)) 1 X
  | .four a b c d =>
    (liftClipped d lo hi (-2 + offset) (-2 + offset + 2 * (stop - start + 2)) 0 X).bind fun X =>
      (liftClipped c lo hi (-2 + offset) (-2 + offset + 2 * (stop - start + 1)) 1 X).bind fun X =>
        (liftClipped b lo hi offset (offset + 2 * (stop - start)) 0 X).bind fun X =>
          liftClipped a lo hi offset (offset + 2 * (stop - start - 1)) 1 X

/-- idwt.cpp:983 `widen`. -/
def Filter.widen {α : Type} : Filter α → Int
  | .two _ _ => 2
  | .four _ _ _ _ => 4

/-- idwt.cpp:952-1000 `idwt_1d_row_inplace_range` for the two filters that have a sub-range variant; `u0` is the
coordinate of the first sample, the window is `[colLo, colHi)`.  Returns the whole row. -/
def synthesiseWindow {α : Type} (flt : Filter α) (u0 : Int) (colLo colHi : Int) (x : List α) :
    Option (List α) :=
  let u1 := u0 + x.length
  let left := synthesisLeft flt u0
  if colLo ≤ u0 ∧ colHi ≥ u1 then
    (fillRow left (synthesisRight flt u1) u0 x).bind fun b =>
      (synthesise flt left u0 u1 (fromLeft left b)).bind (readBack left x.length)
  else
    let widen := flt.widen
    let lo := if colLo - widen < u0 then none else some (colLo - u0 - widen + left)
    let hi := if colHi + widen > u1 then none else some (colHi - u0 - 1 + widen + left)
    (fillRow left (synthesisRight flt u1) u0 x).bind fun b =>
      (synthesiseClipped flt left u0 u1 lo hi (fromLeft left b)).bind (readBack left x.length)

end Verif.Dwt
