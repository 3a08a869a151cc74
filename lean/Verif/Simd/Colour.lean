import Verif.Simd.Wide
/-
The reversible colour transform in all builds: `source/core/transform/{color.cpp,color_avx2.cpp,color_avx512.cpp,color_neon.cpp,color_wasm.cpp}`, and the rows of the
streaming encoder and of the decoders on which it works (`source/core/coding/coding_units.cpp`).

* Memory is as in `Verif.Simd.Lift`: partial functions from offsets to words; `none` does not belong to the allocation, and touching it makes the function return `none`.
  The rows of the three components are separate allocations.
* In the functions without vectors an overflow of `int32_t` is undefined behaviour and gives `none`; vector instructions wrap around.
* What the instructions do is written from memory of the Intel, Arm and WebAssembly manuals, which are not at hand.
* Lengths are natural numbers (they are below 2^31 in the code, which casts them to `int32_t`).  The functions are modelled for one row (`height = 1`), which is how the
  line-based coders call them; the NEON loops for Apple processors (color_neon.cpp, `__APPLE__`) are not modelled.
-/
namespace Verif.Simd.Colour
open Verif.Dwt (Buf toFloat)
open Verif.Simd Verif.Simd.Lift Verif.Simd.Lift.Wide

/-- Something for each of the first three components. -/
structure Trio (α : Type) where
  a : α
  b : α
  c : α
deriving DecidableEq

/-- The rows of the dispatch tables (coding_units.cpp:1127-1174). -/
inductive Build | scalar | wasm | neon | avx2 | avx512
deriving DecidableEq

/-- Words that one turn of a vector loop handles. -/
def Build.step : Build → Nat
  | .scalar => 1 | .wasm => 4 | .neon => 8 | .avx2 => 8 | .avx512 => 16

/-- `a + b` on `int32_t`. -/
def addC (a b : BitVec 32) : Option (BitVec 32) := if a.saddOverflow b then none else some (a + b)
/-- `a - b` on `int32_t`. -/
def subC (a b : BitVec 32) : Option (BitVec 32) := if a.ssubOverflow b then none else some (a - b)

/-- Loads of any kind of word. -/
def loadB {α : Type} (L : Nat) (b : Buf α) (m : Int) : Option (Fin L → α) :=
  if h : ∀ i : Fin L, (b (m + (i.val : Int))).isSome then some fun i => (b (m + (i.val : Int))).get (h i) else none

/-- Stores of any kind of word. -/
def storeB {α : Type} {L : Nat} (b : Buf α) (m : Int) (v : Fin L → α) : Option (Buf α) :=
  if ∀ i : Fin L, (b (m + (i.val : Int))).isSome then
    some fun k => if h : m ≤ k ∧ k < m + L then some (v ⟨(k - m).toNat, by omega⟩) else b k
  else none

/-! ### Analysis -/

/-- color.cpp:47-49, color_avx2.cpp:250-252, color_neon.cpp:350-353: one pixel without vectors.  `2 * G` overflows when `G + G` does. -/
def pixelFwd (R G B : BitVec 32) : Option (Trio (BitVec 32)) := do
  let g2 ← addC G G
  let s ← addC R g2
  let s ← addC s B
  let cb ← subC B G
  let cr ← subC R G
  pure ⟨s.sshiftRight 2, cb, cr⟩

/-- The sum below the shift: color_avx2.cpp:49-51, color_avx512.cpp:49-51, color_neon.cpp:60, color_wasm.cpp:46. -/
def sumFwd {L : Nat} (isa : Build) (R G B : V L) : V L :=
  match isa with
  | .neon => vadd (vadd R G) (vadd G B)
  | .wasm => vadd (vadd R B) (vadd G G)
  | _ => vadd G (vadd G (vadd R B))

/-- One register of the analysis in place, color_avx2.cpp:46-54, color_avx512.cpp:46-54, color_neon.cpp:53-75, color_wasm.cpp:42-48. -/
def intReg (L : Nat) (isa : Build) (m : Int) (x : Trio Mem) : Option (Trio Mem) :=
  (loadB L x.a m).bind fun R => (loadB L x.b m).bind fun G => (loadB L x.c m).bind fun B =>
  (storeB x.b m (vsub B G)).bind fun b => (storeB x.c m (vsub R G)).bind fun c => (storeB x.a m (vsrai (sumFwd isa R G B) 2)).map fun a => ⟨a, b, c⟩

/-- One turn of the loop.  The AVX2 code accesses the rows as `__m256i` objects, which have to be aligned to 32 bytes; the rows start at a multiple of 32 bytes, and `m` is
the offset from there.  NEON handles two registers (here one after the other; in the code the second is loaded before the first is stored, to another place). -/
def intTurn (isa : Build) (m : Int) (x : Trio Mem) : Option (Trio Mem) :=
  match isa with
  | .scalar => (x.a m).bind fun R => (x.b m).bind fun G => (x.c m).bind fun B => (pixelFwd R G B).bind fun p =>
    (put x.a m p.a).bind fun a => (put x.b m p.b).bind fun b => (put x.c m p.c).map fun c => ⟨a, b, c⟩
  | .wasm => intReg 4 .wasm m x
  | .neon => (intReg 4 .neon m x).bind (intReg 4 .neon (m + 4))
  | .avx2 => if m % 8 = 0 then intReg 8 .avx2 m x else none
  | .avx512 => intReg 16 .avx512 m x

/-- color.cpp:35-54 `cvt_rgb_to_ycbcr_rev`, color_avx2.cpp:38-60, color_avx512.cpp:38-60, color_neon.cpp:44-80, color_wasm.cpp:34-55, in place, for one row that starts at
`off`.  All vector builds go on while `len > 0`. -/
def intForward (isa : Build) (off : Int) (width : Nat) (x : Trio Mem) : Option (Trio Mem) :=
  (sweep isa.step 0 width (fun i x => intTurn isa (off + i) x) 0 x).map fun r => r.2

/-- What is known of the floating-point unit: conversion from `int32_t` (`static_cast<float>`, `_mm256_cvtepi32_ps`, `vcvtq_f32_s32`: all round to nearest even), the
conversion back of the vector builds (`_mm256_cvtps_epi32`, `vcvtq_s32_f32`, ...) and the cast, which is undefined outside `int32_t`. -/
structure Fpu (F : Type) where
  ofInt : BitVec 32 → F
  conv : Build → F → BitVec 32
  cast : F → Option (BitVec 32)

/-- Single-precision numbers that are whole.  Outside `int32_t` x86 gives the smallest number; NEON and WebAssembly give the closest. -/
def single : Fpu Int where
  ofInt w := toFloat w.toInt
  conv isa z := if -2 ^ 31 ≤ z ∧ z < 2 ^ 31 then BitVec.ofInt 32 z else
    match isa with
    | .neon | .wasm => if z < 0 then BitVec.ofInt 32 (-2 ^ 31) else BitVec.ofInt 32 (2 ^ 31 - 1)
    | _ => BitVec.ofInt 32 (-2 ^ 31)
  cast z := if -2 ^ 31 ≤ z ∧ z < 2 ^ 31 then some (BitVec.ofInt 32 z) else none

/-- One register of the analysis into rows of floats: color_avx2.cpp:236-245, color_avx512.cpp:230-238, color_neon.cpp:334-346, color_wasm.cpp (`_rev_float`). -/
def fltReg {F : Type} (u : Fpu F) (L : Nat) (src : Trio Mem) (m : Int) (x : Trio (Buf F)) : Option (Trio (Buf F)) :=
  (loadB L src.a m).bind fun R => (loadB L src.b m).bind fun G => (loadB L src.c m).bind fun B =>
  (storeB x.a m fun i => u.ofInt (vsrai (vadd (vadd R B) (vadd G G)) 2 i)).bind fun a =>
  (storeB x.b m fun i => u.ofInt (vsub B G i)).bind fun b => (storeB x.c m fun i => u.ofInt (vsub R G i)).map fun c => ⟨a, b, c⟩

/-- `p[k] = v` for any kind of word. -/
def putB {α : Type} (b : Buf α) (k : Int) (v : α) : Option (Buf α) := if (b k).isSome then some (Function.update b k (some v)) else none

/-- color.cpp:166-169 and the loops behind the vector loops. -/
def fltPixel {F : Type} (u : Fpu F) (src : Trio Mem) (m : Int) (x : Trio (Buf F)) : Option (Trio (Buf F)) :=
  (src.a m).bind fun R => (src.b m).bind fun G => (src.c m).bind fun B => (pixelFwd R G B).bind fun p =>
  (putB x.a m (u.ofInt p.a)).bind fun a => (putB x.b m (u.ofInt p.b)).bind fun b => (putB x.c m (u.ofInt p.c)).map fun c => ⟨a, b, c⟩

/-- A register or two. -/
def regs {σ : Type} (isa : Build) (reg : Nat → Int → σ → Option σ) (m : Int) (x : σ) : Option σ :=
  match isa with
  | .neon => (reg 4 m x).bind (reg 4 (m + 4))
  | isa => reg isa.step m x

/-- color.cpp:154-171 `cvt_rgb_to_ycbcr_rev_float`, color_avx2.cpp:225-256, color_avx512.cpp:219-250, color_neon.cpp:318-356, color_wasm.cpp: whole registers, then pixels.
Source and destination start at `0`. -/
def fltForward {F : Type} (u : Fpu F) (isa : Build) (width : Nat) (src : Trio Mem) (x : Trio (Buf F)) : Option (Trio (Buf F)) :=
  (if isa = .scalar then some (0, x) else sweep isa.step (isa.step - 1) width (regs isa fun L m x => fltReg u L src m x) 0 x).bind fun r =>
    (sweep 1 0 width (fltPixel u src) r.1 r.2).map fun r => r.2

/-! ### Synthesis -/

/-- `FinalizeParams` (color.hpp) as far as the reversible transform uses it. -/
structure Level where
  dc : BitVec 32
  mx : BitVec 32
  mn : BitVec 32

/-- color.cpp:228-233 `clamp`. -/
def clampC (l : Level) (v : BitVec 32) : Option (BitVec 32) :=
  (addC v l.dc).map fun v =>
    let v := if l.mx.slt v then l.mx else v
    if v.slt l.mn then l.mn else v

/-- `_mm256_min_epi32`, `vminq_s32`, `wasm_i32x4_min`. -/
def vmin {k : Nat} (a b : V k) : V k := fun i => if (b i).slt (a i) then b i else a i

/-- color_avx2.cpp:415-417, color_avx512.cpp, color_wasm.cpp: first the lower bound; color_neon.cpp:561-563: first the upper bound. -/
def clampV {k : Nat} (isa : Build) (l : Level) (v : V k) : V k :=
  match isa with
  | .neon => vmax (vmin (vadd v (vset l.dc)) (vset l.mx)) (vset l.mn)
  | _ => vmin (vmax (vadd v (vset l.dc)) (vset l.mn)) (vset l.mx)

/-- color.cpp:220-236, one pixel; the order of the casts does not matter. -/
def pixelInv {F : Type} (u : Fpu F) (fp : Trio Level) (y cb cr : F) : Option (Trio (BitVec 32)) := do
  let Y ← u.cast y
  let Cb ← u.cast cb
  let Cr ← u.cast cr
  let s ← addC Cb Cr
  let G ← subC Y (s.sshiftRight 2)
  let r ← addC Cr G
  let r ← clampC fp.a r
  let g ← clampC fp.b G
  let b ← addC Cb G
  let b ← clampC fp.c b
  pure ⟨r, g, b⟩

/-- color.cpp:220-236 as a turn of the loop. -/
def invPixel {F : Type} (u : Fpu F) (fp : Trio Level) (src : Trio (Buf F)) (m : Int) (x : Trio Mem) : Option (Trio Mem) :=
  (src.a m).bind fun y => (src.b m).bind fun cb => (src.c m).bind fun cr => (pixelInv u fp y cb cr).bind fun p =>
  (putB x.a m p.a).bind fun a => (putB x.b m p.b).bind fun b => (putB x.c m p.c).map fun c => ⟨a, b, c⟩

/-- One register: color_avx2.cpp:406-420, color_avx512.cpp:399-413, color_neon.cpp:553-564. -/
def invReg {F : Type} (u : Fpu F) (isa : Build) (fp : Trio Level) (src : Trio (Buf F)) (L : Nat) (m : Int) (x : Trio Mem) : Option (Trio Mem) :=
  (loadB L src.a m).bind fun y => (loadB L src.b m).bind fun cb => (loadB L src.c m).bind fun cr =>
  let Y : V L := fun i => u.conv isa (y i)
  let Cb : V L := fun i => u.conv isa (cb i)
  let Cr : V L := fun i => u.conv isa (cr i)
  let G := vsub Y (vsrai (vadd Cb Cr) 2)
  (storeB x.a m (clampV isa fp.a (vadd Cr G))).bind fun a => (storeB x.b m (clampV isa fp.b G)).bind fun b =>
    (storeB x.c m (clampV isa fp.c (vadd Cb G))).map fun c => ⟨a, b, c⟩

/-- Words of a turn of the fused synthesis: NEON handles one register here. -/
def Build.lanes : Build → Nat
  | .scalar => 1 | .wasm => 4 | .neon => 4 | .avx2 => 8 | .avx512 => 16

/-- color.cpp:216-238 `fused_ycbcr_rev_to_rgb_i32`, color_avx2.cpp:390-436, color_avx512.cpp:385-430, color_neon.cpp:518-583, color_wasm.cpp: while `n + L <= width`, then
pixels. -/
def fusedInverse {F : Type} (u : Fpu F) (isa : Build) (fp : Trio Level) (width : Nat) (src : Trio (Buf F)) (x : Trio Mem) : Option (Trio Mem) :=
  (if isa = .scalar then some (0, x) else sweep isa.lanes (isa.lanes - 1) width (invReg u isa fp src isa.lanes) 0 x).bind fun r =>
    (sweep 1 0 width (invPixel u fp src) r.1 r.2).map fun r => r.2

/-! ### Rows of the streaming encoder -/

/-- utils.hpp:35 `round_up(x, 32U)`. -/
def roundUp (x n : Nat) : Nat := (x + n - 1) / n * n

/-- coding_units.cpp:7320-7326 with 1100-1109: the words of a row that is allocated for components that are `W` wide, in a thread that has not encoded anything wider. -/
def rowWords (W : Nat) : Nat := roundUp W 32

/-- coding_units.cpp:7684-7687 for `shu = 0` (reversible, coding_units.cpp:3800): subtracts the DC offset in place. -/
def levelShift (dco : BitVec 32) (off : Int) (width : Nat) (row : Mem) : Option Mem :=
  (sweep 1 0 width (fun i row => (row (off + i)).bind fun v => (subC v dco).bind fun v => put row (off + i) v) 0 row).map fun r => r.2

/-- coding_units.cpp:7676-7695 for the first three components, when all of them run on `int32_t`: `src_fn` fills the rows from the left (imgio.cpp:117-146, 252-277), the part
of the tile is level-shifted and transformed in place, and its words are pushed.  `x0` is `tcomp[0].get_pos0().x`. -/
def streamRow (isa : Build) (x0 width : Nat) (dco : Trio (BitVec 32)) (img : Trio (List (BitVec 32))) (rows : Trio Mem) : Option (Trio (List (BitVec 32))) := do
  let a ← blit img.a rows.a
  let b ← blit img.b rows.b
  let c ← blit img.c rows.c
  let a ← levelShift dco.a x0 width a
  let b ← levelShift dco.b x0 width b
  let c ← levelShift dco.c x0 width c
  let y ← intForward isa x0 width ⟨a, b, c⟩
  let p ← Dwt.readBack x0 width y.a
  let q ← Dwt.readBack x0 width y.b
  let r ← Dwt.readBack x0 width y.c
  pure ⟨p, q, r⟩

end Verif.Simd.Colour
