import Verif.Dwt.Image

/-!
# The reversible transform in machine arithmetic

The encoder runs the reversible 5/3 analysis on `float` samples, or on `int32_t` samples when the overlapped
line-based path is taken (`source/core/coding/coding_units.cpp` 3410, 7473-7478, 7630-7631); the decoder always
runs the synthesis on `int32_t` (coding_units.cpp 2870, 2986).  Here every addition goes through a function
`rnd : Int → Int` that gives the number the machine actually stores.
-/

namespace Verif.Dwt

/-- fdwt.cpp:162-177 `fdwt_1d_filtr_rev53_fixed` and fdwt.cpp:182-194 `fdwt_1d_filtr_rev53_i32`.  Multiplying by
`0.5f` or `0.25f` and `floorf` are exact on whole numbers held in a `float`, as are the shifts on `int32_t`, so
only the additions round (or wrap). -/
def rev53M (rnd : Int → Int) : Filter Int :=
  .two (fun a b t => rnd (t - rnd (a + b) / 2)) (fun a b t => rnd (t + rnd (rnd (a + b) + 2) / 4))

/-- idwt.cpp:137-145 and its `int32_t` variant. -/
def rev53InvM (rnd : Int → Int) : Filter Int :=
  .two (fun a b t => rnd (t + rnd (a + b) / 2)) (fun a b t => rnd (t - rnd (rnd (a + b) + 2) / 4))

/-- fdwt.cpp:1046, 1191-1203. -/
def doubleM (rnd : Int → Int) (x : Int) : Int := rnd (x * 2)

/-- As `analyse2d`, in machine arithmetic. -/
def analyse2dM (rnd : Int → Int) (u0 v0 : Int) (rows : List (List Int)) : Option Bands := do
  let v ← if rows = [] then some [] else analyseExt (rev53M rnd).onRows (List.map (doubleM rnd)) v0 rows
  let h ← v.mapM (analyseExt (rev53M rnd) (doubleM rnd) u0)
  let lp := (split v0 h).1
  let hp := (split v0 h).2
  pure ⟨lp.map (fun r => (split u0 r).1), lp.map (fun r => (split u0 r).2),
        hp.map (fun r => (split u0 r).1), hp.map (fun r => (split u0 r).2)⟩

/-- As `fetchRow`, in machine arithmetic (halving a lone sample is exact). -/
def fetchRowM (rnd : Int → Int) (u0 : Int) (lp hp : List Int) : Option (List Int) :=
  if 0 < lp.length + hp.length ∧ (∀ a ∈ lp, a = 0) ∧ ∀ a ∈ hp, a = 0 then
    some (List.replicate (lp.length + hp.length) 0)
  else if lp.length + hp.length = 0 then some []
  else synthesiseRow (rev53InvM rnd) halve u0 (join u0 lp hp)

/-- As `synthesise2d`, in machine arithmetic. -/
def synthesise2dM (rnd : Int → Int) (u0 v0 : Int) (b : Bands) : Option (List (List Int)) := do
  let lp ← (List.zip b.ll b.hl).mapM fun r => fetchRowM rnd u0 r.1 r.2
  let hp ← (List.zip b.lh b.hh).mapM fun r => fetchRowM rnd u0 r.1 r.2
  let h := join v0 lp hp
  if h = [] then some [] else synthesiseCols (rev53InvM rnd).onRows true (List.map halve) v0 h

/-- As `analyseLevels`, in machine arithmetic. -/
def analyseLevelsM (rnd : Int → Int) : Nat → Int → Int → List (List Int) → Option (List (List Int) × List Detail)
  | 0, _, _, rows => some (rows, [])
  | n + 1, u0, v0, rows =>
    (analyse2dM rnd u0 v0 rows).bind fun b =>
      (analyseLevelsM rnd n (ceilHalf u0) (ceilHalf v0) b.ll).map fun r => (r.1, ⟨b.hl, b.lh, b.hh⟩ :: r.2)

/-- As `synthesiseLevels`, in machine arithmetic. -/
def synthesiseLevelsM (rnd : Int → Int) : Int → Int → List (List Int) → List Detail → Option (List (List Int))
  | _, _, ll, [] => some ll
  | u0, v0, ll, d :: ds =>
    (synthesiseLevelsM rnd (ceilHalf u0) (ceilHalf v0) ll ds).bind fun l =>
      synthesise2dM rnd u0 v0 ⟨l, d.hl, d.lh, d.hh⟩

/-- The number of bits needed to write `n`. -/
def bitLen (n : Nat) : Nat := if n = 0 then 0 else Nat.log2 n + 1

/-- The `float` next to a whole number: 24 significant bits, ties to even (IEEE 754 binary32, no overflow below
`2^128`, which is not modelled). -/
def toFloat (z : Int) : Int :=
  let n := z.natAbs
  let e := bitLen n - 24
  let q := n / 2 ^ e
  let r := n % 2 ^ e
  let q' := if 2 * r < 2 ^ e then q else if 2 ^ e < 2 * r then q + 1 else q + q % 2
  z.sign * (q' * 2 ^ e)

/-- `int32_t` arithmetic that wraps around, as the vector kernels compute it. -/
def toInt32 (z : Int) : Int := (z + 2 ^ 31) % 2 ^ 32 - 2 ^ 31

end Verif.Dwt
