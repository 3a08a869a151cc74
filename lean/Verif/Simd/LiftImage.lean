import Verif.Simd.Lift
import Verif.Dwt.Machine

/-!
# The reversible transform of an image with the AVX2 kernels

As `Verif.Dwt.Machine` on `int32_t`, with the kernels of `Verif.Simd.Lift` in place of the scalar filters.  Samples are whole numbers in the range of `int32_t`.
-/

namespace Verif.Simd.Lift

open Verif.Dwt (toInt32 join split Step Filter synthesiseRow analyseExt synthesiseCols rev53M rev53InvM doubleM halve ceilHalf readBack Bands Detail)

/-- The words of a row. -/
def words (x : List Int) : List (BitVec 32) := x.map (BitVec.ofInt 32)

/-- The memory that the kernels find for row `i` of a level: the ring slot of the synthesis (idwt.cpp:1196-1206); the scratch row and the two planes of the analysis
(fdwt.cpp:958-986). -/
structure Scratch where
  slot : Nat → Mem
  tmp : Nat → Mem
  lp : Nat → Mem
  hp : Nat → Mem

/-- idwt.cpp:1092-1206 for one row: the fast path of zero rows and rows of one sample as in `Dwt.fetchRowM`, else the vector kernels. -/
def fetchRowV (slot : Mem) (u0 : Int) (lp hp : List Int) : Option (List Int) :=
  if 0 < lp.length + hp.length ∧ (∀ a ∈ lp, a = 0) ∧ ∀ a ∈ hp, a = 0 then some (List.replicate (lp.length + hp.length) 0)
  else if lp.length + hp.length = 0 then some []
  else if lp.length + hp.length = 1 then some (if u0 % 2 ≠ 0 then (join u0 lp hp).map halve else join u0 lp hp)
  else ((rowFromPlanar u0 (words lp) (words hp) slot).bind (readBack 0 (lp.length + hp.length))).map (List.map BitVec.toInt)

/-- fdwt.cpp:958-986, 1040-1053 for one row: the low-pass and the high-pass half. -/
def sinkRowV (m : Scratch) (i : Nat) (u0 : Int) (x : List Int) : Option (List Int × List Int) :=
  if x.length = 1 then some (split u0 (if u0 % 2 ≠ 0 then x.map (doubleM toInt32) else x))
  else if x = [] then (analyseExt (rev53M toInt32) (doubleM toInt32) u0 x).map (split u0)
  else (rowToPlanar u0 (words x) (m.tmp i) (m.lp i) (m.hp i)).map fun r => (r.1.map BitVec.toInt, r.2.map BitVec.toInt)

/-- A vertical kernel as a step on rows; the rows are not surrounded by any memory. -/
def stepV (ver : Int → Mem → Mem → Mem → Option Mem) : Step (List Int) := fun p q t =>
  (((ver t.length (Dwt.bufOf (words p)) (Dwt.bufOf (words q)) (Dwt.bufOf (words t))).bind (readBack 0 t.length)).map (List.map BitVec.toInt)).getD []

/-- The vertical kernels of the synthesis. -/
def colsInv : Filter (List Int) := .two (stepV verInvHp) (stepV verInvLp)
/-- The vertical kernels of the analysis. -/
def colsFwd : Filter (List Int) := .two (stepV verFwdHp) (stepV verFwdLp)

/-- As `Dwt.synthesise2dM`. -/
def synthesise2dV (m : Scratch) (u0 v0 : Int) (b : Bands) : Option (List (List Int)) := do
  let lp ← (List.zip b.ll b.hl).zipIdx.mapM fun r => fetchRowV (m.slot (2 * r.2)) u0 r.1.1 r.1.2
  let hp ← (List.zip b.lh b.hh).zipIdx.mapM fun r => fetchRowV (m.slot (2 * r.2 + 1)) u0 r.1.1 r.1.2
  let h := join v0 lp hp
  if h = [] then some [] else synthesiseCols colsInv true (List.map halve) v0 h

/-- As `Dwt.analyse2dM`. -/
def analyse2dV (m : Scratch) (u0 v0 : Int) (rows : List (List Int)) : Option Bands := do
  let v ← if rows = [] then some [] else analyseExt colsFwd (List.map (doubleM toInt32)) v0 rows
  let h ← v.zipIdx.mapM fun r => sinkRowV m r.2 u0 r.1
  let lp := (split v0 h).1
  let hp := (split v0 h).2
  pure ⟨lp.map Prod.fst, lp.map Prod.snd, hp.map Prod.fst, hp.map Prod.snd⟩

/-- As `Dwt.analyseLevelsM`; every level has its own memory. -/
def analyseLevelsV : List Scratch → Int → Int → List (List Int) → Option (List (List Int) × List Detail)
  | [], _, _, rows => some (rows, [])
  | m :: ms, u0, v0, rows =>
    (analyse2dV m u0 v0 rows).bind fun b =>
      (analyseLevelsV ms (ceilHalf u0) (ceilHalf v0) b.ll).map fun r => (r.1, ⟨b.hl, b.lh, b.hh⟩ :: r.2)

/-- As `Dwt.synthesiseLevelsM`. -/
def synthesiseLevelsV : List Scratch → Int → Int → List (List Int) → List Detail → Option (List (List Int))
  | m :: ms, u0, v0, ll, d :: ds =>
    (synthesiseLevelsV ms (ceilHalf u0) (ceilHalf v0) ll ds).bind fun l => synthesise2dV m u0 v0 ⟨l, d.hl, d.lh, d.hh⟩
  | _, _, _, ll, _ => some ll

end Verif.Simd.Lift
