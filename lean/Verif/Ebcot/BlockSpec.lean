import Verif.Ebcot.MqSpec
/-
The coding passes of T.800 Annex D, on the encoder's side: which decisions are coded, in which contexts. No code of the repository.

Rows and columns count from 1; rows 0 and `h + 1` and columns 0 and `w + 1` are outside of the code-block, where nothing is ever significant.
-/
namespace Verif.Ebcot.Std

/-- A code-block to be coded: its size, the orientation of its subband (0 LL, 1 HL, 2 LH, 3 HH), whether contexts are vertically causal, and for every
coefficient magnitude and sign. -/
structure Src where
  w : Nat
  h : Nat
  o : Nat
  causal : Bool
  mag : Nat → Nat → Nat
  neg : Nat → Nat → Bool

/-- What encoder and decoder both know: which coefficients are significant, which were visited by the significance propagation pass of the bit-plane,
which have been refined before; of the magnitudes the bits coded so far, and the last bit-plane coded. -/
structure St where
  sig : Nat → Nat → Bool
  vis : Nat → Nat → Bool
  ref : Nat → Nat → Bool
  val : Nat → Nat → Nat
  last : Nat → Nat → Nat

/-- Before the first pass; `top` is the first bit-plane. -/
def initSt (top : Nat) : St :=
  { sig := fun _ _ => false, vis := fun _ _ => false, ref := fun _ _ => false, val := fun _ _ => 0, last := fun _ _ => top + 1 }

/-- Replace one element. -/
def put {α : Type} (f : Nat → Nat → α) (r c : Nat) (v : α) : Nat → Nat → α := fun r' c' => if r' = r ∧ c' = c then v else f r' c'

/-- Table D.1: the context label of significance coding from the number of significant horizontal, vertical and diagonal neighbours. -/
def zeroCtx (o h v d : Nat) : Nat :=
  if o = 3 then
    if 3 ≤ d then 8
    else if d = 2 then (if 1 ≤ h + v then 7 else 6)
    else if d = 1 then (if 2 ≤ h + v then 5 else if h + v = 1 then 4 else 3)
    else if 2 ≤ h + v then 2 else if h + v = 1 then 1 else 0
  else
    let (a, b) := if o = 1 then (v, h) else (h, v)
    if a = 2 then 8
    else if a = 1 then (if 1 ≤ b then 7 else if 1 ≤ d then 6 else 5)
    else if b = 2 then 4 else if b = 1 then 3 else if 2 ≤ d then 2 else if d = 1 then 1 else 0

/-- Table D.3: label and flip bit of sign coding from the horizontal and vertical contributions. -/
def signCtx (h v : Int) : Nat × Nat :=
  if h = 1 then (if v = 1 then (13, 0) else if v = 0 then (12, 0) else (11, 0))
  else if h = 0 then (if v = 1 then (10, 0) else if v = 0 then (9, 0) else (10, 1))
  else (if v = 1 then (11, 1) else if v = 0 then (12, 1) else (13, 1))

/-- Is the neighbour (`r'`, `c'`) of (`r`, `c`) significant? With vertically causal contexts (D.7) the coefficients of the next stripe are not looked at. -/
def seen (B : Src) (S : St) (r r' c' : Nat) : Bool := S.sig r' c' && !(B.causal && r % 4 == 0 && r' == r + 1)

def hSum (B : Src) (S : St) (r c : Nat) : Nat := (seen B S r r (c - 1)).toNat + (seen B S r r (c + 1)).toNat
def vSum (B : Src) (S : St) (r c : Nat) : Nat := (seen B S r (r - 1) c).toNat + (seen B S r (r + 1) c).toNat
def dSum (B : Src) (S : St) (r c : Nat) : Nat :=
  (seen B S r (r - 1) (c - 1)).toNat + (seen B S r (r - 1) (c + 1)).toNat + (seen B S r (r + 1) (c - 1)).toNat + (seen B S r (r + 1) (c + 1)).toNat

/-- The label of significance coding of (`r`, `c`). -/
def zc (B : Src) (S : St) (r c : Nat) : Nat := zeroCtx B.o (hSum B S r c) (vSum B S r c) (dSum B S r c)

/-- The contribution of a neighbour to sign coding: 1 positive, -1 negative, 0 insignificant. -/
def chi (B : Src) (S : St) (r r' c' : Nat) : Int := if seen B S r r' c' then (if B.neg r' c' then -1 else 1) else 0

/-- Table D.2: both neighbours together. -/
def clamp (x : Int) : Int := if 1 ≤ x then 1 else if x ≤ -1 then -1 else 0

/-- The decision that codes the sign of (`r`, `c`); raw segments have the sign bit itself. -/
def signBit (raw : Bool) (B : Src) (S : St) (r c : Nat) : Nat × Nat :=
  if raw then (0, (B.neg r c).toNat)
  else
    let t := signCtx (clamp (chi B S r r (c - 1) + chi B S r r (c + 1))) (clamp (chi B S r (r - 1) c + chi B S r (r + 1) c))
    (t.1, (B.neg r c).toNat ^^^ t.2)

/-- Bit `p` of the magnitude. -/
def bitAt (B : Src) (p r c : Nat) : Nat := B.mag r c / 2 ^ p % 2

/-- Bit `p` of (`r`, `c`) has been coded. -/
def coded (B : Src) (p r c : Nat) (S : St) : St :=
  { S with val := put S.val r c (S.val r c ||| bitAt B p r c * 2 ^ p), last := put S.last r c p }

/-- (`r`, `c`) becomes significant. -/
def signif (r c : Nat) (S : St) : St := { S with sig := put S.sig r c true }

/-- D.3.1: the significance propagation pass on one coefficient: new state and decisions. -/
def sigE (raw : Bool) (B : Src) (p : Nat) (x : Nat × Nat) (S : St) : St × List (Nat × Nat) :=
  let (r, c) := x
  if S.sig r c = false ∧ 0 < zc B S r c then
    let S1 := coded B p r c { S with vis := put S.vis r c true }
    if bitAt B p r c = 1 then (signif r c S1, [(zc B S r c, 1), signBit raw B S r c]) else (S1, [(zc B S r c, 0)])
  else ({ S with vis := put S.vis r c false }, [])

/-- D.3.3 and Table D.4: the magnitude refinement pass on one coefficient. -/
def magE (B : Src) (p : Nat) (x : Nat × Nat) (S : St) : St × List (Nat × Nat) :=
  let (r, c) := x
  if S.sig r c = true ∧ S.vis r c = false then
    (coded B p r c { S with ref := put S.ref r c true },
     [(if S.ref r c then 16 else if 1 ≤ hSum B S r c + vSum B S r c + dSum B S r c then 15 else 14, bitAt B p r c)])
  else (S, [])

/-- D.3.4: the cleanup pass on one coefficient, outside of the run-length mode. -/
def cleanE (B : Src) (p : Nat) (x : Nat × Nat) (S : St) : St × List (Nat × Nat) :=
  let (r, c) := x
  if S.sig r c = false ∧ S.vis r c = false then
    if bitAt B p r c = 1 then (signif r c (coded B p r c S), [(zc B S r c, 1), signBit false B S r c])
    else (coded B p r c S, [(zc B S r c, 0)])
  else (S, [])

/-- Coding one coefficient (or column) after the other. -/
def runs {α : Type} (f : α → St → St × List (Nat × Nat)) : List α → St → St × List (Nat × Nat)
  | [], S => (S, [])
  | x :: xs, S => let (S1, d1) := f x S; let (S2, d2) := runs f xs S1; (S2, d1 ++ d2)

/-- A column of a stripe: its first row, its column, its number of rows. -/
def rowsOf (x : Nat × Nat × Nat) : List (Nat × Nat) := (List.range x.2.2).map fun i => (x.1 + i, x.2.1)

/-- D.3.4 and Table D.5, the condition of the run-length mode: four coefficients, all still to be coded and all with context 0. -/
def runOk (B : Src) (S : St) (x : Nat × Nat × Nat) : Prop :=
  x.2.2 = 4 ∧ ∀ y ∈ rowsOf x, S.sig y.1 y.2 = false ∧ S.vis y.1 y.2 = false ∧ zc B S y.1 y.2 = 0

instance (B : Src) (S : St) (x : Nat × Nat × Nat) : Decidable (runOk B S x) := by unfold runOk; infer_instance

/-- The first of the four coefficients with bit 1 (4 if there is none). -/
def firstOne (B : Src) (p r c : Nat) : Nat :=
  if bitAt B p r c = 1 then 0 else if bitAt B p (r + 1) c = 1 then 1 else if bitAt B p (r + 2) c = 1 then 2 else if bitAt B p (r + 3) c = 1 then 3 else 4

/-- The first `n` coefficients of a column are coded (as zeros). -/
def skip (B : Src) (p r c : Nat) : Nat → St → St
  | 0, S => S
  | n + 1, S => coded B p (r + n) c (skip B p r c n S)

/-- D.3.4: the cleanup pass on a column of a stripe. -/
def cleanColE (B : Src) (p : Nat) (x : Nat × Nat × Nat) (S : St) : St × List (Nat × Nat) :=
  if runOk B S x then
    let i := firstOne B p x.1 x.2.1
    let S0 := skip B p x.1 x.2.1 i S
    if i = 4 then (S0, [(17, 0)])
    else
      let q := runs (cleanE B p) ((rowsOf x).drop (i + 1)) (signif (x.1 + i) x.2.1 (coded B p (x.1 + i) x.2.1 S0))
      (q.1, (17, 1) :: (18, i / 2) :: (18, i % 2) :: signBit false B S0 (x.1 + i) x.2.1 :: q.2)
  else runs (cleanE B p) (rowsOf x) S

/-- D.1: the stripes of four rows from top to bottom, each of them column by column. -/
def columns (w h : Nat) : List (Nat × Nat × Nat) :=
  (List.range ((h + 3) / 4)).flatMap fun s => (List.range w).map fun c => (4 * s + 1, c + 1, min 4 (h - 4 * s))

/-- The coefficients in scan order. -/
def scan (w h : Nat) : List (Nat × Nat) := (columns w h).flatMap rowsOf

/-- The three coding passes on bit-plane `p`. -/
def sigPassE (raw : Bool) (B : Src) (p : Nat) (S : St) : St × List (Nat × Nat) := runs (sigE raw B p) (scan B.w B.h) S
def magPassE (B : Src) (p : Nat) (S : St) : St × List (Nat × Nat) := runs (magE B p) (scan B.w B.h) S
def cleanPassE (B : Src) (p : Nat) (S : St) : St × List (Nat × Nat) := runs (cleanColE B p) (columns B.w B.h) S

end Verif.Ebcot.Std
