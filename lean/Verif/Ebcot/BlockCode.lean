import Verif.Ebcot.BlockSpec
/-
The codeword segments of a code-block: T.800 D.4 to D.6 and Annex C, on the encoder's side. No code of the repository.
-/
namespace Verif.Ebcot.Std

/-- Table D.7: the initial states of the contexts. -/
def ctx0 : (Nat → Nat) × (Nat → Nat) := (fun k => if k = 0 then 4 else if k = 17 then 3 else if k = 18 then 46 else 0, fun _ => 0)

def resetCtx (e : Enc) : Enc := { e with I := ctx0.1, MPS := ctx0.2 }

/-- Decisions; `none` resets the contexts. -/
def encodeOps (e : Enc) : List (Option (Nat × Nat)) → Enc
  | [] => e
  | none :: xs => encodeOps (resetCtx e) xs
  | some x :: xs => encodeOps (encode e x.1 x.2) xs

/-- The code-block style (Table A.19). -/
structure Modes where
  bypass : Bool
  reset : Bool
  termAll : Bool
  segMark : Bool

/-- Table A.19: the bits of the style. Bit 3 is for vertically causal contexts. -/
def modesOf (style : Nat) : Modes := { bypass := style.testBit 0, reset := style.testBit 1, termAll := style.testBit 2, segMark := style.testBit 5 }

/-- The passes are numbered from 0: a cleanup pass, then three passes for every further bit-plane. Bit-plane of pass `z`, from the first one
`top`. -/
def planeOf (top z : Nat) : Nat := top - (z + 2) / 3

/-- D.6: the passes that are not arithmetically coded. -/
def isRaw (M : Modes) (z : Nat) : Bool := M.bypass && decide (10 ≤ z) && !decide (z % 3 = 0)

/-- What pass `z` does. A cleanup pass ends with the segmentation symbol (D.5) if it is asked for. -/
def passE (B : Src) (M : Modes) (top z : Nat) (S : St) : St × List (Nat × Nat) :=
  if z % 3 = 0 then
    let q := cleanPassE B (planeOf top z) S
    (q.1, q.2 ++ if M.segMark then [(18, 1), (18, 0), (18, 1), (18, 0)] else [])
  else if z % 3 = 1 then sigPassE (isRaw M z) B (planeOf top z) S
  else magPassE B (planeOf top z) S

/-- The state behind `z` passes. -/
def stAt (B : Src) (M : Modes) (top : Nat) : Nat → St
  | 0 => initSt top
  | z + 1 => (passE B M top z (stAt B M top z)).1

/-- The decisions of pass `z`. -/
def decAt (B : Src) (M : Modes) (top z : Nat) : List (Nat × Nat) := (passE B M top z (stAt B M top z)).2

/-- D.4.1 and Tables D.8, D.9: does the codeword segment end with pass `z` of `n`? -/
def ends (M : Modes) (n z : Nat) : Bool := M.termAll || decide (z + 1 = n) || (M.bypass && decide (9 ≤ z) && !decide (z % 3 = 1))

/-- The number of passes of the segment that begins with pass `z`; the first argument is the number of passes to come. -/
def segCount (M : Modes) (n : Nat) : Nat → Nat → Nat
  | 0, _ => 0
  | f + 1, z => if ends M n z then 1 else 1 + segCount M n f (z + 1)

/-- The arithmetically coded decisions of passes `z`, ..., `z + k - 1`, with the resets of the contexts. -/
def opsOf (B : Src) (M : Modes) (top : Nat) : Nat → Nat → List (Option (Nat × Nat))
  | 0, _ => []
  | k + 1, z => (if z = 0 ∨ M.reset then [none] else []) ++ (decAt B M top z).map some ++ opsOf B M top k (z + 1)

/-- The raw bits of passes `z`, ..., `z + k - 1`. -/
def bitsOf (B : Src) (M : Modes) (top : Nat) : Nat → Nat → List Nat
  | 0, _ => []
  | k + 1, z => (decAt B M top z).map Prod.snd ++ bitsOf B M top k (z + 1)

/-- The bytes of the segment of passes `z`, ..., `z + k - 1`, from the contexts `cx`. -/
def segBytes (B : Src) (M : Modes) (top k z : Nat) (cx : (Nat → Nat) × (Nat → Nat)) : List Nat :=
  if isRaw M z then rawPack false (bitsOf B M top k z) else flush (encodeOps (initEnc cx.1 cx.2) (opsOf B M top k z))

/-- The contexts behind it. -/
def segCtx (B : Src) (M : Modes) (top k z : Nat) (cx : (Nat → Nat) × (Nat → Nat)) : (Nat → Nat) × (Nat → Nat) :=
  if isRaw M z then (if M.reset then ctx0 else cx)
  else ((encodeOps (initEnc cx.1 cx.2) (opsOf B M top k z)).I, (encodeOps (initEnc cx.1 cx.2) (opsOf B M top k z)).MPS)

/-- The segments of the first `n` passes: number of passes and bytes of each. The first argument bounds the number of segments. -/
def segments (B : Src) (M : Modes) (top n : Nat) : Nat → Nat → (Nat → Nat) × (Nat → Nat) → List (Nat × List Nat)
  | 0, _, _ => []
  | f + 1, z, cx =>
    if n ≤ z then []
    else
      let k := segCount M n (n - z) z
      (k, segBytes B M top k z cx) :: segments B M top n f (z + k) (segCtx B M top k z cx)

/-- The segments of a code-block of which `n` passes are coded. -/
def blockCode (B : Src) (M : Modes) (top n : Nat) : List (Nat × List Nat) := segments B M top n n 0 ctx0

/-- The lengths signalled for the passes (B.10.7): those of the passes of a segment add up to the number of its bytes. -/
def lensOk (passLen : List Nat) : Nat → List (Nat × List Nat) → Prop
  | _, [] => True
  | z, (k, bytes) :: segs => z + k ≤ passLen.length ∧ ((passLen.drop z).take k).sum = bytes.length ∧ lensOk passLen (z + k) segs

instance lensOkDec (passLen : List Nat) : ∀ (z : Nat) (l : List (Nat × List Nat)), Decidable (lensOk passLen z l)
  | _, [] => isTrue trivial
  | z, (k, bytes) :: segs =>
    have := lensOkDec passLen (z + k) segs
    inferInstanceAs (Decidable (z + k ≤ passLen.length ∧ ((passLen.drop z).take k).sum = bytes.length ∧ lensOk passLen (z + k) segs))

end Verif.Ebcot.Std
