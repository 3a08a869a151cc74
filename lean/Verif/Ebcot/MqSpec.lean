import Verif.Tactics
import Mathlib.Logic.Function.Basic
/-
The MQ encoder of ISO/IEC 15444-1 (Rec. ITU-T T.800), Annex C.2, after the flow charts of the standard as
remembered (its text was not at hand; section and table numbers in this directory are from memory as well). The repository holds no MQ encoder (it writes high-throughput blocks only), so this is what the decoder is measured
against. Nothing here refers to the decoder.
-/
namespace Verif.Ebcot.Std

/-- One row of Table C.2. -/
structure Row where
  qe : Nat
  nmps : Nat
  nlps : Nat
  switch : Nat
deriving DecidableEq, Repr

/-- Table C.2: estimates and transitions. -/
def table : List Row :=
  [⟨0x5601, 1, 1, 1⟩, ⟨0x3401, 2, 6, 0⟩, ⟨0x1801, 3, 9, 0⟩, ⟨0x0AC1, 4, 12, 0⟩, ⟨0x0521, 5, 29, 0⟩,
   ⟨0x0221, 38, 33, 0⟩, ⟨0x5601, 7, 6, 1⟩, ⟨0x5401, 8, 14, 0⟩, ⟨0x4801, 9, 14, 0⟩, ⟨0x3801, 10, 14, 0⟩,
   ⟨0x3001, 11, 17, 0⟩, ⟨0x2401, 12, 18, 0⟩, ⟨0x1C01, 13, 20, 0⟩, ⟨0x1601, 29, 21, 0⟩, ⟨0x5601, 15, 14, 1⟩,
   ⟨0x5401, 16, 14, 0⟩, ⟨0x5101, 17, 15, 0⟩, ⟨0x4801, 18, 16, 0⟩, ⟨0x3801, 19, 17, 0⟩, ⟨0x3401, 20, 18, 0⟩,
   ⟨0x3001, 21, 19, 0⟩, ⟨0x2801, 22, 19, 0⟩, ⟨0x2401, 23, 20, 0⟩, ⟨0x2201, 24, 21, 0⟩, ⟨0x1C01, 25, 22, 0⟩,
   ⟨0x1801, 26, 23, 0⟩, ⟨0x1601, 27, 24, 0⟩, ⟨0x1401, 28, 25, 0⟩, ⟨0x1201, 29, 26, 0⟩, ⟨0x1101, 30, 27, 0⟩,
   ⟨0x0AC1, 31, 28, 0⟩, ⟨0x09C1, 32, 29, 0⟩, ⟨0x08A1, 33, 30, 0⟩, ⟨0x0521, 34, 31, 0⟩, ⟨0x0441, 35, 32, 0⟩,
   ⟨0x02A1, 36, 33, 0⟩, ⟨0x0221, 37, 34, 0⟩, ⟨0x0141, 38, 35, 0⟩, ⟨0x0111, 39, 36, 0⟩, ⟨0x0085, 40, 37, 0⟩,
   ⟨0x0049, 41, 38, 0⟩, ⟨0x0025, 42, 39, 0⟩, ⟨0x0015, 43, 40, 0⟩, ⟨0x0009, 44, 41, 0⟩, ⟨0x0005, 45, 42, 0⟩,
   ⟨0x0001, 45, 43, 0⟩, ⟨0x5601, 46, 46, 0⟩]

/-- The row of an index; out of the table, the last row (the indices never leave it). -/
def row (i : Nat) : Row := table.getD i ⟨0x5601, 46, 46, 0⟩

/-- The registers of the encoder: `out` are the bytes written so far, last first, so that its head is the byte `B` at
`BP`. `I` and `MPS` are the states of the contexts. -/
structure Enc where
  A : Nat
  C : Nat
  CT : Nat
  out : List Nat
  I : Nat → Nat
  MPS : Nat → Nat

/-- Figure C.10, INITENC. The byte in front of the first is taken not to be 0xFF. -/
def initEnc (i mps : Nat → Nat) : Enc := { A := 0x8000, C := 0, CT := 12, out := [], I := i, MPS := mps }

/-- `B = B + 1`. -/
def incr : List Nat → List Nat
  | [] => []
  | b :: o => (b + 1) :: o

/-- Figure C.9, BYTEOUT. -/
def byteOut (e : Enc) : Enc :=
  if e.out.head? = some 0xFF then
    { e with out := e.C / 2 ^ 20 :: e.out, C := e.C % 2 ^ 20, CT := 7 }
  else if e.C < 0x8000000 then
    { e with out := e.C / 2 ^ 19 :: e.out, C := e.C % 2 ^ 19, CT := 8 }
  else if (incr e.out).head? = some 0xFF then
    { e with out := e.C % 2 ^ 27 / 2 ^ 20 :: incr e.out, C := e.C % 2 ^ 27 % 2 ^ 20, CT := 7 }
  else
    { e with out := e.C / 2 ^ 19 % 256 :: incr e.out, C := e.C % 2 ^ 19, CT := 8 }

/-- The body of the loop of Figure C.8, RENORME. -/
def shift1 (e : Enc) : Enc :=
  let e1 := { e with A := e.A * 2, C := e.C * 2, CT := e.CT - 1 }
  if e1.CT = 0 then byteOut e1 else e1

theorem shift1_A (e : Enc) : (shift1 e).A = e.A * 2 := by
  simp only [shift1, byteOut]
  split_ifs <;> rfl

/-- Figure C.8, RENORME: shift at least once, until `A` is 0x8000 or more. -/
def renormE (e : Enc) : Enc :=
  if 0 < (shift1 e).A ∧ (shift1 e).A < 0x8000 then renormE (shift1 e) else shift1 e
termination_by 0x8000 - e.A
decreasing_by
  rename_i h
  rw [shift1_A] at h ⊢
  omega

/-- Figure C.7, CODEMPS with conditional exchange. -/
def codeMPS (e : Enc) (cx : Nat) : Enc :=
  let q := (row (e.I cx)).qe
  if e.A - q < 0x8000 then
    let e1 := if e.A - q < q then { e with A := q } else { e with A := e.A - q, C := e.C + q }
    renormE { e1 with I := Function.update e1.I cx (row (e.I cx)).nmps }
  else { e with A := e.A - q, C := e.C + q }

/-- Figure C.6, CODELPS with conditional exchange. -/
def codeLPS (e : Enc) (cx : Nat) : Enc :=
  let q := (row (e.I cx)).qe
  let e1 := if e.A - q < q then { e with A := e.A - q, C := e.C + q } else { e with A := q }
  renormE { e1 with
    I := Function.update e1.I cx (row (e.I cx)).nlps
    MPS := Function.update e1.MPS cx (if (row (e.I cx)).switch = 1 then 1 - e.MPS cx else e.MPS cx) }

/-- Figures C.3-C.5, ENCODE: one decision `d` in context `cx`. -/
def encode (e : Enc) (cx d : Nat) : Enc := if d = e.MPS cx then codeMPS e cx else codeLPS e cx

/-- A sequence of decisions. -/
def encodeAll (e : Enc) : List (Nat × Nat) → Enc
  | [] => e
  | x :: xs => encodeAll (encode e x.1 x.2) xs

/-- Figure C.12, SETBITS. -/
def setBits (e : Enc) : Enc :=
  let c := e.C / 2 ^ 16 * 2 ^ 16 + 0xFFFF
  { e with C := if e.C + e.A ≤ c then c - 0x8000 else c }

/-- `C << CT; BYTEOUT`. -/
def push (e : Enc) : Enc := byteOut { e with C := e.C * 2 ^ e.CT }

/-- Figure C.11, FLUSH: the bytes of the terminated segment, first byte first. A last byte 0xFF is discarded. -/
def flush (e : Enc) : List Nat :=
  match (push (push (setBits e))).out with
  | [] => []
  | b :: o => if b = 0xFF then o.reverse else (b :: o).reverse

/-- The codeword segment of a sequence of decisions, from given context states. -/
def segment (i mps : Nat → Nat) (xs : List (Nat × Nat)) : List Nat := flush (encodeAll (initEnc i mps) xs)

end Verif.Ebcot.Std

namespace Verif.Ebcot.Std

/-- A list of bits, most significant first, as a number. -/
def num : List Nat → Nat
  | [] => 0
  | b :: l => b * 2 ^ l.length + num l

/-- T.800 D.6, the raw segments of the selective arithmetic coding bypass: bits are packed into bytes from the most significant end,
only seven into a byte behind a 0xFF; the last byte is filled up with zeros. `ff`: the byte before was 0xFF. -/
def rawPack (ff : Bool) (bits : List Nat) : List Nat :=
  if bits = [] then []
  else
    let n := if ff then 7 else 8
    let b := num (bits.take n ++ List.replicate (n - bits.length) 0)
    b :: rawPack (b == 0xFF) (bits.drop n)
termination_by bits.length
decreasing_by
  rename_i h
  have : 0 < bits.length := List.length_pos_iff.2 h
  simp only [List.length_drop]
  split_ifs <;> omega

end Verif.Ebcot.Std
