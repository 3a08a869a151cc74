import Verif.Ht.Refine

/-!
# HT refinement passes: what they mean

Follows Rec. ITU-T T.814, 7.4 and 7.5, as remembered (the text of the standard was not at hand), without the stripe groups,
the scratch bits or the streams of the implementation.
-/

namespace Verif.Ht

/-- A sample of the block. -/
def RBlk.has (b : RBlk) (x : Nat × Nat) : Prop := x.1 < b.h ∧ x.2 < b.w

/-- The sample became significant in the cleanup pass. -/
def RBlk.sig (b : RBlk) (x : Nat × Nat) : Bool := (b.st (x.1 + 1) (x.2 + 1)).testBit 0

/-- Its next magnitude bit, as the encoder keeps it. -/
def RBlk.mag (b : RBlk) (x : Nat × Nat) : Bool := (b.st (x.1 + 1) (x.2 + 1)).testBit 5

/-- Its sign, as the encoder keeps it. -/
def RBlk.neg (b : RBlk) (x : Nat × Nat) : Bool := (b.st (x.1 + 1) (x.2 + 1)).testBit 6

/-- Scan order: stripes of four rows, within a stripe column by column, within a column from the top. -/
def Before (y x : Nat × Nat) : Prop :=
  y.1 / 4 < x.1 / 4 ∨ y.1 / 4 = x.1 / 4 ∧ (y.2 < x.2 ∨ y.2 = x.2 ∧ y.1 < x.1)

/-- `y` is one of the up to eight neighbours of `x` inside the block; with the causal mode the next stripe is out
of sight. -/
def Nbr (b : RBlk) (x y : Nat × Nat) : Prop :=
  b.has y ∧ y ≠ x ∧ y.1 ≤ x.1 + 1 ∧ x.1 ≤ y.1 + 1 ∧ y.2 ≤ x.2 + 1 ∧ x.2 ≤ y.2 + 1 ∧
    (b.causal = true → y.1 / 4 ≤ x.1 / 4)

/-- The members of the SigProp pass: insignificant samples with a neighbour that is significant from the cleanup
pass, or that came earlier in the scan, was itself a member and turned out to be nonzero. -/
inductive Member (b : RBlk) : Nat × Nat → Prop
  | base {x y} : b.has x → b.sig x = false → Nbr b x y → b.sig y = true → Member b x
  | step {x y} : b.has x → b.sig x = false → Nbr b x y → Before y x → Member b y → b.mag y = true → Member b x

/-- A block before the refinement passes: no scratch bits set, nothing significant outside the block. -/
structure Fresh (b : RBlk) : Prop where
  r3 : ∀ r c, (b.st r c).testBit 3 = false
  r4 : ∀ r c, (b.st r c).testBit 4 = false
  out : ∀ r c, ¬ (1 ≤ r ∧ r ≤ b.h ∧ 1 ≤ c ∧ c ≤ b.w) → (b.st r c).testBit 0 = false

end Verif.Ht
