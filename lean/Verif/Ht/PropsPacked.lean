import Verif.Ht.PackSig
import Verif.Ht.PropsRefine
import Verif.Ht.HtSafe

/-!
# C80: the vector builds' refinement passes

`refinePacked` (Packed.lean) models the vector builds, `refineDecode` (HtDecode.lean) the scalar build.  `Fresh` (RefSpec.lean) is what
the cleanup pass leaves of a conforming block.
-/

namespace Verif.Ht

/-- The packed significance of a block of this size, with its border, ends inside the array: rows of groups times the stride, plus
groups in a row. -/
def FitsSigma (w h : Nat) : Prop := (h + 3) / 4 * (((w + 3) / 4 + 2 + 7) / 8 * 8) + (w + 3) / 4 < 432

instance (w h : Nat) : Decidable (FitsSigma w h) := by unfold FitsSigma; infer_instance

theorem refineDecode_eq {D : Nat → Option Nat} {lref sBlk z : Nat} {b : RBlk} (hz : 1 < z) :
    refineDecode D lref sBlk z b = refineScalar D lref (30 - (sBlk + 1)) z b := by
  unfold refineDecode refineScalar
  rw [if_pos hz]

/-- C80.  For every block whose packed significance fits, every refinement segment and every number of passes above one the two
builds are undefined for the same input or leave the same samples. -/
theorem C80_packed_eq_scalar (b : RBlk) (hf : Fresh b) (hfit : FitsSigma b.w b.h) (D : Nat → Option Nat) (lref sBlk z : Nat) (hz : 1 < z) :
    (refinePacked D lref (30 - (sBlk + 1)) z b).map RBlk.smp = (refineDecode D lref sBlk z b).map RBlk.smp := by
  rw [refineDecode_eq hz]
  rcases refinePacked_rel hf D lref (30 - (sBlk + 1)) z hfit with ⟨h1, h2⟩ | ⟨u, v, h1, h2, h⟩
  · rw [h1, h2]
  · rw [h1, h2, Option.map_some, Option.map_some, h.smp]

/-- C80.  If the segment's bytes are there, the vector builds' passes are defined. -/
theorem C80_packed_safe (b : RBlk) (hf : Fresh b) (hfit : FitsSigma b.w b.h) (D : Nat → Option Nat) (lref p z : Nat)
    (hD : ∀ k < lref, D k ≠ none) : ∃ b', refinePacked D lref p z b = some b' := by
  have hs : ∃ b', refineScalar D lref p z b = some b' := by
    unfold refineScalar
    obtain ⟨b1, e1, h1⟩ := sigpropDecode_safe hD p b
    rw [e1]
    simp only [Option.bind_eq_bind, Option.bind_some]
    by_cases hz : 2 < z
    · rw [if_pos hz]
      obtain ⟨b2, e2⟩ := magrefDecode_safe hD p b1
      exact ⟨b2, e2⟩
    · rw [if_neg hz]; exact ⟨_, rfl⟩
  obtain ⟨b', e⟩ := hs
  rcases refinePacked_rel hf D lref p z hfit with ⟨h1, h2⟩ | ⟨u, v, h1, h2, h⟩
  · rw [h1] at e; simp at e
  · exact ⟨v, h2⟩

/-- C80.  With the encoder's passes (C60): the vector builds recover what the encoder sent, in the words of
`refinement_passes_roundtrip`. -/
theorem C80_packed_roundtrip (b d : RBlk) (hb : Fresh b) (hd : Fresh d) (hsame : SameSig b d) (hsz : b.w * b.h ≤ 4096)
    (hfit : FitsSigma b.w b.h) (p : Nat) (hp : 1 ≤ p) (hp30 : p ≤ 30) (m : Nat × Nat → Nat)
    (hsig : ∀ x, b.has x → b.sig x = true → d.smp x.1 x.2 = (2 * m x + 1) * 2 ^ p ∧ d.smp x.1 x.2 < 2 ^ 32)
    (hins : ∀ x, b.has x → b.sig x = false → d.smp x.1 x.2 = 0) :
    ∃ seg, refineEncode b = some seg ∧ ∀ D : Nat → Option Nat, (∀ k < seg.length, D k = seg[k]?) →
      ∃ d2, refinePacked D seg.length p 3 d = some d2 ∧
        (∀ x, b.has x → b.sig x = true → d2.smp x.1 x.2 = (4 * m x + 2 * (b.mag x).toNat + 1) * 2 ^ (p - 1)) ∧
        (∀ x, Member b x → b.mag x = true → d2.smp x.1 x.2 = (b.neg x).toNat * 2 ^ 31 + 3 * 2 ^ (p - 1)) ∧
        (∀ x, b.has x → b.sig x = false → ¬ (Member b x ∧ b.mag x = true) → d2.smp x.1 x.2 = 0) ∧
        (∀ x, ¬ b.has x → d2.smp x.1 x.2 = d.smp x.1 x.2) := by
  obtain ⟨seg, e, h⟩ := refinement_passes_roundtrip b d hb hd hsame hsz p hp hp30 m hsig hins
  refine ⟨seg, e, fun D hD => ?_⟩
  obtain ⟨d1, d2, e1, e2, hh⟩ := h D hD
  have hfd : FitsSigma d.w d.h := by rw [hsame.w, hsame.h]; exact hfit
  have hs : refineScalar D seg.length p 3 d = some d2 := by
    unfold refineScalar
    rw [e1]
    simp only [Option.bind_eq_bind, Option.bind_some]
    rw [if_pos (by decide), e2]
  rcases refinePacked_rel hd D seg.length p 3 hfd with ⟨h1, h2⟩ | ⟨u, v, h1, h2, hS⟩
  · rw [hs] at h1; simp at h1
  · rw [hs, Option.some.injEq] at h1
    subst h1
    refine ⟨v, h2, ?_⟩
    rw [hS.smp]
    exact hh

/-- C80, where it fails.  A block whose packed significance does not fit makes the vector builds write past the end of `sigma_buf`, a
local array, whatever the block holds and whatever was sent; the scalar build decodes the same block if the bytes are there. -/
theorem C80_sigma_overflow (b : RBlk) (hf : Fresh b) (hfit : ¬ FitsSigma b.w b.h) (D : Nat → Option Nat) (lref sBlk z : Nat) (hz : 1 < z)
    (hD : ∀ k < lref, D k ≠ none) :
    refinePacked D lref (30 - (sBlk + 1)) z b = none ∧ ∃ b', refineDecode D lref sBlk z b = some b' := by
  constructor
  · unfold refinePacked
    rw [packSigma_none hf (Nat.not_lt.mp hfit)]
    rfl
  · rw [refineDecode_eq hz]
    unfold refineScalar
    obtain ⟨b1, e1, h1⟩ := sigpropDecode_safe hD (30 - (sBlk + 1)) b
    rw [e1]
    simp only [Option.bind_eq_bind, Option.bind_some]
    by_cases hz : 2 < z
    · rw [if_pos hz]
      obtain ⟨b2, e2⟩ := magrefDecode_safe hD (30 - (sBlk + 1)) b1
      exact ⟨b2, e2⟩
    · rw [if_neg hz]; exact ⟨_, rfl⟩

/-- C80.  The code-block sizes a codestream may declare, `2^(x+2)` by `2^(y+2)` with `x + y ≤ 8` (j2kmarkers.cpp 459-473): in eight of
the forty-five a full block does not fit, in the others no block of that size or smaller overflows. -/
theorem C80_block_sizes (x y : Nat) (hxy : x + y ≤ 8) :
    (¬ FitsSigma (2 ^ (x + 2)) (2 ^ (y + 2)) ↔
      (x, y) ∈ [(8, 0), (3, 5), (2, 6), (1, 6), (0, 6), (1, 7), (0, 7), (0, 8)]) ∧
    (FitsSigma (2 ^ (x + 2)) (2 ^ (y + 2)) → ∀ w h, w ≤ 2 ^ (x + 2) → h ≤ 2 ^ (y + 2) → FitsSigma w h) := by
  constructor
  · have hall : ∀ x : Fin 9, ∀ y : Fin 9, x.1 + y.1 ≤ 8 → (¬ FitsSigma (2 ^ (x.1 + 2)) (2 ^ (y.1 + 2)) ↔
      (x.1, y.1) ∈ [(8, 0), (3, 5), (2, 6), (1, 6), (0, 6), (1, 7), (0, 7), (0, 8)]) := by decide +kernel
    exact hall ⟨x, by omega⟩ ⟨y, by omega⟩ hxy
  · unfold FitsSigma
    intro hfit w h hw hh
    have h1 : (h + 3) / 4 ≤ (2 ^ (y + 2) + 3) / 4 := by omega
    have h2 : ((w + 3) / 4 + 2 + 7) / 8 * 8 ≤ ((2 ^ (x + 2) + 3) / 4 + 2 + 7) / 8 * 8 := by omega
    have := Nat.mul_le_mul h1 h2
    omega

/-- One insignificant sample, and a significance in the row below it, outside the block. -/
def strayBlock : RBlk := ⟨1, 1, false, fun r c => if r = 2 ∧ c = 1 then 1 else 0, fun _ _ => 0⟩

/-- C80, where it fails.  Step 1 of the cleanup pass stores the significances of whole quads, so a malformed cleanup segment can leave
a significant cell outside a block of odd height; such a block is not `Fresh`.  The scalar build then counts the cell as a
neighbour and the vector builds do not: on this block and segment the samples differ. -/
theorem C80_stray_significance_differs :
    (∃ sp, sigmaStates 1 1 8 sp (fun _ _ => 0) = some strayBlock.st) ∧
    (refineDecode (fun _ => some 1) 1 20 2 strayBlock).map (fun b => b.smp 0 0) = some 768 ∧
    (refinePacked (fun _ => some 1) 1 9 2 strayBlock).map (fun b => b.smp 0 0) = some 0 := by
  refine ⟨⟨fun i => if i = 0 then 2 ^ 5 else 0, ?_⟩, by decide +kernel, by decide +kernel⟩
  unfold sigmaStates
  rw [if_pos (by decide)]
  congr 1
  funext r c
  unfold strayBlock
  dsimp only
  by_cases h : 1 ≤ r ∧ r ≤ 2 ∧ 1 ≤ c ∧ c ≤ 4
  · have hr : r = 1 ∨ r = 2 := by omega
    have hc : c = 1 ∨ c = 2 ∨ c = 3 ∨ c = 4 := by omega
    rcases hr with rfl | rfl <;> rcases hc with rfl | rfl | rfl | rfl <;> decide
  · rw [if_neg (by omega), if_neg (by omega)]

/-! ## Examples -/

/-- A 9×6 block with a few significant samples on both sides of group borders. -/
def packExample (ca : Bool) : RBlk :=
  ⟨9, 6, ca, fun r c => if (r, c) ∈ [(4, 1), (1, 9), (5, 6)] then 1 else 0, fun i j => if (i, j) ∈ [(3, 0), (0, 8), (4, 5)] then 48 else 0⟩

example (ca : Bool) : Fresh (packExample ca) ∧ FitsSigma (packExample ca).w (packExample ca).h := by
  refine ⟨⟨?_, ?_, ?_⟩, by cases ca <;> decide⟩
  · intro r c; simp only [packExample]; split_ifs <;> decide
  · intro r c; simp only [packExample]; split_ifs <;> decide
  · intro r c h
    simp only [packExample] at *
    rw [if_neg (by simp; omega)]; decide

/-- What the vector builds make of it: samples become significant across the borders, and the modes differ. -/
def packExampleRun (ca : Bool) : Option (List (List Nat)) :=
  (refinePacked (fun k => [0x12, 0xC6, 0x37, 0x9D][k]?) 4 4 3 (packExample ca)).map fun b =>
    (List.range 6).map fun i => (List.range 9).map fun j => b.smp i j

example : (packExampleRun true).isSome ∧ packExampleRun true ≠ packExampleRun false := by decide +kernel

example : ¬ FitsSigma 32 128 ∧ FitsSigma 64 64 := by decide

end Verif.Ht
