import Verif.Ebcot.BlockSafeAll
/-
C58: the Part 1 code-block decoder on arbitrary bytes.

`.oob` is an access outside of an array, `.shift` a shift by more than the width (or a signed left shift that overflows), `.mq e` a failure of the MQ decoder (`.oob`, `.index`, `.negative`
or `.overflow`), `.throws` a C++ exception.
-/
namespace Verif.Ebcot

/-- C58. Whatever the bytes, the lengths of the passes and the code-block style: `j2k_decode` ends with a full block of coefficients, or with an exception, or with an overflow of
the registers of the MQ decoder. No access leaves the arrays, the tables or the buffer, no shift count is out of range. Needed: `M_b` at most 30, a region of interest shift of at
most `M_b`, no more passes than there are bit-planes above bit 0 (`3 (31 - zbp) - 2`). -/
theorem C58_block_any_bytes (x : CbIn) (ho : x.orient < 4) (hmb : x.mb ≤ 30) (hroi : x.roi ≤ x.mb) (hz : x.zbp ≤ 30) (hn : x.num ≤ 3 * (31 - x.zbp) - 2)
    (hp : x.num ≤ x.passLen.length) (hlen : x.length ≤ x.buf.length) (hby : ∀ b ∈ x.buf, b < 256) :
    j2kBlock x = .error .throws ∨ j2kBlock x = .error (.mq .overflow) ∨ ∃ q, j2kBlock x = .ok q ∧ q.length = x.h ∧ ∀ row ∈ q, row.length = x.w := by
  rcases j2kBlock_safe hz hn ho hp hlen hby hmb hroi with ⟨e, -⟩ | e | e
  · exact Or.inr (Or.inl e)
  · exact Or.inl e
  · exact Or.inr (Or.inr e)

/-- C58, no overflow: if in the bytes of the block nothing between 0x80 and 0x8F follows a 0xFF, the registers do not overflow either. -/
theorem C58_block_no_overflow (x : CbIn) (ho : x.orient < 4) (hmb : x.mb ≤ 30) (hroi : x.roi ≤ x.mb) (hz : x.zbp ≤ 30) (hn : x.num ≤ 3 * (31 - x.zbp) - 2)
    (hp : x.num ≤ x.passLen.length) (hlen : x.length ≤ x.buf.length) (hby : ∀ b ∈ x.buf, b < 256)
    (hc : ∀ i b, i + 1 < x.length → x.buf[i]? = some 0xFF → x.buf[i + 1]? = some b → b < 0x80 ∨ 0x8F < b) :
    j2kBlock x = .error .throws ∨ ∃ q, j2kBlock x = .ok q ∧ q.length = x.h ∧ ∀ row ∈ q, row.length = x.w := by
  rcases j2kBlock_safe hz hn ho hp hlen hby hmb hroi with ⟨-, h⟩ | e | e
  · exact absurd hc h
  · exact Or.inl e
  · exact Or.inr e

/-- A block of one coefficient, `n` passes, all bytes in the first. -/
def oneIn (n zbp mb roi : Nat) (buf : List Nat) : CbIn :=
  { w := 1, h := 1, orient := 0, cmodes := 0, mb := mb, zbp := zbp, roi := roi, layerPasses := [n], passLen := buf.length :: List.replicate (n - 1) 0, length := buf.length, buf := buf }

/-- A block of 2 × 5 coefficients from bytes no encoder wrote, in the bypass style with termination on each pass. -/
def wildIn : CbIn :=
  { w := 2, h := 5, orient := 3, cmodes := 0x0D, mb := 9, zbp := 3, roi := 2, layerPasses := [5, 7], passLen := [3, 0, 1, 2, 0, 0, 1, 1, 0, 0, 4, 2],
    length := 14, buf := [0xFF, 0x91, 0x12, 0xFF, 0xFF, 0x01, 0x80, 0x77, 0xFF, 0x7F, 0, 3, 0xFF, 0xFF, 9] }

example : j2kBlock wildIn = .error .throws ∨ ∃ q, j2kBlock wildIn = .ok q ∧ q.length = 5 ∧ ∀ row ∈ q, row.length = 2 := by
  refine C58_block_no_overflow wildIn (by decide) (by decide) (by decide) (by decide) (by decide) (by decide) (by decide) (by decide) ?_
  intro i b h
  have hi : i < 13 := by have h' : i + 1 < 14 := h; omega
  clear h
  simp only [wildIn]
  interval_cases i <;> simp <;> omega

/-- C58 fails with more passes. A packet header may announce up to 128 (coding_units.cpp:50, 2018-2027); nothing compares them with the bit-planes. From pass 93 on (no zero bit-planes) `p` has
wrapped around, and the cleanup pass of a block of one coefficient shifts by 255. -/
theorem C58_too_many_passes : j2kBlock (oneIn 128 0 4 0 []) = .error .shift ∧ j2kBlock (oneIn 94 0 4 0 []) = .error .shift ∧
    j2kBlock (oneIn 91 0 4 0 []) = .ok [[0]] := by
  decide +kernel

/-- C58 fails with more than 30 zero bit-planes: `pmsb` is 255. -/
theorem C58_too_many_zero_bitplanes : j2kBlock (oneIn 1 31 4 0 []) = .error .shift := by
  decide +kernel

/-- C58 fails for `M_b = 31`, whatever is decoded: `UINT32_MAX >> (M_b + 1)`. -/
theorem C58_mb31 (val state roi : Nat) : dequantRev 31 roi val state = .error .shift := rfl

/-- C58 fails for a region of interest shift that is larger than `M_b`: the left shift leaves `int32_t`. -/
theorem C58_roi_shift_overflows : j2kBlock (oneIn 1 10 4 16 [0]) = .error .shift := by
  decide +kernel

/-- The scale of the irreversible path is computed for reversible blocks too, and does not fit `int32_t` exactly if `M_b` is at least 18: the conversion is undefined. -/
theorem C58_scale_conversion (mb : Nat) (h : mb ≤ 31) : (2 ^ 31 : Rat) ≤ dequantScale mb ↔ 18 ≤ mb := by
  have e : dequantScale mb = 2 ^ (13 + mb) := by
    unfold dequantScale
    rw [if_pos h, if_pos h]
    have h31 : (2 : Rat) ^ 31 = 2 ^ (31 - mb) * 2 ^ mb := by rw [← pow_add]; congr 1; omega
    have hne : (2 : Rat) ^ (31 - mb) ≠ 0 := by positivity
    rw [show (2 : Rat) ^ 13 / 2 ^ (31 - mb) * 1 * 2 ^ 16 * 2 ^ 15 = 2 ^ 13 * (2 ^ 31 / 2 ^ (31 - mb)) by ring, h31,
      mul_div_cancel_left₀ _ hne, ← pow_add]
  rw [e, pow_le_pow_iff_right₀ (by norm_num)]
  omega

end Verif.Ebcot
