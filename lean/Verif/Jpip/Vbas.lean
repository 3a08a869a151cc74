/-
Model of the JPIP variable-length byte-aligned segment (VBAS) coder.
Source: /repo/source/core/jpip/vbas.cpp, vbas.hpp.
Bytes are `UInt8`; C++ `uint64_t` values are `Nat` with the 64-bit truncation written out.
-/
namespace Verif.Jpip

/-- vbas.hpp: `kVbasMaxBytes`. -/
def kVbasMaxBytes : Nat := 10

/-- vbas.cpp:15-16: the loop `for (v = value; v != 0; v >>= 7) ++n`, counting 7-bit groups. -/
def vbasGroups (v : Nat) : Nat :=
  if _h : v = 0 then 0 else 1 + vbasGroups (v >>> 7)
termination_by v
decreasing_by simp only [Nat.shiftRight_eq_div_pow]; omega

/-- vbas.cpp:9-26 `vbas_encode`: the bytes written to `dst`. -/
def vbasEncode (value : Nat) : List UInt8 :=
  if value = 0 then [0]
  else
    let n := vbasGroups value
    (List.range n).map fun i =>
      let shift := (n - 1 - i) * 7
      let group := (value >>> shift) &&& 0x7F
      let more := i + 1 < n
      UInt8.ofNat (group ||| (if more then 0x80 else 0x00))

/-- vbas.cpp:32-48, the body of the `for (;;)` loop of `vbas_decode`.
`bs` is `src[i..src_len)`, `i` the index, `v` the accumulator (`uint64_t`). -/
def vbasDecodeLoop : List UInt8 → Nat → Nat → Option (Nat × Nat)
  | [], _, _ => none
  | b :: bs, i, v =>
    if i ≥ kVbasMaxBytes then none
    else if i > 0 ∧ v >>> (64 - 7) ≠ 0 then none
    else
      let v' := ((v <<< 7) ||| (b.toNat &&& 0x7F)) % 2 ^ 64
      if b.toNat &&& 0x80 = 0 then some (v', i + 1)
      else vbasDecodeLoop bs (i + 1) v'

/-- vbas.cpp:28-49 `vbas_decode`: `some (value, advance)` on success, `none` for `false`. -/
def vbasDecode (src : List UInt8) : Option (Nat × Nat) := vbasDecodeLoop src 0 0

end Verif.Jpip
