import Verif.Img.Files
/-
Vector registers and the vector instructions used by the integer kernels of the decoder programs.
Source of the kernels: Verif/Simd/Kernels.lean.  What the instructions do is written from memory of the Intel and Arm manuals, which are not at hand.

A register is the list of its bytes, the one of the lowest address first (16 bytes for `__m128i`, 32 for `__m256i`, 8 or 16 for NEON).  Instructions on lanes
read the bytes as numbers, little endian in two's complement, and write bytes.
-/
namespace Verif.Simd
open Verif.Img (byte)

/-- A register. -/
abbrev Reg := List Nat

/-- A number cut to 32 bits with sign. -/
def wrap32 (v : Int) : Int := (v + 2147483648) % 4294967296 - 2147483648
/-- A number cut to 16 bits with sign. -/
def wrap16 (v : Int) : Int := (v + 32768) % 65536 - 32768

/-- The four bytes of a 32-bit lane. -/
def b32 (v : Int) : List Nat := [byte v, byte (v / 256), byte (v / 65536), byte (v / 16777216)]
/-- A register of 32-bit lanes. -/
def of32 (l : List Int) : Reg := l.flatMap b32
/-- The 32-bit lanes of a register. -/
def w32 : Reg → List Int
  | a :: b :: c :: d :: t => wrap32 ((a : Int) + 256 * b + 65536 * c + 16777216 * d) :: w32 t
  | _ => []
/-- A register of 16-bit lanes. -/
def of16 (l : List Int) : Reg := l.flatMap fun v => [byte v, byte (v / 256)]
/-- The 16-bit lanes of a register, with sign. -/
def w16 : Reg → List Int
  | a :: b :: t => wrap16 ((a : Int) + 256 * b) :: w16 t
  | _ => []

/-! ### Saturation -/

/-- To 16 bits with sign. -/
def sat16 (v : Int) : Int := max (-32768) (min v 32767)
/-- To 16 bits without sign. -/
def satU16 (v : Int) : Int := max 0 (min v 65535)
/-- To 8 bits without sign. -/
def satU8 (v : Int) : Int := max 0 (min v 255)

/-! ### x86 -/

/-- `_mm256_set1_epi32` (`k` = 8), `_mm_set1_epi32` (`k` = 4), `vdupq_n_s32` (`k` = 4); zero registers with `v` = 0. -/
def set1 (k : Nat) (v : Int) : Reg := of32 (List.replicate k v)
/-- An instruction on 32-bit lanes of two registers. -/
def map2 (f : Int → Int → Int) (a b : Reg) : Reg := of32 (List.zipWith f (w32 a) (w32 b))
/-- `_mm256_add_epi32`, `vaddq_s32`. -/
def add32 : Reg → Reg → Reg := map2 (· + ·)
/-- `_mm256_max_epi32`, `_mm_max_epi32`, `vmaxq_s32`. -/
def max32 : Reg → Reg → Reg := map2 max
/-- `_mm256_min_epi32`, `_mm_min_epi32`, `vminq_s32`. -/
def min32 : Reg → Reg → Reg := map2 min
/-- `_mm256_and_si256`. -/
def and8 (a b : Reg) : Reg := List.zipWith (· &&& ·) a b
/-- `_mm_or_si128`. -/
def or8 (a b : Reg) : Reg := List.zipWith (· ||| ·) a b
/-- `_mm_slli_epi32` with a count below 32. -/
def slli32 (a : Reg) (k : Nat) : Reg := of32 ((w32 a).map (· * 2 ^ k))
/-- The count of `_mm256_srai_epi32` and `_mm256_sra_epi32`: without sign, everything above 31 is as 31. -/
def sraCount (k : Int) : Nat := if 0 ≤ k ∧ k ≤ 31 then k.toNat else 31
/-- `_mm256_srai_epi32`, and `_mm256_sra_epi32` with the count of `_mm_cvtsi32_si128`. -/
def sra32 (a : Reg) (k : Int) : Reg := of32 ((w32 a).map (· / 2 ^ sraCount k))

/-- `_mm256_castsi256_si128`. -/
def lo128 (a : Reg) : Reg := a.take 16
/-- `_mm256_extracti128_si256` with 1. -/
def hi128 (a : Reg) : Reg := a.drop 16
/-- Packing of 32-bit lanes to 16-bit lanes, in a 128-bit lane. -/
def pack32 (sat : Int → Int) (a b : Reg) : Reg := of16 ((w32 a ++ w32 b).map sat)
/-- `_mm256_packs_epi32`: in each half. -/
def packs32 (a b : Reg) : Reg := pack32 sat16 (lo128 a) (lo128 b) ++ pack32 sat16 (hi128 a) (hi128 b)
/-- `_mm256_packus_epi32`: in each half. -/
def packus32 (a b : Reg) : Reg := pack32 satU16 (lo128 a) (lo128 b) ++ pack32 satU16 (hi128 a) (hi128 b)
/-- `_mm_packus_epi16`: 16-bit lanes with sign to bytes. -/
def packus16 (a b : Reg) : Reg := (w16 a ++ w16 b).map fun v => (satU8 v).toNat
/-- `_mm256_packus_epi16`: in each half. -/
def packus16y (a b : Reg) : Reg := packus16 (lo128 a) (lo128 b) ++ packus16 (hi128 a) (hi128 b)
/-- `_mm256_permute4x64_epi64`. -/
def permute4x64 (a : Reg) (imm : Nat) : Reg := (List.range 4).flatMap fun i => (a.drop (8 * (imm / 4 ^ i % 4))).take 8
/-- `_mm256_permutevar8x32_epi32`. -/
def permutevar8x32 (a : Reg) (idx : List Nat) : Reg := idx.flatMap fun i => (a.drop (4 * (i % 8))).take 4
/-- `_mm_shuffle_epi8`. -/
def shuffle8 (a : Reg) (m : List Nat) : Reg := m.map fun s => if 128 ≤ s then 0 else a.getD (s % 16) 0
/-- `_mm256_shuffle_epi8`: in each half. -/
def shuffle8y (a : Reg) (m : List Nat) : Reg := shuffle8 (lo128 a) (m.take 16) ++ shuffle8 (hi128 a) (m.drop 16)
/-- `_mm_bslli_si128`. -/
def bslli (a : Reg) (k : Nat) : Reg := (List.replicate k 0 ++ a).take 16
/-- `_mm_bsrli_si128` with a count of at most 16. -/
def bsrli (a : Reg) (k : Nat) : Reg := a.drop k ++ List.replicate k 0
/-- `_mm_unpacklo_epi64`. -/
def unpacklo64 (a b : Reg) : Reg := a.take 8 ++ b.take 8
/-- `_mm_set_epi64x`: the bytes of two 64-bit numbers, the second is the lower one. -/
def set64 (hi lo : Nat) : Reg := (List.range 8).map (fun i => lo / 256 ^ i % 256) ++ (List.range 8).map fun i => hi / 256 ^ i % 256

/-! ### NEON -/

/-- A lane of `vshlq_s32`: the count is the lowest byte with sign; to the right if it is negative. -/
def vshl1 (v s : Int) : Int :=
  let c := (s + 128) % 256 - 128
  if 0 ≤ c then (if c < 32 then v * 2 ^ c.toNat else 0) else v / 2 ^ (min (-c) 31).toNat
/-- `vshlq_s32`. -/
def vshl : Reg → Reg → Reg := map2 vshl1
/-- `vmovn_s32`. -/
def vmovn32 (a : Reg) : Reg := of16 (w32 a)
/-- `vqmovn_s32`. -/
def vqmovn32 (a : Reg) : Reg := of16 ((w32 a).map sat16)
/-- `vqmovun_s32`. -/
def vqmovun32 (a : Reg) : Reg := of16 ((w32 a).map satU16)
/-- `vmovn_u16`. -/
def vmovnU16 (a : Reg) : Reg := (w16 a).map byte
/-- `vqmovn_u16`: lanes without sign, to at most 255. -/
def vqmovnU16 (a : Reg) : Reg := (w16 a).map fun v => min (v % 65536).toNat 255
/-- `vqmovun_s16`. -/
def vqmovun16 (a : Reg) : Reg := (w16 a).map fun v => (satU8 v).toNat
/-- `vrev16q_u8`, `vrev16_u8`: the two bytes of each 16-bit lane exchanged. -/
def vrev16 : Reg → Reg
  | a :: b :: t => b :: a :: vrev16 t
  | l => l
/-- `vst3_u8`: three registers of bytes stored in turn. -/
def st3u8 (a b c : Reg) : List Nat := (List.zip a (List.zip b c)).flatMap fun x => [x.1, x.2.1, x.2.2]
/-- Pairs of bytes. -/
def pairs : Reg → List (List Nat)
  | a :: b :: t => [a, b] :: pairs t
  | _ => []
/-- `vst3_u16`: three registers of 16-bit lanes stored in turn. -/
def st3u16 (a b c : Reg) : List Nat := (List.zip (pairs a) (List.zip (pairs b) (pairs c))).flatMap fun x => x.1 ++ x.2.1 ++ x.2.2

/-! ### Memory and loops -/

/-- Loading of `k` 32-bit numbers: `_mm256_loadu_si256` (8), `_mm_loadu_si128`, `vld1q_s32` (4). -/
def load32 (k : Nat) (src : Nat → Int) (p : Nat) : Reg := of32 ((List.range k).map fun i => src (p + i))

/-- The bytes at the destination. -/
abbrev Mem := Nat → Nat
/-- Storing of bytes. -/
def store (m : Mem) (p : Nat) (l : List Nat) : Mem := fun i => if p ≤ i ∧ i < p + l.length then l.getD (i - p) 0 else m i

/-- `for (; x + k <= width; x += k) body`; returns the memory and `x`.  The sum `x + k` is not cut to 32 bits. -/
def run (k width : Nat) (body : Mem → Nat → Mem) (m : Mem) (x : Nat) : Mem × Nat :=
  if 0 < k ∧ x + k ≤ width then run k width body (body m x) (x + k) else (m, x)
termination_by width - x
decreasing_by omega

end Verif.Simd
