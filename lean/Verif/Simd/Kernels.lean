import Verif.Simd.Vec
/-
The integer kernels of the decoder programs, with and without vector instructions.
Source: /repo/source/apps/decoder/main_dec.cpp:60-457 (rows to bytes of files), /repo/source/apps/rtp_recv/planar_shift.hpp:38-232 (rows to planes of the
receiver), /repo/source/core/transform/finalize_narrow.hpp:53-314 (rows of the inverse transform to planes).

`src` is the row of samples (numbers of 32 bits), `m` the memory at the destination before, and the result is the memory after.  Samples of
`finalize_narrow.hpp` are floats; here `src` gives them cut towards zero (numbers that are not a number are not modelled).
-/
namespace Verif.Simd
open Verif.Img (byte)

/-! ### main_dec.cpp -/

/-- main_dec.cpp:106-108: a sample in two bytes, the high one first. -/
def be16At (off : Int) (src : Nat → Int) (i : Nat) : List Nat := [byte ((src i + off) / 256), byte (src i + off)]
/-- main_dec.cpp:148-150: a sample in two bytes, the low one first. -/
def le16At (src : Nat → Int) (i : Nat) : List Nat := [byte (src i), byte (src i / 256)]
/-- main_dec.cpp:198-199: a sample in a byte. -/
def u8At (off : Int) (src : Nat → Int) (i : Nat) : List Nat := [byte (src i + off)]

/-- main_dec.cpp:105-111: `pack_i32_to_be16` without vectors. -/
def packBe16 (m : Mem) (src : Nat → Int) (width : Nat) (off : Int) : Mem :=
  (run 1 width (fun m n => store m (n * 2) (be16At off src n)) m 0).1
/-- main_dec.cpp:146-152: `pack_i32_to_le16` without vectors. -/
def packLe16 (m : Mem) (src : Nat → Int) (width : Nat) : Mem :=
  (run 1 width (fun m n => store m (n * 2) (le16At src n)) m 0).1
/-- main_dec.cpp:197-200: `pack_i32_to_u8` without vectors. -/
def packU8 (m : Mem) (src : Nat → Int) (width : Nat) (off : Int) : Mem :=
  (run 1 width (fun m n => store m n (u8At off src n)) m 0).1

/-- main_dec.cpp:66-68: the shuffle that exchanges bytes. -/
def bswap : List Nat :=
  [1, 0, 3, 2, 5, 4, 7, 6, 9, 8, 11, 10, 13, 12, 15, 14, 1, 0, 3, 2, 5, 4, 7, 6, 9, 8, 11, 10, 13, 12, 15, 14]
/-- main_dec.cpp:71-76: 16 samples of `pack_i32_to_be16` with AVX2. -/
def be16Avx2Group (src : Nat → Int) (off : Int) (n : Nat) : Reg :=
  let voff := set1 8 off
  let v0 := add32 (load32 8 src n) voff
  let v1 := add32 (load32 8 src (n + 8)) voff
  shuffle8y (permute4x64 (packs32 v0 v1) 0xD8) bswap
/-- main_dec.cpp:64-83: `pack_i32_to_be16` with AVX2. -/
def packBe16Avx2 (m : Mem) (src : Nat → Int) (width : Nat) (off : Int) : Mem :=
  let r := run 16 width (fun m n => store m (n * 2) (be16Avx2Group src off n)) m 0
  (run 1 width (fun m n => store m (n * 2) (be16At off src n)) r.1 r.2).1
/-- main_dec.cpp:89-98: 8 samples of `pack_i32_to_be16` with NEON. -/
def be16NeonGroup (src : Nat → Int) (off : Int) (n : Nat) : Reg :=
  let voff := set1 4 off
  vrev16 (vmovn32 (add32 (load32 4 src n) voff) ++ vmovn32 (add32 (load32 4 src (n + 4)) voff))
/-- main_dec.cpp:84-103: `pack_i32_to_be16` with NEON. -/
def packBe16Neon (m : Mem) (src : Nat → Int) (width : Nat) (off : Int) : Mem :=
  let r := run 8 width (fun m n => store m (n * 2) (be16NeonGroup src off n)) m 0
  (run 1 width (fun m n => store m (n * 2) (be16At off src n)) r.1 r.2).1

/-- main_dec.cpp:117-122: 16 samples of `pack_i32_to_le16` with AVX2. -/
def le16Avx2Group (src : Nat → Int) (n : Nat) : Reg := permute4x64 (packs32 (load32 8 src n) (load32 8 src (n + 8))) 0xD8
/-- main_dec.cpp:115-128: `pack_i32_to_le16` with AVX2. -/
def packLe16Avx2 (m : Mem) (src : Nat → Int) (width : Nat) : Mem :=
  let r := run 16 width (fun m n => store m (n * 2) (le16Avx2Group src n)) m 0
  (run 1 width (fun m n => store m (n * 2) (le16At src n)) r.1 r.2).1
/-- main_dec.cpp:130-145: `pack_i32_to_le16` with NEON. -/
def packLe16Neon (m : Mem) (src : Nat → Int) (width : Nat) : Mem :=
  let r := run 8 width (fun m n => store m (n * 2) (vmovn32 (load32 4 src n) ++ vmovn32 (load32 4 src (n + 4)))) m 0
  (run 1 width (fun m n => store m (n * 2) (le16At src n)) r.1 r.2).1

/-- main_dec.cpp:165-175: 32 samples of `pack_i32_to_u8` with AVX2. -/
def u8Avx2Group (src : Nat → Int) (off : Int) (n : Nat) : Reg :=
  let voff := set1 8 off
  let vmask := set1 8 255
  let v0 := and8 (add32 (load32 8 src n) voff) vmask
  let v1 := and8 (add32 (load32 8 src (n + 8)) voff) vmask
  let v2 := and8 (add32 (load32 8 src (n + 16)) voff) vmask
  let v3 := and8 (add32 (load32 8 src (n + 24)) voff) vmask
  permutevar8x32 (packus16y (packus32 v0 v1) (packus32 v2 v3)) [0, 4, 1, 5, 2, 6, 3, 7]
/-- main_dec.cpp:157-178: `pack_i32_to_u8` with AVX2. -/
def packU8Avx2 (m : Mem) (src : Nat → Int) (width : Nat) (off : Int) : Mem :=
  let r := run 32 width (fun m n => store m n (u8Avx2Group src off n)) m 0
  (run 1 width (fun m n => store m n (u8At off src n)) r.1 r.2).1
/-- main_dec.cpp:182-193: 16 samples of `pack_i32_to_u8` with NEON. -/
def u8NeonStore (m : Mem) (src : Nat → Int) (off : Int) (n : Nat) : Mem :=
  let voff := set1 4 off
  let h (p : Nat) := vmovn32 (add32 (load32 4 src p) voff)
  store (store m n (vmovnU16 (h n ++ h (n + 4)))) (n + 8) (vmovnU16 (h (n + 8) ++ h (n + 12)))
/-- main_dec.cpp:177-196: `pack_i32_to_u8` with NEON. -/
def packU8Neon (m : Mem) (src : Nat → Int) (width : Nat) (off : Int) : Mem :=
  let r := run 16 width (fun m n => u8NeonStore m src off n) m 0
  (run 1 width (fun m n => store m n (u8At off src n)) r.1 r.2).1

/-- main_dec.cpp:322-330: clamping of a sample of a PPM file. -/
def clampMv (mv v : Int) : Int := if v < 0 then 0 else if mv < v then mv else v
/-- main_dec.cpp:322-330: three samples in three bytes. -/
def rgb8At (mv : Int) (s0 s1 s2 : Nat → Int) (i : Nat) : List Nat :=
  [byte (clampMv mv (s0 i)), byte (clampMv mv (s1 i)), byte (clampMv mv (s2 i))]
/-- main_dec.cpp:321-331: `ppm_interleave_8` without vectors; `depth` below 31. -/
def ppm8 (m : Mem) (s0 s1 s2 : Nat → Int) (width depth : Nat) : Mem :=
  (run 1 width (fun m n => store m (n * 3) (rgb8At (2 ^ depth - 1) s0 s1 s2 n)) m 0).1
/-- main_dec.cpp:213: the shuffle that drops every fourth byte. -/
def drop4 : List Nat := [0, 1, 2, 4, 5, 6, 8, 9, 10, 12, 13, 14, 255, 255, 255, 255]
/-- main_dec.cpp:218-228, and the same for the pixels after them: four pixels in the low 12 bytes. -/
def rgb4 (s0 s1 s2 : Nat → Int) (maxVal : Reg) (p : Nat) : Reg :=
  let cl (s : Nat → Int) := min32 (max32 (load32 4 s p) (set1 4 0)) maxVal
  shuffle8 (or8 (or8 (cl s0) (slli32 (cl s1) 8)) (slli32 (cl s2) 16)) drop4
/-- main_dec.cpp:215-275: 16 pixels of `ppm_interleave_8` with SSE4.1. -/
def ppm8SseStore (m : Mem) (s0 s1 s2 : Nat → Int) (depth n : Nat) : Mem :=
  let mx := set1 4 (2 ^ depth - 1)
  let t := rgb4 s0 s1 s2 mx n
  let u := rgb4 s0 s1 s2 mx (n + 4)
  let v := rgb4 s0 s1 s2 mx (n + 8)
  let w := rgb4 s0 s1 s2 mx (n + 12)
  let m := store m (n * 3) (or8 t (bslli u 12))
  let m := store m (n * 3 + 16) (or8 (bsrli u 4) (bslli v 8))
  store m (n * 3 + 32) (or8 (bsrli v 8) (bslli w 4))
/-- main_dec.cpp:207-285: `ppm_interleave_8` with SSE4.1. -/
def ppm8Sse (m : Mem) (s0 s1 s2 : Nat → Int) (width depth : Nat) : Mem :=
  let r := run 16 width (fun m n => ppm8SseStore m s0 s1 s2 depth n) m 0
  (run 1 width (fun m n => store m (n * 3) (rgb8At (2 ^ depth - 1) s0 s1 s2 n)) r.1 r.2).1
/-- main_dec.cpp:293-309: 8 pixels of `ppm_interleave_8` with NEON. -/
def ppm8NeonGroup (s0 s1 s2 : Nat → Int) (depth n : Nat) : List Nat :=
  let cl (s : Nat → Int) (p : Nat) := vqmovun32 (min32 (max32 (load32 4 s p) (set1 4 0)) (set1 4 (2 ^ depth - 1)))
  let c8 (s : Nat → Int) := vqmovnU16 (cl s n ++ cl s (n + 4))
  st3u8 (c8 s0) (c8 s1) (c8 s2)
/-- main_dec.cpp:286-320: `ppm_interleave_8` with NEON. -/
def ppm8Neon (m : Mem) (s0 s1 s2 : Nat → Int) (width depth : Nat) : Mem :=
  let r := run 8 width (fun m n => store m (n * 3) (ppm8NeonGroup s0 s1 s2 depth n)) m 0
  (run 1 width (fun m n => store m (n * 3) (rgb8At (2 ^ depth - 1) s0 s1 s2 n)) r.1 r.2).1

/-- main_dec.cpp:448: `(v >> 8) | (v << 8)` cut to 16 bits and stored on a little-endian machine, for a number that is not negative. -/
def swap16 (v : Int) : List Nat := let x := (v.toNat / 256 ||| v.toNat * 256) % 65536; [x % 256, x / 256]
/-- main_dec.cpp:445-455: three samples in six bytes. -/
def rgb16At (mv : Int) (s0 s1 s2 : Nat → Int) (i : Nat) : List Nat :=
  swap16 (clampMv mv (s0 i)) ++ swap16 (clampMv mv (s1 i)) ++ swap16 (clampMv mv (s2 i))
/-- main_dec.cpp:442-456: `ppm_interleave_16be` without vectors; `depth` below 24 (`v << 8`). -/
def ppm16 (m : Mem) (s0 s1 s2 : Nat → Int) (width depth : Nat) : Mem :=
  (run 1 width (fun m n => store m (n * 6) (rgb16At (2 ^ depth - 1) s0 s1 s2 n)) m 0).1
/-- main_dec.cpp:347-353: the shuffles. -/
def m16 : Nat → List Nat
  | 0 => set64 0x0A0B0809FFFF0607 0x0405FFFF02030001
  | 1 => set64 0xFFFFFFFF0405FFFF 0xFFFF0001FFFFFFFF
  | 2 => set64 0xFFFFFFFFFFFFFFFF 0xFFFF0E0F0C0DFFFF
  | 3 => set64 0x0607FFFFFFFF0203 0x0C0DFFFFFFFF0809
  | 4 => set64 0xFFFF02030001FFFF 0xFFFFFFFFFFFFFFFF
  | 5 => set64 0xFFFFFFFF0E0FFFFF 0xFFFF0A0BFFFFFFFF
  | _ => set64 0x0E0F0C0DFFFF0A0B 0x0809FFFF06070405
/-- main_dec.cpp:356-390: 8 pixels of `ppm_interleave_16be` with SSE4.1. -/
def ppm16SseStore (m : Mem) (s0 s1 s2 : Nat → Int) (depth n : Nat) : Mem :=
  let cl (s : Nat → Int) (p : Nat) := min32 (max32 (load32 4 s p) (set1 4 0)) (set1 4 (2 ^ depth - 1))
  let t := or8 (cl s0 n) (slli32 (cl s1 n) 16)
  let u := or8 (cl s2 n) (slli32 (cl s0 (n + 4)) 16)
  let v := or8 (cl s1 (n + 4)) (slli32 (cl s2 (n + 4)) 16)
  let m := store m (n * 6) (or8 (shuffle8 t (m16 0)) (shuffle8 u (m16 1)))
  let m := store m (n * 6 + 16) (or8 (shuffle8 t (m16 2)) (or8 (shuffle8 u (m16 3)) (shuffle8 v (m16 4))))
  store m (n * 6 + 32) (or8 (shuffle8 u (m16 5)) (shuffle8 v (m16 6)))
/-- main_dec.cpp:339-403: `ppm_interleave_16be` with SSE4.1. -/
def ppm16Sse (m : Mem) (s0 s1 s2 : Nat → Int) (width depth : Nat) : Mem :=
  let r := run 8 width (fun m n => ppm16SseStore m s0 s1 s2 depth n) m 0
  (run 1 width (fun m n => store m (n * 6) (rgb16At (2 ^ depth - 1) s0 s1 s2 n)) r.1 r.2).1
/-- main_dec.cpp:411-426: 4 pixels of `ppm_interleave_16be` with NEON. -/
def ppm16NeonGroup (s0 s1 s2 : Nat → Int) (depth n : Nat) : List Nat :=
  let c (s : Nat → Int) := vrev16 (vqmovun32 (min32 (max32 (load32 4 s n) (set1 4 0)) (set1 4 (2 ^ depth - 1))))
  st3u16 (c s0) (c s1) (c s2)
/-- main_dec.cpp:405-440: `ppm_interleave_16be` with NEON. -/
def ppm16Neon (m : Mem) (s0 s1 s2 : Nat → Int) (width depth : Nat) : Mem :=
  let r := run 4 width (fun m n => store m (n * 6) (ppm16NeonGroup s0 s1 s2 depth n)) m 0
  (run 1 width (fun m n => store m (n * 6) (rgb16At (2 ^ depth - 1) s0 s1 s2 n)) r.1 r.2).1

/-! ### planar_shift.hpp -/

/-- planar_shift.hpp:44-47: clamping from below, then from above. -/
def clamp0 (maxval v : Int) : Int :=
  let v := if v < 0 then 0 else v
  if maxval < v then maxval else v
/-- planar_shift.hpp:44-47: a sample in a byte. -/
def shiftAt (src : Nat → Int) (shift maxval : Int) (i : Nat) : List Nat :=
  let v := clamp0 maxval (src i)
  [byte (if 0 < shift then v / 2 ^ shift.toNat else v)]
/-- planar_shift.hpp:41-49 `shift_i32_plane_to_u8_scalar`; `shift` below 32. -/
def shiftScalar (m : Mem) (src : Nat → Int) (width : Nat) (shift maxval : Int) : Mem :=
  (run 1 width (fun m x => store m x (shiftAt src shift maxval x)) m 0).1
/-- planar_shift.hpp:74-86: 8 samples with AVX2. -/
def shiftAvx2Group (src : Nat → Int) (shift maxval : Int) (x : Nat) : Reg :=
  let v := sra32 (min32 (max32 (load32 8 src x) (set1 8 0)) (set1 8 maxval)) shift
  let p16 := packus32 v v
  let merged := unpacklo64 (lo128 p16) (hi128 p16)
  (packus16 merged merged).take 8
/-- planar_shift.hpp:54-87, 128-134: `shift_i32_plane_to_u8` with AVX2. -/
def shiftAvx2 (m : Mem) (src : Nat → Int) (width : Nat) (shift maxval : Int) : Mem :=
  let r := run 8 width (fun m x => store m x (shiftAvx2Group src shift maxval x)) m 0
  (run 1 width (fun m x => store m x (shiftAt src shift maxval x)) r.1 r.2).1
/-- planar_shift.hpp:96-105: four samples with NEON, still of 32 bits. -/
def shift4 (src : Nat → Int) (shift maxval : Int) (p : Nat) : Reg :=
  vshl (min32 (max32 (load32 4 src p) (set1 4 0)) (set1 4 maxval)) (set1 4 (-shift))
/-- planar_shift.hpp:118-125: 8 samples with NEON. -/
def shiftNeonGroup (src : Nat → Int) (shift maxval : Int) (x : Nat) : Reg :=
  vqmovun16 (vqmovn32 (shift4 src shift maxval x) ++ vqmovn32 (shift4 src shift maxval (x + 4)))
/-- planar_shift.hpp:88-134: `shift_i32_plane_to_u8` with NEON: groups of 16, of 8, and single samples. -/
def shiftNeon (m : Mem) (src : Nat → Int) (width : Nat) (shift maxval : Int) : Mem :=
  let r := run 16 width (fun m x => store m x (shiftNeonGroup src shift maxval x ++ shiftNeonGroup src shift maxval (x + 8))) m 0
  let r := run 8 width (fun m x => store m x (shiftNeonGroup src shift maxval x)) r.1 r.2
  (run 1 width (fun m x => store m x (shiftAt src shift maxval x)) r.1 r.2).1

/-- planar_shift.hpp:149-154: a sample in two bytes of a little-endian machine. -/
def clampAt (src : Nat → Int) (maxval : Int) (i : Nat) : List Nat := let v := clamp0 maxval (src i); [byte v, byte (v / 256)]
/-- planar_shift.hpp:147-155 `clamp_i32_plane_to_u16_scalar`. -/
def clampScalar (m : Mem) (src : Nat → Int) (width : Nat) (maxval : Int) : Mem :=
  (run 1 width (fun m x => store m (x * 2) (clampAt src maxval x)) m 0).1
/-- planar_shift.hpp:174-184: 8 samples with AVX2. -/
def clampAvx2Group (src : Nat → Int) (maxval : Int) (x : Nat) : Reg :=
  let v := min32 (max32 (load32 8 src x) (set1 8 0)) (set1 8 maxval)
  let p16 := packus32 v v
  unpacklo64 (lo128 p16) (hi128 p16)
/-- planar_shift.hpp:157-185, 216-222: `clamp_i32_plane_to_u16` with AVX2. -/
def clampAvx2 (m : Mem) (src : Nat → Int) (width : Nat) (maxval : Int) : Mem :=
  let r := run 8 width (fun m x => store m (x * 2) (clampAvx2Group src maxval x)) m 0
  (run 1 width (fun m x => store m (x * 2) (clampAt src maxval x)) r.1 r.2).1
/-- planar_shift.hpp:206-212: 8 samples with NEON. -/
def clampNeonGroup (src : Nat → Int) (maxval : Int) (x : Nat) : Reg :=
  let c (p : Nat) := vqmovun32 (min32 (max32 (load32 4 src p) (set1 4 0)) (set1 4 maxval))
  c x ++ c (x + 4)
/-- planar_shift.hpp:186-222: `clamp_i32_plane_to_u16` with NEON. -/
def clampNeon (m : Mem) (src : Nat → Int) (width : Nat) (maxval : Int) : Mem :=
  let r := run 16 width (fun m x => store (store m (x * 2) (clampNeonGroup src maxval x)) ((x + 8) * 2) (clampNeonGroup src maxval (x + 8))) m 0
  let r := run 8 width (fun m x => store m (x * 2) (clampNeonGroup src maxval x)) r.1 r.2
  (run 1 width (fun m x => store m (x * 2) (clampAt src maxval x)) r.1 r.2).1

/-! ### finalize_narrow.hpp -/

/-- What the finalize kernels are told. -/
structure FinP where
  downshift : Int
  rnd : Int
  dc : Int
  maxval : Int
  minval : Int
  depthShift : Int
  deriving DecidableEq, Repr

/-- In the range of `int32_t`. -/
def i32 (v : Int) : Prop := -2147483648 ≤ v ∧ v ≤ 2147483647
instance (v : Int) : Decidable (i32 v) := by unfold i32; infer_instance

/-- finalize_narrow.hpp:65-72: a sample of the inverse transform to a sample of the picture; `none` if the conversion from float, a sum or the shift to the left is out of range
(the last one is defined since C++20 only). -/
def finSample (F : FinP) (t : Int) : Option Int :=
  if ¬ i32 t then none else
  let v := if F.downshift < 0 then (t + F.rnd) * 2 ^ (-F.downshift).toNat else if 0 < F.downshift then (t + F.rnd) / 2 ^ F.downshift.toNat else t
  if (F.downshift ≠ 0 ∧ ¬ i32 (t + F.rnd)) ∨ ¬ i32 v ∨ ¬ i32 (v + F.dc) then none else
  let v := v + F.dc
  let v := if F.maxval < v then F.maxval else v
  some (if v < F.minval then F.minval else v)
/-- finalize_narrow.hpp:73: to a byte. -/
def fin8 (F : FinP) (v : Int) : List Nat := [byte (if 0 < F.depthShift then v / 2 ^ F.depthShift.toNat else v)]
/-- finalize_narrow.hpp:90: to two bytes of a little-endian machine. -/
def fin16 (v : Int) : List Nat := [byte v, byte (v / 256)]
/-- finalize_narrow.hpp:61-75, 219-231: `finalize_f32_to_u8_scalar`, and the loop at the end of `finalize_f32_to_u8`, from column `x`; `none` is undefined behaviour. -/
def fin8Loop (F : FinP) (src : Nat → Int) (width : Nat) (m : Mem) (x : Nat) : Option Mem :=
  if x < width then (finSample F (src x)).bind fun v => fin8Loop F src width (store m x (fin8 F v)) (x + 1) else some m
termination_by width - x
/-- finalize_narrow.hpp:78-92, 302-312: `finalize_f32_to_u16_scalar`, and the loop at the end of `finalize_f32_to_u16`. -/
def fin16Loop (F : FinP) (src : Nat → Int) (width : Nat) (m : Mem) (x : Nat) : Option Mem :=
  if x < width then (finSample F (src x)).bind fun v => fin16Loop F src width (store m (x * 2) (fin16 v)) (x + 1) else some m
termination_by width - x

/-- `_mm256_cvttps_epi32`: 0x80000000 for numbers out of range. -/
def cvtt (v : Int) : Int := if i32 v then v else -2147483648
/-- finalize_narrow.hpp:179-191, 199-211: eight samples with AVX2, still of 32 bits; without rounding and shift if `downshift` is 0. -/
def finAvx2Half (F : FinP) (src : Nat → Int) (p : Nat) : Reg :=
  let c := load32 8 (fun i => cvtt (src i)) p
  let v := if 0 < F.downshift then sra32 (add32 c (set1 8 F.rnd)) F.downshift else c
  let v := min32 (max32 (add32 v (set1 8 F.dc)) (set1 8 F.minval)) (set1 8 F.maxval)
  if 0 < F.depthShift then sra32 v F.depthShift else v
/-- finalize_narrow.hpp:192-198, 210-214: packing of 16 samples with AVX2. -/
def fin8Avx2Group (F : FinP) (src : Nat → Int) (x : Nat) : Reg :=
  let p16 := permute4x64 (packus32 (finAvx2Half F src x) (finAvx2Half F src (x + 8))) 0xD8
  packus16 (lo128 p16) (hi128 p16)
/-- finalize_narrow.hpp:96-98, 172-232: `finalize_f32_to_u8` with AVX2. -/
def fin8Avx2 (F : FinP) (src : Nat → Int) (width : Nat) (m : Mem) : Option Mem :=
  let r := if 0 ≤ F.downshift then run 16 width (fun m x => store m x (fin8Avx2Group F src x)) m 0 else (m, 0)
  fin8Loop F src width r.1 r.2

/-- `vcvtq_s32_f32`: saturates. -/
def vcvt (v : Int) : Int := max (-2147483648) (min v 2147483647)
/-- finalize_narrow.hpp:104-150, 157-166, 244-299: four samples with NEON before the shift by the depth. -/
def finNeon4 (F : FinP) (src : Nat → Int) (p : Nat) : Reg :=
  let c := load32 4 (fun i => vcvt (src i)) p
  let v := if 0 < F.downshift then vshl (add32 c (set1 4 F.rnd)) (set1 4 (-F.downshift))
    else if F.downshift < 0 then vshl c (set1 4 (-F.downshift)) else c
  max32 (min32 (add32 v (set1 4 F.dc)) (set1 4 F.maxval)) (set1 4 F.minval)
/-- finalize_narrow.hpp:167-169: eight samples of `finalize_f32_to_u8` with NEON; groups of 16 are two of them (119-121). -/
def fin8NeonGroup (F : FinP) (src : Nat → Int) (x : Nat) : Reg :=
  let s (p : Nat) := vshl (finNeon4 F src p) (set1 4 (-F.depthShift))
  vqmovun16 (vqmovn32 (s x) ++ vqmovn32 (s (x + 4)))
/-- finalize_narrow.hpp:100-171, 219-232: `finalize_f32_to_u8` with NEON; the group of 8 is at most once (156: `if`). -/
def fin8Neon (F : FinP) (src : Nat → Int) (width : Nat) (m : Mem) : Option Mem :=
  let r := run 16 width (fun m x => store m x (fin8NeonGroup F src x ++ fin8NeonGroup F src (x + 8))) m 0
  let r := if r.2 + 8 ≤ width then (store r.1 r.2 (fin8NeonGroup F src r.2), r.2 + 8) else r
  fin8Loop F src width r.1 r.2
/-- finalize_narrow.hpp:240-313: `finalize_f32_to_u16` with NEON; with AVX2 it is the scalar loop. -/
def fin16Neon (F : FinP) (src : Nat → Int) (width : Nat) (m : Mem) : Option Mem :=
  let g (p : Nat) := vqmovun32 (finNeon4 F src p) ++ vqmovun32 (finNeon4 F src (p + 4))
  let r := run 16 width (fun m x => store (store m (x * 2) (g x)) ((x + 8) * 2) (g (x + 8))) m 0
  fin16Loop F src width r.1 r.2

end Verif.Simd
