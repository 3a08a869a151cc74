import Verif.Simd.Lemmas
/-
**C78**: the vector kernels write what the kernels without vectors write.  Here those of main_dec.cpp for files of components.
-/
namespace Verif.Simd
open Verif.Img (byte)

/-! ### Samples of a group -/

theorem load_len (k : Nat) (src : Nat → Int) (p : Nat) : ((List.range k).map fun i => src (p + i)).length = k := by simp

/-- The samples from `n` on. -/
theorem range_split (src : Nat → Int) (n a b : Nat) :
    ((List.range a).map fun i => src (n + i)) ++ ((List.range b).map fun i => src (n + a + i)) = (List.range' n (a + b)).map src := by
  rw [List.range'_eq_map_range, List.range_add, List.map_append, List.map_append, List.map_map, List.map_map, List.map_map]
  simp [Function.comp_def, Nat.add_assoc]

theorem range_one (src : Nat → Int) (n a : Nat) : ((List.range a).map fun i => src (n + i)) = (List.range' n a).map src := by
  rw [List.range'_eq_map_range, List.map_map]; rfl

theorem shuffle_bswap {l : List Int} (h : l.length = 16) : shuffle8y (of16 l) bswap = l.flatMap fun v => [byte (v / 256), byte v] := by
  match l, h with
  | [a0, a1, a2, a3, a4, a5, a6, a7, a8, a9, a10, a11, a12, a13, a14, a15], _ => rfl

theorem be16Avx2Group_eq (src : Nat → Int) (off : Int) (n : Nat) :
    be16Avx2Group src off n = (List.range' n 16).flatMap fun i =>
      let s := sat16 (wrap32 (wrap32 (src i) + wrap32 off)); [byte (s / 256), byte s] := by
  unfold be16Avx2Group load32 add32
  simp only
  rw [map2_set1' (by simp), map2_set1' (by simp), packs32_of, pack_permute _ _ _ (by simp) (by simp), shuffle_bswap (by simp), ← List.map_append,
    List.map_map, List.flatMap_map, range_split, List.flatMap_map]
  rfl

theorem le16Avx2Group_eq (src : Nat → Int) (n : Nat) :
    le16Avx2Group src n = (List.range' n 16).flatMap fun i => let s := sat16 (wrap32 (src i)); [byte s, byte (s / 256)] := by
  unfold le16Avx2Group load32
  rw [packs32_of, pack_permute _ _ _ (by simp) (by simp), range_split, List.map_map]
  unfold of16
  rw [List.flatMap_map]
  rfl

theorem be16_mod {a b : Int} (h : a % 65536 = b % 65536) : [byte (a / 256), byte a] = [byte (b / 256), byte b] := by
  have h1 : byte (a / 256) = byte (b / 256) := byte_mod (by omega)
  have h2 : byte a = byte b := byte_mod (by omega)
  rw [h1, h2]

theorem wrap_add (a b : Int) : (wrap32 a + wrap32 b) % 4294967296 = (a + b) % 4294967296 := by unfold wrap32; omega

theorem be16NeonGroup_eq (src : Nat → Int) (off : Int) (n : Nat) :
    be16NeonGroup src off n = (List.range' n 8).flatMap (be16At off src) := by
  unfold be16NeonGroup load32 add32
  simp only
  rw [map2_set1' (by simp), map2_set1' (by simp), vmovn32_of, vmovn32_of, ← of16_append, vrev_of16, ← List.map_append, List.flatMap_map, range_split,
    List.flatMap_map]
  congr 1; funext i
  exact be16_mod (by have := wrap_add (src i) off; omega)

theorem le16NeonGroup_eq (src : Nat → Int) (n : Nat) :
    vmovn32 (load32 4 src n) ++ vmovn32 (load32 4 src (n + 4)) = (List.range' n 8).flatMap (le16At src) := by
  unfold load32
  rw [vmovn32_of, vmovn32_of, ← of16_append, range_split]
  unfold of16
  rw [List.flatMap_map]
  rfl

/-! ### Bytes -/

theorem satU16_byte (v : Int) : satU16 (wrap32 (byte v : Int)) = (byte v : Int) := by
  have := byte_lt v
  rw [wrap32_of (by unfold i32; omega)]
  unfold satU16; omega

theorem satU8_byte (v : Int) : (satU8 (wrap16 (byte v : Int))).toNat = byte v := by
  have := byte_lt v
  unfold satU8 wrap16; omega

/-- Two packings and the permutation put the lanes in order. -/
theorem pack_u8 {a b c d : List Int} (ha : a.length = 8) (hb : b.length = 8) (hc : c.length = 8) (hd : d.length = 8) :
    permutevar8x32 (packus16y (packus32 (of32 (a.map fun v => (byte v : Int))) (of32 (b.map fun v => (byte v : Int))))
        (packus32 (of32 (c.map fun v => (byte v : Int))) (of32 (d.map fun v => (byte v : Int))))) [0, 4, 1, 5, 2, 6, 3, 7]
      = (a ++ b ++ (c ++ d)).map byte := by
  rw [packus32_of, packus32_of]
  unfold packus16y packus16 lo128 hi128
  have t := take_of16 (k := 8); have d' := drop_of16 (k := 8)
  simp only [show 2 * 8 = 16 by rfl] at t d'
  rw [t, t, d', d']
  simp only [w16_of16]
  match a, ha, b, hb, c, hc, d, hd with
  | [a0, a1, a2, a3, a4, a5, a6, a7], _, [b0, b1, b2, b3, b4, b5, b6, b7], _, [c0, c1, c2, c3, c4, c5, c6, c7], _, [d0, d1, d2, d3, d4, d5, d6, d7], _ =>
    simp [satU16_byte, satU8_byte, permutevar8x32]

theorem u8Avx2Group_eq (src : Nat → Int) (off : Int) (n : Nat) : u8Avx2Group src off n = (List.range' n 32).flatMap (u8At off src) := by
  unfold u8Avx2Group load32 add32
  simp only
  rw [map2_set1' (by simp), map2_set1' (by simp), map2_set1' (by simp), map2_set1' (by simp), and8_set1' (by simp), and8_set1' (by simp),
    and8_set1' (by simp), and8_set1' (by simp), pack_u8 (by simp) (by simp) (by simp) (by simp), ← List.map_append, ← List.map_append, range_split,
    show n + 24 = n + 16 + 8 by rfl, range_split, ← List.map_append, show n + 16 = n + 1 * (8 + 8) by rfl, ← List.map_append, List.range'_append,
    List.map_map, List.map_map, List.map_eq_flatMap]
  congr 1; funext i
  simp only [u8At, Function.comp, List.cons.injEq, and_true]
  exact byte_mod (by have := wrap_add (src i) off; omega)

theorem vmovnU16_of (l : List Int) : vmovnU16 (of16 l) = l.map byte := by
  unfold vmovnU16
  rw [w16_of16, List.map_map]
  congr 1; funext v
  exact byte_mod (by unfold wrap16; omega)

theorem u8NeonStore_eq (m : Mem) (src : Nat → Int) (off : Int) (n : Nat) :
    u8NeonStore m src off n = store m n ((List.range' n 16).flatMap (u8At off src)) := by
  unfold u8NeonStore load32 add32
  simp only
  rw [map2_set1' (by simp), map2_set1' (by simp), map2_set1' (by simp), map2_set1' (by simp), vmovn32_of, vmovn32_of, vmovn32_of, vmovn32_of,
    ← of16_append, ← of16_append, vmovnU16_of, vmovnU16_of, store_append' (by simp)]
  congr 1
  rw [← List.map_append, ← List.map_append, ← List.map_append, range_split, show n + 12 = n + 8 + 4 by rfl, range_split, ← List.map_append,
    ← List.map_append, show n + 8 = n + 1 * (4 + 4) by rfl, List.range'_append, List.map_map, List.map_map, List.map_eq_flatMap]
  congr 1; funext i
  simp only [u8At, Function.comp, List.cons.injEq, and_true]
  exact byte_mod (by have := wrap_add (src i) off; omega)

/-! ### The kernels -/

/-- The kernels without vectors store the bytes that C76 uses, and nothing else. -/
theorem C78_scalar_bytes (m : Mem) (src : Nat → Int) (width : Nat) (off : Int) :
    packBe16 m src width off = store m 0 (Img.packBe16 off ((List.range width).map src)) ∧
    packLe16 m src width = store m 0 (Img.packLe16 ((List.range width).map src)) ∧
    packU8 m src width off = store m 0 (Img.packU8 off ((List.range width).map src)) := by
  refine ⟨?_, ?_, ?_⟩
  · unfold packBe16
    rw [run_one0 (b := 2) (g := be16At off src) (fun _ => rfl) m fun _ _ _ => rfl]
    unfold Img.packBe16; rw [List.flatMap_map]; rfl
  · unfold packLe16
    rw [run_one0 (b := 2) (g := le16At src) (fun _ => rfl) m fun _ _ _ => rfl]
    unfold Img.packLe16; rw [List.flatMap_map]; rfl
  · unfold packU8
    rw [run_one0 (b := 1) (g := u8At off src) (fun _ => rfl) m fun _ _ _ => by rw [Nat.mul_one]]
    unfold Img.packU8; rw [List.map_map, List.map_eq_flatMap]; rfl

/-- **C78** `pack_i32_to_u8` with AVX2 leaves the same memory as without, for all rows, widths and offsets. -/
theorem C78_u8_avx2 (m : Mem) (src : Nat → Int) (width : Nat) (off : Int) : packU8Avx2 m src width off = packU8 m src width off := by
  unfold packU8Avx2 packU8
  rw [run_one0 (b := 1) (g := u8At off src) (fun _ => rfl) m fun _ _ _ => by rw [Nat.mul_one]]
  exact run_two (k := 32) (b := 1) (g := u8At off src) (by decide) (fun _ => rfl) m (fun m j _ _ => by rw [u8Avx2Group_eq, Nat.mul_one]) fun _ _ _ _ => by rw [Nat.mul_one]

/-- **C78** `pack_i32_to_u8` with NEON leaves the same memory as without. -/
theorem C78_u8_neon (m : Mem) (src : Nat → Int) (width : Nat) (off : Int) : packU8Neon m src width off = packU8 m src width off := by
  unfold packU8Neon packU8
  rw [run_one0 (b := 1) (g := u8At off src) (fun _ => rfl) m fun _ _ _ => by rw [Nat.mul_one]]
  exact run_two (k := 16) (b := 1) (g := u8At off src) (by decide) (fun _ => rfl) m (fun m j _ _ => by rw [u8NeonStore_eq, Nat.mul_one]) fun _ _ _ _ => by rw [Nat.mul_one]

/-- **C78** `pack_i32_to_be16` with NEON leaves the same memory as without. -/
theorem C78_be16_neon (m : Mem) (src : Nat → Int) (width : Nat) (off : Int) : packBe16Neon m src width off = packBe16 m src width off := by
  unfold packBe16Neon packBe16
  rw [run_one0 (b := 2) (g := be16At off src) (fun _ => rfl) m fun _ _ _ => rfl]
  exact run_two (k := 8) (b := 2) (g := be16At off src) (by decide) (fun _ => rfl) m (fun m j _ _ => by rw [be16NeonGroup_eq]) fun _ _ _ _ => rfl

/-- **C78** `pack_i32_to_le16` with NEON leaves the same memory as without. -/
theorem C78_le16_neon (m : Mem) (src : Nat → Int) (width : Nat) : packLe16Neon m src width = packLe16 m src width := by
  unfold packLe16Neon packLe16
  rw [run_one0 (b := 2) (g := le16At src) (fun _ => rfl) m fun _ _ _ => rfl]
  exact run_two (k := 8) (b := 2) (g := le16At src) (by decide) (fun _ => rfl) m (fun m j _ _ => by rw [le16NeonGroup_eq]) fun _ _ _ _ => rfl

theorem flatMap_congr_len {g h : Nat → List Nat} {b n : Nat} (hg : ∀ i, (g i).length = b) (hh : ∀ i, (h i).length = b) :
    (List.range n).flatMap g = (List.range n).flatMap h ↔ ∀ i, i < n → g i = h i := by
  constructor
  · intro e
    induction n with
    | zero => intro i hi; omega
    | succ n ih =>
      rw [List.range_succ, List.flatMap_append, List.flatMap_append] at e
      have := List.append_inj e (by rw [flatMap_length _ _ _ hg, flatMap_length _ _ _ hh])
      intro i hi
      rcases Nat.lt_or_ge i n with h1 | h1
      · exact ih this.1 i h1
      · have : i = n := by omega
        subst this
        simpa using (List.append_inj e (by rw [flatMap_length _ _ _ hg, flatMap_length _ _ _ hh])).2
  · intro e
    rw [List.flatMap_def, List.flatMap_def]
    congr 1
    exact List.map_congr_left fun i hi => e i (List.mem_range.1 hi)

/-- Stores of the same number of bytes per sample leave the same memory exactly if the bytes of all samples are the same. -/
theorem store_flatMap_iff (m : Mem) {g h : Nat → List Nat} {b n : Nat} (hg : ∀ i, (g i).length = b) (hh : ∀ i, (h i).length = b) :
    store m 0 ((List.range n).flatMap g) = store m 0 ((List.range n).flatMap h) ↔ ∀ i, i < n → g i = h i := by
  rw [← flatMap_congr_len hg hh]
  exact ⟨fun e => store_inj (by rw [flatMap_length _ _ _ hg, flatMap_length _ _ _ hh]) e, fun e => by rw [e]⟩

theorem group_lt {w k j i : Nat} (hk : 0 < k) (hj : j % k = 0) (hw : j + k ≤ w) (hi : i ∈ List.range' j k) : i < w / k * k := by
  have := List.mem_range'_1.1 hi
  have e : j = k * (j / k) := by have := Nat.div_add_mod j k; omega
  have : j / k + 1 ≤ w / k := by
    rw [Nat.le_div_iff_mul_le hk, Nat.add_mul, Nat.mul_comm (j / k)]; omega
  have := Nat.mul_le_mul_right k this
  rw [Nat.add_mul, Nat.mul_comm (j / k)] at this
  omega

theorem flatMap_group {g h : Nat → List Nat} {j k : Nat} (e : ∀ i ∈ List.range' j k, g i = h i) : (List.range' j k).flatMap g = (List.range' j k).flatMap h := by
  rw [List.flatMap_def, List.flatMap_def]
  congr 1
  exact List.map_congr_left e

/-- The samples as AVX2 leaves them in two bytes: cut to 16 bits with sign in whole groups of 16. -/
def satGroups (width : Nat) (v : Nat → Int) (i : Nat) : Int := if i < width / 16 * 16 then sat16 (v i) else v i

/-- The memory left by `pack_i32_to_be16` with AVX2. -/
theorem be16Avx2_eq (m : Mem) (src : Nat → Int) (width : Nat) (off : Int) (hs : ∀ i, i < width → i32 (src i) ∧ i32 (src i + off)) (ho : i32 off) :
    packBe16Avx2 m src width off =
      store m 0 ((List.range width).flatMap fun i => let s := satGroups width (fun i => src i + off) i; [byte (s / 256), byte s]) := by
  unfold packBe16Avx2
  refine run_two (k := 16) (b := 2) (by decide) (fun _ => rfl) m (fun m j h1 h2 => ?_) fun m j h1 h2 => ?_
  · rw [be16Avx2Group_eq]
    congr 1
    refine flatMap_group fun i hi => ?_
    have hlt := group_lt (by omega) h1 h2 hi
    have := List.mem_range'_1.1 hi
    obtain ⟨a, b⟩ := hs i (by omega)
    unfold satGroups
    simp only [if_pos hlt, wrap32_of a, wrap32_of ho, wrap32_of b]
  · unfold satGroups
    simp only [if_neg (show ¬ j < width / 16 * 16 by omega)]
    rfl

/-- The memory left by `pack_i32_to_le16` with AVX2. -/
theorem le16Avx2_eq (m : Mem) (src : Nat → Int) (width : Nat) (hs : ∀ i, i < width → i32 (src i)) :
    packLe16Avx2 m src width = store m 0 ((List.range width).flatMap fun i => let s := satGroups width src i; [byte s, byte (s / 256)]) := by
  unfold packLe16Avx2
  refine run_two (k := 16) (b := 2) (by decide) (fun _ => rfl) m (fun m j h1 h2 => ?_) fun m j h1 h2 => ?_
  · rw [le16Avx2Group_eq]
    congr 1
    refine flatMap_group fun i hi => ?_
    have hlt := group_lt (by omega) h1 h2 hi
    have := List.mem_range'_1.1 hi
    have a := hs i (by omega)
    unfold satGroups
    simp only [if_pos hlt, wrap32_of a]
  · unfold satGroups
    simp only [if_neg (show ¬ j < width / 16 * 16 by omega)]
    rfl

/-- Two bytes, and the number in them. -/
theorem two_bytes {a b : Int} : (byte (a / 256) = byte (b / 256) ∧ byte a = byte b) ↔ a % 65536 = b % 65536 := by
  unfold byte; constructor <;> intro h <;> omega

theorem sat_iff {width : Nat} {v : Nat → Int} (hv : ∀ i, i < width → -32768 ≤ v i ∧ v i ≤ 65535) :
    (∀ i, i < width → satGroups width v i % 65536 = v i % 65536) ↔ ∀ i, i < width / 16 * 16 → v i ≤ 32767 := by
  have hw := Nat.div_mul_le_self width 16
  constructor
  · intro h i hi
    have a := h i (by omega)
    have b := hv i (by omega)
    unfold satGroups sat16 at a
    rw [if_pos hi] at a
    omega
  · intro h i hi
    unfold satGroups sat16
    split
    · have := h i (by assumption); have := hv i hi; congr 1; omega
    · rfl

/-- **C78** `pack_i32_to_be16` with AVX2 leaves the same memory as without exactly if no sample of the whole groups of 16, with the offset added, is above 32767.  The samples
with the offset added are numbers of 16 bits, with or without sign. -/
theorem C78_be16_avx2 (m : Mem) (src : Nat → Int) (width : Nat) (off : Int) (ho : 0 ≤ off ∧ off ≤ 32768)
    (hs : ∀ i, i < width → -32768 ≤ src i + off ∧ src i + off ≤ 65535) :
    packBe16Avx2 m src width off = packBe16 m src width off ↔ ∀ i, i < width / 16 * 16 → src i + off ≤ 32767 := by
  rw [be16Avx2_eq m src width off (fun i hi => by have := hs i hi; unfold i32; omega) (by unfold i32; omega), (C78_scalar_bytes m src width off).1]
  unfold Img.packBe16
  rw [List.flatMap_map, store_flatMap_iff (b := 2) m (fun _ => rfl) (fun _ => rfl), ← sat_iff (v := fun i => src i + off) hs]
  refine forall_congr' fun i => forall_congr' fun _ => ?_
  rw [← two_bytes]
  simp

/-- **C78** `pack_i32_to_le16` with AVX2 (PGX files of more than 8 bits) leaves the same memory as without exactly if no sample of the whole groups of 16 is above 32767. -/
theorem C78_le16_avx2 (m : Mem) (src : Nat → Int) (width : Nat) (hs : ∀ i, i < width → -32768 ≤ src i ∧ src i ≤ 65535) :
    packLe16Avx2 m src width = packLe16 m src width ↔ ∀ i, i < width / 16 * 16 → src i ≤ 32767 := by
  rw [le16Avx2_eq m src width (fun i hi => by have := hs i hi; unfold i32; omega), (C78_scalar_bytes m src width 0).2.1]
  unfold Img.packLe16
  rw [List.flatMap_map, store_flatMap_iff (b := 2) m (fun _ => rfl) (fun _ => rfl), ← sat_iff hs]
  refine forall_congr' fun i => forall_congr' fun _ => ?_
  rw [← two_bytes]
  simp [and_comm]

/-- **C78** A PGX file of 16-bit samples without sign: with AVX2 a row of 16 samples of 40000 is written as a row of 32767. -/
theorem C78_le16_wrong (m : Mem) : packLe16Avx2 m (fun _ => 40000) 16 = packLe16 m (fun _ => 32767) 16 ∧
    packLe16Avx2 m (fun _ => 40000) 16 ≠ packLe16 m (fun _ => 40000) 16 := by
  constructor
  · rw [le16Avx2_eq m _ 16 (fun i _ => by unfold i32; decide), (C78_scalar_bytes m (fun _ => 32767) 16 0).2.1]
    congr 1
  · intro h
    have := (C78_le16_avx2 m (fun _ => 40000) 16 (fun i _ => by decide)).1 h 0 (by decide)
    exact absurd this (by decide)

/-- Rows of 12-bit samples without sign and of 16-bit samples with sign meet the condition. -/
example (m : Mem) : packLe16Avx2 m (fun i => (i * 97 : Nat) % 4096) 100 = packLe16 m (fun i => (i * 97 : Nat) % 4096) 100 :=
  (C78_le16_avx2 m _ 100 (fun i _ => by omega)).2 fun i _ => by omega
example (m : Mem) : packBe16Avx2 m (fun i => (i * 97 : Nat) % 4096 - 2048) 100 2048 = packBe16 m (fun i => (i * 97 : Nat) % 4096 - 2048) 100 2048 :=
  (C78_be16_avx2 m _ 100 2048 (by decide) (fun i _ => by omega)).2 fun i _ => by omega

end Verif.Simd
