import Verif.Simd.PropsPpm
/-
**C78** for the kernels of the receiver (planar_shift.hpp) and for those that end the inverse transform (finalize_narrow.hpp).
-/
namespace Verif.Simd
open Verif.Img (byte)

/-! ### Lanes -/

theorem sra_of (l : List Int) (k : Int) : sra32 (of32 l) k = of32 (l.map fun v => wrap32 v / 2 ^ sraCount k) := by
  unfold sra32; rw [w32_of32, List.map_map]; rfl

/-- Packing of a register with itself and putting the halves together: eight lanes in order. -/
theorem merge_of {l : List Int} (h : l.length = 8) :
    unpacklo64 (lo128 (packus32 (of32 l) (of32 l))) (hi128 (packus32 (of32 l) (of32 l))) = of16 (l.map fun v => satU16 (wrap32 v)) := by
  rw [packus32_of]
  match l, h with
  | [a0, a1, a2, a3, a4, a5, a6, a7], _ => rfl

theorem packus16_of {l : List Int} (h : l.length = 8) : (packus16 (of16 l) (of16 l)).take 8 = l.map fun v => (satU8 (wrap16 v)).toNat := by
  unfold packus16
  rw [w16_of16]
  match l, h with
  | [a0, a1, a2, a3, a4, a5, a6, a7], _ => rfl

theorem clamp0_eq {maxval v : Int} : clamp0 maxval v = min (max v 0) maxval := by
  unfold clamp0; simp only; split <;> split <;> omega

/-- Clamping with any bound of 32 bits. -/
theorem clamp0_of {mx : Int} (hm : i32 mx) {l : List Int} {k : Nat} (hk : l.length = k) (hl : ∀ v ∈ l, i32 v) :
    min32 (max32 (of32 l) (set1 k 0)) (set1 k mx) = of32 (l.map (clamp0 mx)) := by
  unfold min32 max32
  rw [map2_set1' hk, map2_set1' (by simpa using hk), List.map_map]
  congr 1
  refine List.map_congr_left fun v hv => ?_
  have h2 := hl v hv
  rw [Function.comp, wrap32_of h2, wrap32_of (show i32 0 by decide), wrap32_of hm, clamp0_eq]
  unfold i32 at h2
  rw [wrap32_of (by unfold i32; omega)]

theorem clamp0_i32 {mx v : Int} (hm : i32 mx) (hv : i32 v) : i32 (clamp0 mx v) := by
  rw [clamp0_eq]; unfold i32 at *; omega

theorem mem_load {k : Nat} {src : Nat → Int} {p : Nat} (h : ∀ i, p ≤ i → i < p + k → i32 (src i)) :
    ∀ v ∈ (List.range k).map fun i => src (p + i), i32 v := by
  intro v hv; obtain ⟨i, hi, rfl⟩ := List.mem_map.1 hv; have := List.mem_range.1 hi; exact h _ (by omega) (by omega)

/-- A sample of `shift_i32_plane_to_u8` with AVX2. -/
def shiftLane (shift mx v : Int) : Nat := (satU8 (wrap16 (satU16 (clamp0 mx v / 2 ^ sraCount shift)))).toNat

theorem i32_div {v : Int} (h : i32 v) (c : Nat) : i32 (v / 2 ^ c) := by
  unfold i32 at *
  have hp : (1 : Int) ≤ 2 ^ c := pow_ge1 c
  generalize (2 : Int) ^ c = d at hp ⊢
  constructor
  · refine Int.le_ediv_of_mul_le (by omega) ?_
    have : (-2147483648 : Int) * d ≤ -2147483648 * 1 := Int.mul_le_mul_of_nonpos_left (by omega) hp
    omega
  · by_cases hv : v < 0
    · have := Int.ediv_neg_of_neg_of_pos hv (show 0 < d by omega)
      omega
    · have := Int.ediv_le_self d (show 0 ≤ v by omega)
      omega

theorem shiftAvx2Group_eq {src : Nat → Int} {shift mx : Int} {x : Nat} (hm : i32 mx) (hs : ∀ i, x ≤ i → i < x + 8 → i32 (src i)) :
    shiftAvx2Group src shift mx x = (List.range' x 8).flatMap fun i => [shiftLane shift mx (src i)] := by
  unfold shiftAvx2Group load32
  simp only
  rw [clamp0_of hm (by simp) (mem_load hs), sra_of, merge_of (by simp), packus16_of (by simp), range_one, List.map_map, List.map_map, List.map_map, List.map_map,
    ← List.map_eq_flatMap]
  refine List.map_congr_left fun i hi => ?_
  have := List.mem_range'_1.1 hi
  have h := clamp0_i32 hm (hs i (by omega) (by omega))
  simp only [Function.comp, wrap32_of h, wrap32_of (i32_div h _)]
  rfl

/-- A vector kernel of one store per group, and the bytes it stores. -/
theorem shiftAvx2_eq (m : Mem) (src : Nat → Int) (width : Nat) (shift mx : Int) (hm : i32 mx) (hs : ∀ i, i < width → i32 (src i)) :
    shiftAvx2 m src width shift mx =
      store m 0 ((List.range width).flatMap fun i => if i < width / 8 * 8 then [shiftLane shift mx (src i)] else shiftAt src shift mx i) := by
  unfold shiftAvx2
  refine run_two (k := 8) (b := 1) (by decide) (fun i => by split <;> rfl) m (fun m j h1 h2 => ?_) fun m j h1 h2 => ?_
  · rw [shiftAvx2Group_eq hm fun i h3 h4 => hs i (by omega), Nat.mul_one]
    congr 1
    refine flatMap_group fun i hi => ?_
    rw [if_pos (group_lt (by omega) h1 h2 hi)]
  · rw [if_neg (show ¬ j < width / 8 * 8 by omega), Nat.mul_one]

theorem shiftScalar_eq (m : Mem) (src : Nat → Int) (width : Nat) (shift mx : Int) :
    shiftScalar m src width shift mx = store m 0 ((List.range width).flatMap (shiftAt src shift mx)) := by
  unfold shiftScalar
  exact run_one0 (b := 1) (fun _ => rfl) m fun _ _ _ => by rw [Nat.mul_one]

theorem clamp0_range {mx v : Int} (h : 0 ≤ mx) : 0 ≤ clamp0 mx v ∧ clamp0 mx v ≤ mx := by rw [clamp0_eq]; omega

/-- A clamped and shifted sample fits into a byte. -/
theorem shift_fits {mx v shift : Int} (h0 : 0 ≤ mx) (hf : mx / 2 ^ shift.toNat ≤ 255) :
    0 ≤ clamp0 mx v / 2 ^ shift.toNat ∧ clamp0 mx v / 2 ^ shift.toNat ≤ 255 := by
  have r := clamp0_range (v := v) h0
  have hp := pow_ge1 shift.toNat
  refine ⟨Int.ediv_nonneg r.1 (by omega), ?_⟩
  have := Int.ediv_le_ediv (c := 2 ^ shift.toNat) (by omega) r.2
  omega

theorem shift_same {mx v shift : Int} (h0 : 0 ≤ mx) (hs : 0 ≤ shift) (hs1 : shift ≤ 31) (hf : mx / 2 ^ shift.toNat ≤ 255) (src : Nat → Int) (i : Nat)
    (hv : v = src i) : [shiftLane shift mx v] = shiftAt src shift mx i := by
  subst hv
  have f := shift_fits (v := src i) h0 hf
  unfold shiftLane shiftAt
  simp only [List.cons.injEq, and_true]
  have e : (if 0 < shift then clamp0 mx (src i) / 2 ^ shift.toNat else clamp0 mx (src i)) = clamp0 mx (src i) / 2 ^ shift.toNat := by
    split
    · rfl
    · have : shift = 0 := by omega
      subst this; simp
  rw [e, byte_of_lt f.1 (by omega), sraCount, if_pos ⟨hs, hs1⟩]
  generalize clamp0 mx (src i) / 2 ^ shift.toNat = x at f ⊢
  unfold satU8 satU16 wrap16; omega

/-- **C78** `shift_i32_plane_to_u8` with AVX2 leaves the same memory as the scalar reference, for all rows of 32-bit numbers and all widths, if the shift is not negative and
the largest value fits into a byte after it. -/
theorem C78_shift_avx2 (m : Mem) (src : Nat → Int) (width : Nat) (shift mx : Int) (hm : 0 ≤ mx ∧ mx ≤ 2147483647) (hs : 0 ≤ shift ∧ shift ≤ 31)
    (hf : mx / 2 ^ shift.toNat ≤ 255) (hr : ∀ i, i < width → i32 (src i)) :
    shiftAvx2 m src width shift mx = shiftScalar m src width shift mx := by
  rw [shiftAvx2_eq m src width shift mx (by unfold i32; omega) hr, shiftScalar_eq]
  congr 1
  rw [List.flatMap_def, List.flatMap_def]
  congr 1
  refine List.map_congr_left fun i _ => ?_
  split
  · exact shift_same hm.1 hs.1 hs.2 hf src i rfl
  · rfl

/-- The depths for which the receiver calls it rightly: a component of `depth` bits, 8 to 30. -/
theorem depth_fits {depth : Nat} (h1 : 8 ≤ depth) (h2 : depth ≤ 30) :
    (0 ≤ (2 : Int) ^ depth - 1 ∧ (2 : Int) ^ depth - 1 ≤ 2147483647) ∧ (0 ≤ (depth : Int) - 8 ∧ (depth : Int) - 8 ≤ 31) ∧
      ((2 : Int) ^ depth - 1) / 2 ^ ((depth : Int) - 8).toNat ≤ 255 := by
  have : ∀ d : Fin 31, 8 ≤ d.1 → (0 ≤ (2 : Int) ^ d.1 - 1 ∧ (2 : Int) ^ d.1 - 1 ≤ 2147483647) ∧ (0 ≤ (d.1 : Int) - 8 ∧ (d.1 : Int) - 8 ≤ 31) ∧
      ((2 : Int) ^ d.1 - 1) / 2 ^ ((d.1 : Int) - 8).toNat ≤ 255 := by decide +kernel
  exact this ⟨depth, by omega⟩ h1

/-- **C78** As the receiver calls it (decode_helpers.cpp:331-335, 363-375): for every depth of 8 to 30 bits. -/
theorem C78_shift_depths (m : Mem) (src : Nat → Int) (width depth : Nat) (h1 : 8 ≤ depth) (h2 : depth ≤ 30) (hr : ∀ i, i < width → i32 (src i)) :
    shiftAvx2 m src width (depth - 8) (2 ^ depth - 1) = shiftScalar m src width (depth - 8) (2 ^ depth - 1) := by
  obtain ⟨a, b, c⟩ := depth_fits h1 h2
  exact C78_shift_avx2 m src width _ _ a b c hr

theorem small_depth {depth : Nat} (h1 : 1 ≤ depth) (h2 : depth < 8) :
    i32 ((2 : Int) ^ depth - 1) ∧ 0 ≤ (2 : Int) ^ depth - 1 ∧ (2 : Int) ^ depth - 1 ≤ 127 ∧ sraCount ((depth : Int) - 8) = 31 := by
  have : ∀ d : Fin 8, 1 ≤ d.1 → i32 ((2 : Int) ^ d.1 - 1) ∧ 0 ≤ (2 : Int) ^ d.1 - 1 ∧ (2 : Int) ^ d.1 - 1 ≤ 127 ∧ sraCount ((d.1 : Int) - 8) = 31 := by
    decide +kernel
  exact this ⟨depth, by omega⟩ h1

/-- **C78** Below 8 bits the shift is negative, which the source says does not happen, though nothing keeps such components away: with AVX2 all samples of whole groups of 8
become 0, and without they keep their value.  So the two agree exactly if all these samples are at most 0. -/
theorem C78_shift_small_depth (m : Mem) (src : Nat → Int) (width depth : Nat) (h1 : 1 ≤ depth) (h2 : depth < 8) (hr : ∀ i, i < width → i32 (src i)) :
    shiftAvx2 m src width (depth - 8) (2 ^ depth - 1) = shiftScalar m src width (depth - 8) (2 ^ depth - 1) ↔
      ∀ i, i < width / 8 * 8 → src i ≤ 0 := by
  obtain ⟨a, b, c, d⟩ := small_depth h1 h2
  have hw := Nat.div_mul_le_self width 8
  rw [shiftAvx2_eq m src width _ _ a hr, shiftScalar_eq, store_flatMap_iff (b := 1) m (fun i => by split <;> rfl) (fun _ => rfl)]
  have L : ∀ v, shiftLane ((depth : Int) - 8) (2 ^ depth - 1) v = 0 := fun v => by
    have r := clamp0_range (mx := (2 : Int) ^ depth - 1) (v := v) b
    unfold shiftLane
    rw [d, show clamp0 (2 ^ depth - 1) v / 2 ^ 31 = 0 by generalize clamp0 (2 ^ depth - 1) v = x at r ⊢; omega]
    decide
  have S : ∀ i, shiftAt src ((depth : Int) - 8) (2 ^ depth - 1) i = [(clamp0 (2 ^ depth - 1) (src i)).toNat] := fun i => by
    have r := clamp0_range (mx := (2 : Int) ^ depth - 1) (v := src i) b
    unfold shiftAt
    simp only
    rw [if_neg (by omega), byte_of_lt r.1 (by omega)]
  have p2 : (2 : Int) ≤ 2 ^ depth := by
    have : ∀ d : Fin 8, 1 ≤ d.1 → (2 : Int) ≤ 2 ^ d.1 := by decide +kernel
    exact this ⟨depth, h2⟩ h1
  have Z : ∀ i, [0] = [(clamp0 (2 ^ depth - 1) (src i)).toNat] ↔ src i ≤ 0 := fun i => by
    simp only [List.cons.injEq, and_true]
    rw [clamp0_eq]
    omega
  constructor
  · intro h i hi
    have := h i (by omega)
    rw [if_pos hi, L, S, Z] at this
    exact this
  · intro h i hi
    split
    · rw [L, S, Z]; exact h i (by assumption)
    · rfl

/-- Four-bit components: a row of eight samples of 9 is shown as black with AVX2. -/
example (m : Mem) : shiftAvx2 m (fun _ => 9) 8 (4 - 8) (2 ^ 4 - 1) = store m 0 (List.replicate 8 0) ∧
    shiftScalar m (fun _ => 9) 8 (4 - 8) (2 ^ 4 - 1) = store m 0 (List.replicate 8 9) := by
  rw [shiftAvx2_eq m _ 8 _ _ (by decide) fun _ _ => by decide, shiftScalar_eq]
  exact ⟨congrArg (store m 0) (by decide +kernel), congrArg (store m 0) (by decide +kernel)⟩

/-! ### NEON -/

theorem vshl_of {l : List Int} {k : Nat} (hk : l.length = k) (c : Int) : vshl (of32 l) (set1 k c) = of32 (l.map fun v => vshl1 (wrap32 v) (wrap32 c)) :=
  map2_set1' hk

theorem narrow8_of (a b : List Int) :
    vqmovun16 (vqmovn32 (of32 a) ++ vqmovn32 (of32 b)) = (a ++ b).map fun v => (satU8 (wrap16 (sat16 (wrap32 v)))).toNat := by
  unfold vqmovun16 vqmovn32
  rw [w32_of32, w32_of32, ← of16_append, w16_of16, ← List.map_append, ← List.map_append, List.map_map, List.map_map, List.map_map]
  rfl

/-- To the right. -/
theorem vshl1_right {v s : Int} (h0 : 0 ≤ s) (h1 : s ≤ 31) : vshl1 v (-s) = v / 2 ^ s.toNat := by
  unfold vshl1
  simp only
  rw [show (-s + 128) % 256 - 128 = -s by omega]
  split
  · have : s = 0 := by omega
    subst this; simp
  · rw [Int.neg_neg, show min s 31 = s by omega]

theorem shiftNeonGroup_eq {src : Nat → Int} {shift mx : Int} {x : Nat} (hm : 0 ≤ mx ∧ mx ≤ 2147483647) (hs : 0 ≤ shift ∧ shift ≤ 31)
    (hf : mx / 2 ^ shift.toNat ≤ 255) (hr : ∀ i, x ≤ i → i < x + 8 → i32 (src i)) :
    shiftNeonGroup src shift mx x = (List.range' x 8).flatMap (shiftAt src shift mx) := by
  have hm' : i32 mx := by unfold i32; omega
  unfold shiftNeonGroup shift4 load32
  rw [clamp0_of hm' (by simp) (mem_load fun i h1 h2 => hr i (by omega) (by omega)), clamp0_of hm' (by simp) (mem_load fun i h1 h2 => hr i (by omega) (by omega)),
    vshl_of (by simp), vshl_of (by simp), narrow8_of, ← List.map_append, ← List.map_append, range_split, List.map_map, List.map_map, List.map_map,
    List.map_eq_flatMap]
  refine flatMap_group fun i hi => ?_
  have := List.mem_range'_1.1 hi
  have h := clamp0_i32 hm' (hr i (by omega) (by omega))
  have f := shift_fits (v := src i) (shift := shift) hm.1 hf
  simp only [Function.comp, wrap32_of h]
  rw [wrap32_of (v := -shift) (by unfold i32; omega), vshl1_right hs.1 hs.2]
  unfold shiftAt
  have e : (if 0 < shift then clamp0 mx (src i) / 2 ^ shift.toNat else clamp0 mx (src i)) = clamp0 mx (src i) / 2 ^ shift.toNat := by
    split
    · rfl
    · have : shift = 0 := by omega
      subst this; simp
  simp only [e, List.cons.injEq, and_true]
  rw [byte_of_lt f.1 (by omega)]
  generalize clamp0 mx (src i) / 2 ^ shift.toNat = y at f ⊢
  rw [wrap32_of (by unfold i32; omega)]
  unfold satU8 wrap16 sat16; omega

/-- Groups of 16 and of 8 and single samples. -/
theorem run_three {width b : Nat} {body16 body8 tail : Mem → Nat → Mem} {g : Nat → List Nat} (hb : ∀ i, (g i).length = b) (m : Mem)
    (h16 : ∀ m j, j + 16 ≤ width → body16 m j = store m (j * b) ((List.range' j 16).flatMap g))
    (h8 : ∀ m j, j + 8 ≤ width → body8 m j = store m (j * b) ((List.range' j 8).flatMap g))
    (ht : ∀ m j, j < width → tail m j = store m (j * b) (g j)) :
    (let r := run 16 width body16 m 0
     let r := run 8 width body8 r.1 r.2
     (run 1 width tail r.1 r.2).1) = store m 0 ((List.range width).flatMap g) := by
  simp only
  have h := Nat.div_mul_le_self width 16
  rw [run_store0 (by decide) hb m fun m j _ h => h16 m j h, run_store (by decide) hb m _ h fun m j _ _ h => h8 m j h,
    run_one hb m _ (by have := Nat.div_mul_le_self (width - width / 16 * 16) 8; omega) fun m j _ h => ht m j h]

/-- **C78** `shift_i32_plane_to_u8` with NEON leaves the same memory as the scalar reference, under the same conditions. -/
theorem C78_shift_neon (m : Mem) (src : Nat → Int) (width : Nat) (shift mx : Int) (hm : 0 ≤ mx ∧ mx ≤ 2147483647) (hs : 0 ≤ shift ∧ shift ≤ 31)
    (hf : mx / 2 ^ shift.toNat ≤ 255) (hr : ∀ i, i < width → i32 (src i)) :
    shiftNeon m src width shift mx = shiftScalar m src width shift mx := by
  rw [shiftScalar_eq]
  unfold shiftNeon
  refine run_three (b := 1) (fun _ => rfl) m (fun m j h => ?_) (fun m j h => ?_) fun m j h => by rw [Nat.mul_one]
  · rw [shiftNeonGroup_eq hm hs hf fun i h1 h2 => hr i (by omega), shiftNeonGroup_eq hm hs hf fun i h1 h2 => hr i (by omega), ← List.flatMap_append,
      List.range'_append_1, Nat.mul_one]
  · rw [shiftNeonGroup_eq hm hs hf fun i h1 h2 => hr i (by omega), Nat.mul_one]

/-- **C78** Below 8 bits NEON shifts to the left: 9 of 4 bits becomes 144; so the three builds show three different pictures. -/
theorem C78_shift_neon_small (m : Mem) : shiftNeon m (fun _ => 9) 8 (4 - 8) (2 ^ 4 - 1) = store m 0 (List.replicate 8 144) := by
  unfold shiftNeon
  have e : shiftNeonGroup (fun _ => 9) (4 - 8) (2 ^ 4 - 1) 0 = List.replicate 8 144 := by decide +kernel
  simp only
  rw [run.eq_1 16, if_neg (by decide), run.eq_1 8, if_pos (by simp), run.eq_1 8, if_neg (by simp), run.eq_1 1, if_neg (by simp)]
  rw [← e]

theorem clampScalar_eq (m : Mem) (src : Nat → Int) (width : Nat) (mx : Int) :
    clampScalar m src width mx = store m 0 ((List.range width).flatMap (clampAt src mx)) := by
  unfold clampScalar
  exact run_one0 (b := 2) (fun _ => rfl) m fun _ _ _ => rfl

theorem satU16_clamp {mx v : Int} (h0 : 0 ≤ mx) (h1 : mx ≤ 65535) : satU16 (wrap32 (clamp0 mx v)) = clamp0 mx v := by
  have r := clamp0_range (v := v) h0
  rw [wrap32_of (by unfold i32; omega)]
  unfold satU16; omega

/-- **C78** `clamp_i32_plane_to_u16` with AVX2 and with NEON leaves the same memory as the scalar reference, if the largest value fits into 16 bits. -/
theorem C78_clamp (m : Mem) (src : Nat → Int) (width : Nat) (mx : Int) (h0 : 0 ≤ mx) (h1 : mx ≤ 65535) (hr : ∀ i, i < width → i32 (src i)) :
    clampAvx2 m src width mx = clampScalar m src width mx ∧ clampNeon m src width mx = clampScalar m src width mx := by
  have hm : i32 mx := by unfold i32; omega
  rw [clampScalar_eq]
  constructor
  · unfold clampAvx2
    refine run_two (k := 8) (b := 2) (by decide) (fun _ => rfl) m (fun m j _ h => congrArg (store m (j * 2)) ?_) fun _ _ _ _ => rfl
    unfold clampAvx2Group load32
    simp only
    rw [clamp0_of hm (by simp) (mem_load fun i a b => hr i (by omega)), merge_of (by simp), range_one]
    unfold of16
    rw [List.map_map, List.map_map, List.flatMap_map]
    refine flatMap_group fun i _ => ?_
    simp only [Function.comp, satU16_clamp h0 h1]
    rfl
  · have g8 : ∀ x, x + 8 ≤ width → clampNeonGroup src mx x = (List.range' x 8).flatMap (clampAt src mx) := fun x hx => by
      unfold clampNeonGroup load32 vqmovun32
      simp only
      rw [clamp0_of hm (by simp) (mem_load fun i a b => hr i (by omega)), clamp0_of hm (by simp) (mem_load fun i a b => hr i (by omega)),
        w32_of32, w32_of32, ← of16_append, ← List.map_append, ← List.map_append, ← List.map_append, range_split]
      unfold of16
      rw [List.map_map, List.map_map, List.map_map, List.flatMap_map]
      refine flatMap_group fun i _ => ?_
      simp only [Function.comp, satU16_clamp h0 h1]
      rfl
    unfold clampNeon
    refine run_three (b := 2) (fun _ => rfl) m (fun m j h => ?_) (fun m j h => by rw [g8 j h]) fun m j h => rfl
    rw [g8 j (by omega), g8 (j + 8) (by omega), store_append' (by rw [flatMap_length _ _ 2 fun _ => rfl, List.length_range']; omega), ← List.flatMap_append,
      List.range'_append_1]

end Verif.Simd
