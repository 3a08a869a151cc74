import Verif.Simd.PropsPack
/-
**C78** for the kernels of main_dec.cpp for PPM files.
-/
namespace Verif.Simd
open Verif.Img (byte)

theorem pow_le8 {d : Nat} (h : d ≤ 8) : (2 : Int) ^ d ≤ 256 := by
  have : ∀ d : Fin 9, (2 : Int) ^ d.1 ≤ 256 := by decide
  exact this ⟨d, by omega⟩

theorem pow_le16 {d : Nat} (h : d ≤ 16) : (2 : Int) ^ d ≤ 65536 := by
  have : ∀ d : Fin 17, (2 : Int) ^ d.1 ≤ 65536 := by decide
  exact this ⟨d, by omega⟩

theorem pow_ge1 (d : Nat) : (1 : Int) ≤ 2 ^ d := by
  have := Int.pow_pos (n := 2) (m := d) (by decide); omega

/-- Clamped samples. -/
theorem clampMv_range {mv v : Int} (h : 0 ≤ mv) : 0 ≤ clampMv mv v ∧ clampMv mv v ≤ mv := by
  unfold clampMv; split
  · omega
  · split <;> omega

/-- Clamping of four samples. -/
theorem clamp_of {mv : Int} (h0 : 0 ≤ mv) (h1 : mv ≤ 65535) {l : List Int} {k : Nat} (hk : l.length = k) (hl : ∀ v ∈ l, i32 v) :
    min32 (max32 (of32 l) (set1 k 0)) (set1 k mv) = of32 (l.map (clampMv mv)) := by
  unfold min32 max32
  rw [map2_set1' hk, map2_set1' (by simpa using hk), List.map_map]
  congr 1
  refine List.map_congr_left fun v hv => ?_
  have h2 := hl v hv
  rw [Function.comp, wrap32_of h2, wrap32_of (show i32 0 by decide), wrap32_of (v := mv) (by unfold i32; omega)]
  unfold i32 at h2
  rw [wrap32_of (by unfold i32; omega)]
  unfold clampMv
  split
  · omega
  · split <;> omega

/-- Three bytes put into a lane. -/
theorem or_lane {a b c : Int} (ha : 0 ≤ a ∧ a < 256) (hb : 0 ≤ b ∧ b < 256) (hc : 0 ≤ c ∧ c < 256) :
    or8 (or8 (b32 a) (b32 (wrap32 b * 2 ^ 8))) (b32 (wrap32 c * 2 ^ 16)) = [byte a, byte b, byte c, 0] := by
  rw [wrap32_of (v := b) (by unfold i32; omega), wrap32_of (v := c) (by unfold i32; omega)]
  have e1 : b32 a = [byte a, 0, 0, 0] := by
    have a2 : byte (a / 256) = 0 := by unfold byte; omega
    have a3 : byte (a / 65536) = 0 := by unfold byte; omega
    have a4 : byte (a / 16777216) = 0 := by unfold byte; omega
    unfold b32
    rw [a2, a3, a4]
  have e2 : b32 (b * 2 ^ 8) = [0, byte b, 0, 0] := by
    rw [show (2 : Int) ^ 8 = 256 by rfl]
    have a1 : byte (b * 256) = 0 := by unfold byte; omega
    have a2 : b * 256 / 256 = b := by omega
    have a3 : byte (b * 256 / 65536) = 0 := by unfold byte; omega
    have a4 : byte (b * 256 / 16777216) = 0 := by unfold byte; omega
    unfold b32
    rw [a1, a2, a3, a4]
  have e3 : b32 (c * 2 ^ 16) = [0, 0, byte c, 0] := by
    rw [show (2 : Int) ^ 16 = 65536 by rfl]
    have a1 : byte (c * 65536) = 0 := by unfold byte; omega
    have a2 : byte (c * 65536 / 256) = 0 := by unfold byte; omega
    have a3 : c * 65536 / 65536 = c := by omega
    have a4 : byte (c * 65536 / 16777216) = 0 := by unfold byte; omega
    unfold b32
    rw [a1, a2, a3, a4]
  rw [e1, e2, e3]
  simp [or8]

theorem or8_append {a b c d : Reg} (h : a.length = c.length) : or8 (a ++ b) (c ++ d) = or8 a c ++ or8 b d := by
  unfold or8; exact List.zipWith_append h

theorem slli_of (l : List Int) (k : Nat) : slli32 (of32 l) k = of32 (l.map fun v => wrap32 v * 2 ^ k) := by
  unfold slli32; rw [w32_of32, List.map_map]; rfl

theorem list4 {α : Type} (f : Nat → α) (p : Nat) : ((List.range 4).map fun i => f (p + i)) = [f p, f (p + 1), f (p + 2), f (p + 3)] := rfl

theorem rgb4_eq {s0 s1 s2 : Nat → Int} {mv : Int} {p : Nat} (h0 : 0 ≤ mv) (h1 : mv ≤ 255)
    (hs : ∀ i, p ≤ i → i < p + 4 → i32 (s0 i) ∧ i32 (s1 i) ∧ i32 (s2 i)) :
    rgb4 s0 s1 s2 (set1 4 mv) p = rgb8At mv s0 s1 s2 p ++ rgb8At mv s0 s1 s2 (p + 1) ++ rgb8At mv s0 s1 s2 (p + 2) ++ rgb8At mv s0 s1 s2 (p + 3)
      ++ [0, 0, 0, 0] := by
  have a0 := hs p (by omega) (by omega); have a1 := hs (p + 1) (by omega) (by omega)
  have a2 := hs (p + 2) (by omega) (by omega); have a3 := hs (p + 3) (by omega) (by omega)
  unfold rgb4 load32
  simp only
  rw [list4, list4, list4, clamp_of h0 (by omega) (by rfl) (by simp [a0, a1, a2, a3]), clamp_of h0 (by omega) (by rfl) (by simp [a0, a1, a2, a3]),
    clamp_of h0 (by omega) (by rfl) (by simp [a0, a1, a2, a3]), slli_of, slli_of]
  have L : ∀ i, or8 (or8 (b32 (clampMv mv (s0 i))) (b32 (wrap32 (clampMv mv (s1 i)) * 2 ^ 8))) (b32 (wrap32 (clampMv mv (s2 i)) * 2 ^ 16))
      = [byte (clampMv mv (s0 i)), byte (clampMv mv (s1 i)), byte (clampMv mv (s2 i)), 0] := fun i => by
    have := clampMv_range (v := s0 i) h0; have := clampMv_range (v := s1 i) h0; have := clampMv_range (v := s2 i) h0
    exact or_lane (by omega) (by omega) (by omega)
  have e : or8 (or8 (of32 ([s0 p, s0 (p + 1), s0 (p + 2), s0 (p + 3)].map (clampMv mv)))
        (of32 (([s1 p, s1 (p + 1), s1 (p + 2), s1 (p + 3)].map (clampMv mv)).map fun v => wrap32 v * 2 ^ 8)))
        (of32 (([s2 p, s2 (p + 1), s2 (p + 2), s2 (p + 3)].map (clampMv mv)).map fun v => wrap32 v * 2 ^ 16))
      = [p, p + 1, p + 2, p + 3].flatMap fun i => [byte (clampMv mv (s0 i)), byte (clampMv mv (s1 i)), byte (clampMv mv (s2 i)), 0] := by
    simp only [of32, List.map_cons, List.map_nil, List.flatMap_cons, List.flatMap_nil]
    rw [or8_append (by rfl), or8_append (by rfl), or8_append (by rfl), or8_append (by rfl), or8_append (by rfl), or8_append (by rfl),
      or8_append (by rfl), or8_append (by rfl), L, L, L, L]
    rfl
  rw [e]
  rfl

/-- 48 bytes of 16 pixels in three stores. -/
theorem ppm8SseStore_eq {m : Mem} {s0 s1 s2 : Nat → Int} {depth n : Nat} (hd : depth ≤ 8)
    (hs : ∀ i, n ≤ i → i < n + 16 → i32 (s0 i) ∧ i32 (s1 i) ∧ i32 (s2 i)) :
    ppm8SseStore m s0 s1 s2 depth n = store m (n * 3) ((List.range' n 16).flatMap (rgb8At (2 ^ depth - 1) s0 s1 s2)) := by
  have p1 := pow_le8 hd; have p2 := pow_ge1 depth
  unfold ppm8SseStore
  simp only
  rw [rgb4_eq (by omega) (by omega) fun i h1 h2 => hs i (by omega) (by omega), rgb4_eq (by omega) (by omega) fun i h1 h2 => hs i (by omega) (by omega),
    rgb4_eq (by omega) (by omega) fun i h1 h2 => hs i (by omega) (by omega), rgb4_eq (by omega) (by omega) fun i h1 h2 => hs i (by omega) (by omega)]
  simp only [rgb8At, List.cons_append, List.nil_append, bslli, bsrli, or8, List.replicate, List.take_succ_cons, List.drop_succ_cons, List.drop_zero,
    List.zipWith_cons_cons, List.zipWith_nil_left, Nat.or_zero, Nat.zero_or, List.take_zero]
  rw [store_append' (by rfl), store_append' (by rfl)]
  rfl

/-- 24 bytes of 8 pixels. -/
theorem ppm8NeonGroup_eq {s0 s1 s2 : Nat → Int} {depth n : Nat} (hd : depth ≤ 8)
    (hs : ∀ i, n ≤ i → i < n + 8 → i32 (s0 i) ∧ i32 (s1 i) ∧ i32 (s2 i)) :
    ppm8NeonGroup s0 s1 s2 depth n = (List.range' n 8).flatMap (rgb8At (2 ^ depth - 1) s0 s1 s2) := by
  have p1 := pow_le8 hd; have p2 := pow_ge1 depth
  have c8 : ∀ s : Nat → Int, (∀ i, n ≤ i → i < n + 8 → i32 (s i)) →
      vqmovnU16 (vqmovun32 (min32 (max32 (load32 4 s n) (set1 4 0)) (set1 4 (2 ^ depth - 1))) ++
        vqmovun32 (min32 (max32 (load32 4 s (n + 4)) (set1 4 0)) (set1 4 (2 ^ depth - 1))))
      = (List.range' n 8).map fun i => byte (clampMv (2 ^ depth - 1) (s i)) := fun s h => by
    unfold load32
    rw [clamp_of (by omega) (by omega) (by simp) (by
        intro v hv; obtain ⟨i, hi, rfl⟩ := List.mem_map.1 hv; have := List.mem_range.1 hi; exact h _ (by omega) (by omega)),
      clamp_of (by omega) (by omega) (by simp) (by
        intro v hv; obtain ⟨i, hi, rfl⟩ := List.mem_map.1 hv; have := List.mem_range.1 hi; exact h _ (by omega) (by omega))]
    unfold vqmovun32
    rw [w32_of32, w32_of32, ← of16_append, ← List.map_append, ← List.map_append, ← List.map_append, range_split]
    unfold vqmovnU16
    rw [w16_of16, List.map_map, List.map_map, List.map_map, List.map_map, List.map_map]
    refine List.map_congr_left fun i _ => ?_
    have r := clampMv_range (mv := 2 ^ depth - 1) (v := s i) (by omega)
    simp only [Function.comp]
    rw [wrap32_of (by unfold i32; omega), byte_of_lt r.1 (by omega)]
    generalize clampMv (2 ^ depth - 1) (s i) = x at r ⊢
    unfold satU16 wrap16; omega
  unfold ppm8NeonGroup
  simp only
  rw [c8 s0 fun i h1 h2 => (hs i h1 h2).1, c8 s1 fun i h1 h2 => (hs i h1 h2).2.1, c8 s2 fun i h1 h2 => (hs i h1 h2).2.2]
  rfl

/-- **C78** `ppm_interleave_8` with SSE4.1 leaves the same memory as without, for all rows of 32-bit numbers, all widths and all depths up to 8. -/
theorem C78_ppm8_sse (m : Mem) (s0 s1 s2 : Nat → Int) (width depth : Nat) (hd : depth ≤ 8)
    (hs : ∀ i, i < width → i32 (s0 i) ∧ i32 (s1 i) ∧ i32 (s2 i)) :
    ppm8Sse m s0 s1 s2 width depth = ppm8 m s0 s1 s2 width depth := by
  unfold ppm8Sse ppm8
  rw [run_one0 (b := 3) (g := rgb8At (2 ^ depth - 1) s0 s1 s2) (fun _ => rfl) m fun _ _ _ => rfl]
  exact run_two (k := 16) (b := 3) (by decide) (fun _ => rfl) m (fun m j _ h => ppm8SseStore_eq hd fun i h1 h2 => hs i (by omega)) fun _ _ _ _ => rfl

/-- **C78** `ppm_interleave_8` with NEON leaves the same memory as without. -/
theorem C78_ppm8_neon (m : Mem) (s0 s1 s2 : Nat → Int) (width depth : Nat) (hd : depth ≤ 8)
    (hs : ∀ i, i < width → i32 (s0 i) ∧ i32 (s1 i) ∧ i32 (s2 i)) :
    ppm8Neon m s0 s1 s2 width depth = ppm8 m s0 s1 s2 width depth := by
  unfold ppm8Neon ppm8
  rw [run_one0 (b := 3) (g := rgb8At (2 ^ depth - 1) s0 s1 s2) (fun _ => rfl) m fun _ _ _ => rfl]
  exact run_two (k := 8) (b := 3) (by decide) (fun _ => rfl) m
    (fun m j _ h => by rw [ppm8NeonGroup_eq hd fun i h1 h2 => hs i (by omega)]) fun _ _ _ _ => rfl

/-! ### Two bytes per sample -/

/-- The two bytes of a number of 16 bits, exchanged. -/
theorem swap16_eq {v : Int} (h0 : 0 ≤ v) (h1 : v < 65536) : swap16 v = [byte (v / 256), byte v] := by
  obtain ⟨n, rfl⟩ := Int.eq_ofNat_of_zero_le h0
  have hn : n < 65536 := by omega
  have e : n / 256 ||| n * 256 = n / 256 + n * 256 := by
    have := Nat.two_pow_add_eq_or_of_lt (i := 8) (b := n / 256) (by omega) n
    rw [show (2 : Nat) ^ 8 = 256 by rfl, Nat.mul_comm] at this
    rw [Nat.or_comm, ← this, Nat.add_comm]
  unfold swap16
  have e2 : n / 256 + n * 256 = 65536 * (n / 256) + (256 * (n % 256) + n / 256) := by omega
  simp only [Int.toNat_natCast]
  have e3 : (65536 * (n / 256) + (256 * (n % 256) + n / 256)) % 65536 = 256 * (n % 256) + n / 256 := by
    rw [Nat.mul_add_mod]; exact Nat.mod_eq_of_lt (by omega)
  rw [e, e2, e3]
  have b1 : byte ((n : Int) / 256) = n / 256 := by unfold byte; omega
  have b2 : byte (n : Int) = n % 256 := by unfold byte; omega
  rw [b1, b2, show (256 * (n % 256) + n / 256) % 256 = n / 256 by omega, show (256 * (n % 256) + n / 256) / 256 = n % 256 by omega]

/-- Two numbers of 16 bits put into a lane. -/
theorem or_lane16 {a b : Int} (ha : 0 ≤ a ∧ a < 65536) (hb : 0 ≤ b ∧ b < 65536) :
    or8 (b32 a) (b32 (wrap32 b * 2 ^ 16)) = [byte a, byte (a / 256), byte b, byte (b / 256)] := by
  rw [wrap32_of (v := b) (by unfold i32; omega)]
  have e1 : b32 a = [byte a, byte (a / 256), 0, 0] := by
    have a3 : byte (a / 65536) = 0 := by unfold byte; omega
    have a4 : byte (a / 16777216) = 0 := by unfold byte; omega
    unfold b32
    rw [a3, a4]
  have e2 : b32 (b * 2 ^ 16) = [0, 0, byte b, byte (b / 256)] := by
    rw [show (2 : Int) ^ 16 = 65536 by rfl]
    have a1 : byte (b * 65536) = 0 := by unfold byte; omega
    have a2 : byte (b * 65536 / 256) = 0 := by unfold byte; omega
    have a3 : b * 65536 / 65536 = b := by omega
    have a4 : b * 65536 / 16777216 = b / 256 := by omega
    unfold b32
    rw [a1, a2, a3, a4]
  rw [e1, e2]
  simp [or8]

theorem pair16_eq {s t : Nat → Int} {mv : Int} {p q : Nat} (h0 : 0 ≤ mv) (h1 : mv ≤ 65535)
    (hs : ∀ i, p ≤ i → i < p + 4 → i32 (s i)) (ht : ∀ i, q ≤ i → i < q + 4 → i32 (t i)) :
    or8 (min32 (max32 (load32 4 s p) (set1 4 0)) (set1 4 mv)) (slli32 (min32 (max32 (load32 4 t q) (set1 4 0)) (set1 4 mv)) 16)
      = [0, 1, 2, 3].flatMap fun i => [byte (clampMv mv (s (p + i))), byte (clampMv mv (s (p + i)) / 256),
          byte (clampMv mv (t (q + i))), byte (clampMv mv (t (q + i)) / 256)] := by
  unfold load32
  rw [clamp_of h0 h1 (by simp) (by
      intro v hv; obtain ⟨i, hi, rfl⟩ := List.mem_map.1 hv; have := List.mem_range.1 hi; exact hs _ (by omega) (by omega)),
    clamp_of h0 h1 (by simp) (by
      intro v hv; obtain ⟨i, hi, rfl⟩ := List.mem_map.1 hv; have := List.mem_range.1 hi; exact ht _ (by omega) (by omega)), slli_of]
  have L : ∀ i j, or8 (b32 (clampMv mv (s i))) (b32 (wrap32 (clampMv mv (t j)) * 2 ^ 16))
      = [byte (clampMv mv (s i)), byte (clampMv mv (s i) / 256), byte (clampMv mv (t j)), byte (clampMv mv (t j) / 256)] := fun i j => by
    have := clampMv_range (v := s i) h0; have := clampMv_range (v := t j) h0
    exact or_lane16 (by omega) (by omega)
  rw [show List.range 4 = [0, 1, 2, 3] by rfl]
  simp only [of32, List.map_cons, List.map_nil, List.flatMap_cons, List.flatMap_nil]
  rw [or8_append (by rfl), or8_append (by rfl), or8_append (by rfl), or8_append (by rfl), L, L, L, L]
  rfl

/-- 48 bytes of 8 pixels in three stores. -/
theorem ppm16SseStore_eq {m : Mem} {s0 s1 s2 : Nat → Int} {depth n : Nat} (hd : depth ≤ 16)
    (hs : ∀ i, n ≤ i → i < n + 8 → i32 (s0 i) ∧ i32 (s1 i) ∧ i32 (s2 i)) :
    ppm16SseStore m s0 s1 s2 depth n = store m (n * 6) ((List.range' n 8).flatMap (rgb16At (2 ^ depth - 1) s0 s1 s2)) := by
  have p1 := pow_le16 hd; have p2 := pow_ge1 depth
  unfold ppm16SseStore
  simp only
  rw [pair16_eq (by omega) (by omega) (fun i h1 h2 => (hs i (by omega) (by omega)).1) fun i h1 h2 => (hs i (by omega) (by omega)).2.1,
    pair16_eq (by omega) (by omega) (fun i h1 h2 => (hs i (by omega) (by omega)).2.2) fun i h1 h2 => (hs i (by omega) (by omega)).1,
    pair16_eq (by omega) (by omega) (fun i h1 h2 => (hs i (by omega) (by omega)).2.1) fun i h1 h2 => (hs i (by omega) (by omega)).2.2]
  have e : ∀ i, rgb16At (2 ^ depth - 1) s0 s1 s2 i =
      [byte (clampMv (2 ^ depth - 1) (s0 i) / 256), byte (clampMv (2 ^ depth - 1) (s0 i)), byte (clampMv (2 ^ depth - 1) (s1 i) / 256),
        byte (clampMv (2 ^ depth - 1) (s1 i)), byte (clampMv (2 ^ depth - 1) (s2 i) / 256), byte (clampMv (2 ^ depth - 1) (s2 i))] := fun i => by
    have r0 := clampMv_range (mv := 2 ^ depth - 1) (v := s0 i) (by omega)
    have r1 := clampMv_range (mv := 2 ^ depth - 1) (v := s1 i) (by omega)
    have r2 := clampMv_range (mv := 2 ^ depth - 1) (v := s2 i) (by omega)
    unfold rgb16At
    rw [swap16_eq r0.1 (by omega), swap16_eq r1.1 (by omega), swap16_eq r2.1 (by omega)]
    rfl
  rw [show rgb16At (2 ^ depth - 1) s0 s1 s2 = _ from funext e]
  have k0 : m16 0 = [1, 0, 3, 2, 255, 255, 5, 4, 7, 6, 255, 255, 9, 8, 11, 10] := by decide
  have k1 : m16 1 = [255, 255, 255, 255, 1, 0, 255, 255, 255, 255, 5, 4, 255, 255, 255, 255] := by decide
  have k2 : m16 2 = [255, 255, 13, 12, 15, 14, 255, 255, 255, 255, 255, 255, 255, 255, 255, 255] := by decide
  have k3 : m16 3 = [9, 8, 255, 255, 255, 255, 13, 12, 3, 2, 255, 255, 255, 255, 7, 6] := by decide
  have k4 : m16 4 = [255, 255, 255, 255, 255, 255, 255, 255, 255, 255, 1, 0, 3, 2, 255, 255] := by decide
  have k5 : m16 5 = [255, 255, 255, 255, 11, 10, 255, 255, 255, 255, 15, 14, 255, 255, 255, 255] := by decide
  have k6 : m16 6 = [5, 4, 7, 6, 255, 255, 9, 8, 11, 10, 255, 255, 13, 12, 15, 14] := by decide
  rw [k0, k1, k2, k3, k4, k5, k6]
  simp only [List.flatMap_cons, List.flatMap_nil, List.cons_append, List.nil_append, shuffle8, or8, List.map_cons, List.map_nil, List.zipWith_cons_cons,
    List.zipWith_nil_left]
  simp only [List.getD, Nat.reduceLeDiff, if_true, if_false, Nat.reduceMod]
  simp
  rw [store_append' (by rfl), store_append' (by rfl)]
  rfl

/-- Both bytes of a clamped sample. -/
theorem rgb16At_eq {depth : Nat} (hd : depth ≤ 16) (s0 s1 s2 : Nat → Int) (i : Nat) : rgb16At (2 ^ depth - 1) s0 s1 s2 i =
      [byte (clampMv (2 ^ depth - 1) (s0 i) / 256), byte (clampMv (2 ^ depth - 1) (s0 i)), byte (clampMv (2 ^ depth - 1) (s1 i) / 256),
        byte (clampMv (2 ^ depth - 1) (s1 i)), byte (clampMv (2 ^ depth - 1) (s2 i) / 256), byte (clampMv (2 ^ depth - 1) (s2 i))] := by
  have p1 := pow_le16 hd; have p2 := pow_ge1 depth
  have r0 := clampMv_range (mv := 2 ^ depth - 1) (v := s0 i) (by omega)
  have r1 := clampMv_range (mv := 2 ^ depth - 1) (v := s1 i) (by omega)
  have r2 := clampMv_range (mv := 2 ^ depth - 1) (v := s2 i) (by omega)
  unfold rgb16At
  rw [swap16_eq r0.1 (by omega), swap16_eq r1.1 (by omega), swap16_eq r2.1 (by omega)]
  rfl

/-- 24 bytes of 4 pixels. -/
theorem ppm16NeonGroup_eq {s0 s1 s2 : Nat → Int} {depth n : Nat} (hd : depth ≤ 16)
    (hs : ∀ i, n ≤ i → i < n + 4 → i32 (s0 i) ∧ i32 (s1 i) ∧ i32 (s2 i)) :
    ppm16NeonGroup s0 s1 s2 depth n = (List.range' n 4).flatMap (rgb16At (2 ^ depth - 1) s0 s1 s2) := by
  have p1 := pow_le16 hd; have p2 := pow_ge1 depth
  have c : ∀ s : Nat → Int, (∀ i, n ≤ i → i < n + 4 → i32 (s i)) →
      vrev16 (vqmovun32 (min32 (max32 (load32 4 s n) (set1 4 0)) (set1 4 (2 ^ depth - 1))))
      = [n, n + 1, n + 2, n + 3].flatMap fun i => [byte (clampMv (2 ^ depth - 1) (s i) / 256), byte (clampMv (2 ^ depth - 1) (s i))] := fun s h => by
    unfold load32
    rw [clamp_of (by omega) (by omega) (by simp) (by
        intro v hv; obtain ⟨i, hi, rfl⟩ := List.mem_map.1 hv; have := List.mem_range.1 hi; exact h _ (by omega) (by omega))]
    unfold vqmovun32
    rw [w32_of32, vrev_of16, list4]
    have e : ∀ i, satU16 (wrap32 (clampMv (2 ^ depth - 1) (s i))) = clampMv (2 ^ depth - 1) (s i) := fun i => by
      have r := clampMv_range (mv := 2 ^ depth - 1) (v := s i) (by omega)
      rw [wrap32_of (by unfold i32; omega)]
      unfold satU16; omega
    simp only [List.map_cons, List.map_nil, e]
    rfl
  unfold ppm16NeonGroup
  simp only
  rw [c s0 fun i h1 h2 => (hs i h1 h2).1, c s1 fun i h1 h2 => (hs i h1 h2).2.1, c s2 fun i h1 h2 => (hs i h1 h2).2.2,
    show rgb16At (2 ^ depth - 1) s0 s1 s2 = _ from funext (rgb16At_eq hd s0 s1 s2)]
  rfl

/-- **C78** `ppm_interleave_16be` with SSE4.1 leaves the same memory as without, for all rows of 32-bit numbers, all widths and all depths up to 16. -/
theorem C78_ppm16_sse (m : Mem) (s0 s1 s2 : Nat → Int) (width depth : Nat) (hd : depth ≤ 16)
    (hs : ∀ i, i < width → i32 (s0 i) ∧ i32 (s1 i) ∧ i32 (s2 i)) :
    ppm16Sse m s0 s1 s2 width depth = ppm16 m s0 s1 s2 width depth := by
  unfold ppm16Sse ppm16
  rw [run_one0 (b := 6) (g := rgb16At (2 ^ depth - 1) s0 s1 s2) (fun _ => rfl) m fun _ _ _ => rfl]
  exact run_two (k := 8) (b := 6) (by decide) (fun _ => rfl) m (fun m j _ h => ppm16SseStore_eq hd fun i h1 h2 => hs i (by omega)) fun _ _ _ _ => rfl

/-- **C78** `ppm_interleave_16be` with NEON leaves the same memory as without. -/
theorem C78_ppm16_neon (m : Mem) (s0 s1 s2 : Nat → Int) (width depth : Nat) (hd : depth ≤ 16)
    (hs : ∀ i, i < width → i32 (s0 i) ∧ i32 (s1 i) ∧ i32 (s2 i)) :
    ppm16Neon m s0 s1 s2 width depth = ppm16 m s0 s1 s2 width depth := by
  unfold ppm16Neon ppm16
  rw [run_one0 (b := 6) (g := rgb16At (2 ^ depth - 1) s0 s1 s2) (fun _ => rfl) m fun _ _ _ => rfl]
  exact run_two (k := 4) (b := 6) (by decide) (fun _ => rfl) m
    (fun m j _ h => by rw [ppm16NeonGroup_eq hd fun i h1 h2 => hs i (by omega)]) fun _ _ _ _ => rfl

/-! ### The bytes of C76 -/

theorem mapM_some {α β : Type} (g : α → β) (f : α → Option β) (l : List α) (h : ∀ a ∈ l, f a = some (g a)) : l.mapM f = some (l.map g) := by
  induction l with
  | nil => rfl
  | cons a l ih => rw [List.mapM_cons, h a (by simp), ih fun b hb => h b (by simp [hb])]; rfl

/-- The kernels without vectors store the bytes of the row of a PPM file of C76, and nothing else. -/
theorem C78_ppm_bytes (m : Mem) (s0 s1 s2 : Nat → Int) (width depth : Nat) :
    (depth ≤ 8 → ∃ bytes, Img.ppmRow 1 depth width width width ((List.range width).map s0) ((List.range width).map s1) ((List.range width).map s2) = some bytes ∧
      ppm8 m s0 s1 s2 width depth = store m 0 bytes) ∧
    (depth ≤ 16 → ∃ bytes, Img.ppmRow 2 depth width width width ((List.range width).map s0) ((List.range width).map s1) ((List.range width).map s2) = some bytes ∧
      ppm16 m s0 s1 s2 width depth = store m 0 bytes) := by
  have cl : ∀ v, Img.clampPpm depth v = clampMv (2 ^ depth - 1) v := fun v => rfl
  have get : ∀ (s : Nat → Int) n, n ∈ List.range width → ((List.range width).map s)[n]? = some (s n) := fun s n hn => by
    have := List.mem_range.1 hn; simp [this]
  constructor
  · intro hd
    refine ⟨(List.range width).flatMap (rgb8At (2 ^ depth - 1) s0 s1 s2), ?_, ?_⟩
    · unfold Img.ppmRow
      rw [mapM_some (rgb8At (2 ^ depth - 1) s0 s1 s2) _ _ fun n hn => by
        rw [if_pos ⟨rfl, rfl⟩, get s0 n hn, get s1 n hn, get s2 n hn]; rfl]
      rfl
    · unfold ppm8
      rw [run_one0 (b := 3) (g := rgb8At (2 ^ depth - 1) s0 s1 s2) (fun _ => rfl) m fun _ _ _ => rfl]
  · intro hd
    refine ⟨(List.range width).flatMap (rgb16At (2 ^ depth - 1) s0 s1 s2), ?_, ?_⟩
    · unfold Img.ppmRow
      rw [mapM_some (rgb16At (2 ^ depth - 1) s0 s1 s2) _ _ fun n hn => by
        rw [if_pos ⟨rfl, rfl⟩, get s0 n hn, get s1 n hn, get s2 n hn, rgb16At_eq hd]; rfl]
      rfl
    · unfold ppm16
      rw [run_one0 (b := 6) (g := rgb16At (2 ^ depth - 1) s0 s1 s2) (fun _ => rfl) m fun _ _ _ => rfl]

/-- A row of 37 pixels of 16 bits, with samples out of range. -/
example (m : Mem) : ppm16Sse m (fun i => (i : Int) * 5000 - 300) (fun i => 70000 - (i : Int)) (fun i => i) 37 16 =
    ppm16 m (fun i => (i : Int) * 5000 - 300) (fun i => 70000 - (i : Int)) (fun i => i) 37 16 :=
  C78_ppm16_sse m _ _ _ 37 16 (by decide) fun i _ => by unfold i32; omega

end Verif.Simd
