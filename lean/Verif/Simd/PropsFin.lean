import Verif.Simd.PropsPlane
/-
**C78** for the kernels that end the inverse transform (finalize_narrow.hpp).
-/
namespace Verif.Simd
open Verif.Img (byte)

/-! ### The loop over single samples -/

/-- The sample where it is defined. -/
def finOr (F : FinP) (t : Int) : Int := (finSample F t).getD 0

theorem fin8Loop_def {F : FinP} {src : Nat → Int} {width : Nat} (m : Mem) : ∀ x, x ≤ width →
    (∀ i, x ≤ i → i < width → (finSample F (src i)).isSome) →
    fin8Loop F src width (store m 0 ((List.range x).flatMap fun i => fin8 F (finOr F (src i)))) x =
      some (store m 0 ((List.range width).flatMap fun i => fin8 F (finOr F (src i)))) := by
  intro x
  induction hd : width - x generalizing x with
  | zero =>
    intro hx _
    rw [fin8Loop, if_neg (by omega), show x = width by omega]
  | succ d ih =>
    intro hx h
    rw [fin8Loop, if_pos (by omega)]
    obtain ⟨v, hv⟩ := Option.isSome_iff_exists.1 (h x (by omega) (by omega))
    rw [hv, Option.bind_some, store_append' (by rw [flatMap_length _ _ 1 fun _ => rfl]; simp)]
    have := ih (x + 1) (by omega) (by omega) fun i h1 h2 => h i (by omega) h2
    rw [List.range_succ, List.flatMap_append] at this
    simpa [finOr, hv] using this

theorem fin8Loop_some {F : FinP} {src : Nat → Int} {width : Nat} : ∀ (m m' : Mem) x, fin8Loop F src width m x = some m' →
    ∀ i, x ≤ i → i < width → (finSample F (src i)).isSome := by
  intro m m' x
  induction hd : width - x generalizing x m with
  | zero => intro _ i h1 h2; omega
  | succ d ih =>
    intro h i h1 h2
    rw [fin8Loop, if_pos (by omega)] at h
    cases hv : finSample F (src x) with
    | none => rw [hv] at h; simp at h
    | some v =>
      rw [hv, Option.bind_some] at h
      by_cases e : i = x
      · subst e; rw [hv]; rfl
      · exact ih _ (x + 1) (by omega) h i (by omega) h2

theorem fin16Loop_def {F : FinP} {src : Nat → Int} {width : Nat} (m : Mem) : ∀ x, x ≤ width →
    (∀ i, x ≤ i → i < width → (finSample F (src i)).isSome) →
    fin16Loop F src width (store m 0 ((List.range x).flatMap fun i => fin16 (finOr F (src i)))) x =
      some (store m 0 ((List.range width).flatMap fun i => fin16 (finOr F (src i)))) := by
  intro x
  induction hd : width - x generalizing x with
  | zero =>
    intro hx _
    rw [fin16Loop, if_neg (by omega), show x = width by omega]
  | succ d ih =>
    intro hx h
    rw [fin16Loop, if_pos (by omega)]
    obtain ⟨v, hv⟩ := Option.isSome_iff_exists.1 (h x (by omega) (by omega))
    rw [hv, Option.bind_some, store_append' (by rw [flatMap_length _ _ 2 fun _ => rfl]; simp)]
    have := ih (x + 1) (by omega) (by omega) fun i h1 h2 => h i (by omega) h2
    rw [List.range_succ, List.flatMap_append] at this
    simpa [finOr, hv] using this

theorem fin16Loop_some {F : FinP} {src : Nat → Int} {width : Nat} : ∀ (m m' : Mem) x, fin16Loop F src width m x = some m' →
    ∀ i, x ≤ i → i < width → (finSample F (src i)).isSome := by
  intro m m' x
  induction hd : width - x generalizing x m with
  | zero => intro _ i h1 h2; omega
  | succ d ih =>
    intro h i h1 h2
    rw [fin16Loop, if_pos (by omega)] at h
    cases hv : finSample F (src x) with
    | none => rw [hv] at h; simp at h
    | some v =>
      rw [hv, Option.bind_some] at h
      by_cases e : i = x
      · subst e; rw [hv]; rfl
      · exact ih _ (x + 1) (by omega) h i (by omega) h2

/-! ### Lanes -/

/-- What the kernels are told makes sense: numbers of 32 bits, the bounds in order, shifts below 32, no rounding without a shift to the right. -/
structure FinP.Ok (F : FinP) : Prop where
  rnd : i32 F.rnd
  dc : i32 F.dc
  mx : i32 F.maxval
  mn : i32 F.minval
  order : F.minval ≤ F.maxval
  lo : -31 ≤ F.downshift
  hi : F.downshift ≤ 31
  noRnd : F.downshift ≤ 0 → F.rnd = 0

/-- What is known where the sample is defined. -/
theorem finSample_cases {F : FinP} {t v : Int} (h : finSample F t = some v) :
    i32 t ∧ ∃ u, u = (if F.downshift < 0 then (t + F.rnd) * 2 ^ (-F.downshift).toNat
        else if 0 < F.downshift then (t + F.rnd) / 2 ^ F.downshift.toNat else t) ∧
      (F.downshift ≠ 0 → i32 (t + F.rnd)) ∧ i32 u ∧ i32 (u + F.dc) ∧
      v = (if (if F.maxval < u + F.dc then F.maxval else u + F.dc) < F.minval then F.minval else if F.maxval < u + F.dc then F.maxval else u + F.dc) := by
  unfold finSample at h
  by_cases ht : i32 t
  · rw [if_neg (fun hn => hn ht)] at h
    simp only at h
    generalize hu : (if F.downshift < 0 then (t + F.rnd) * 2 ^ (-F.downshift).toNat
        else if 0 < F.downshift then (t + F.rnd) / 2 ^ F.downshift.toNat else t) = u at h ⊢
    by_cases hc : F.downshift ≠ 0 ∧ ¬ i32 (t + F.rnd) ∨ ¬ i32 u ∨ ¬ i32 (u + F.dc)
    · rw [if_pos hc] at h; cases h
    · rw [if_neg hc] at h
      refine ⟨ht, u, rfl, ?_, ?_, ?_, ?_⟩
      · intro hd; exact Classical.byContradiction fun hn => hc (.inl ⟨hd, hn⟩)
      · exact Classical.byContradiction fun hn => hc (.inr (.inl hn))
      · exact Classical.byContradiction fun hn => hc (.inr (.inr hn))
      · exact (Option.some.inj h).symm
  · rw [if_pos ht] at h; cases h

/-- A lane of the AVX2 code before the shift by the depth. -/
def avxLane (F : FinP) (t : Int) : Int :=
  let c := cvtt t
  let v := if 0 < F.downshift then wrap32 (wrap32 c + wrap32 F.rnd) / 2 ^ sraCount F.downshift else c
  min (wrap32 (max (wrap32 (wrap32 v + wrap32 F.dc)) (wrap32 F.minval))) (wrap32 F.maxval)

/-- Where the sample is defined, the lane holds it. -/
theorem avxLane_eq {F : FinP} (hF : F.Ok) (h0 : 0 ≤ F.downshift) {t v : Int} (h : finSample F t = some v) : avxLane F t = v := by
  obtain ⟨ht, u, hu, hr, hui, hud, hv⟩ := finSample_cases h
  have order := hF.order
  rw [if_neg (by omega)] at hu
  unfold avxLane cvtt
  simp only [if_pos ht]
  have e : (if 0 < F.downshift then wrap32 (wrap32 t + wrap32 F.rnd) / 2 ^ sraCount F.downshift else t) = u := by
    rw [hu]
    split
    · have := hF.hi
      rw [wrap32_of ht, wrap32_of hF.rnd, wrap32_of (hr (by omega)), sraCount, if_pos ⟨by omega, by omega⟩]
    · rfl
  rw [e, wrap32_of hui, wrap32_of hF.dc, wrap32_of hud, wrap32_of hF.mn, wrap32_of hF.mx]
  have hmn := hF.mn; have hmx := hF.mx
  unfold i32 at hmn hmx hud
  rw [wrap32_of (by unfold i32; omega), hv]
  split <;> split <;> omega

/-- A lane after the shift by the depth. -/
def avxDepth (F : FinP) (v : Int) : Int := if 0 < F.depthShift then wrap32 v / 2 ^ sraCount F.depthShift else v

theorem finAvx2Half_eq (F : FinP) (src : Nat → Int) (p : Nat) :
    finAvx2Half F src p = of32 ((List.range 8).map fun i => avxDepth F (avxLane F (src (p + i)))) := by
  unfold finAvx2Half load32 add32 max32 min32
  simp only
  by_cases h1 : 0 < F.downshift
  · by_cases h2 : 0 < F.depthShift
    · simp only [if_pos h1, if_pos h2]
      rw [map2_set1' (by simp), sra_of, map2_set1' (by simp), map2_set1' (by simp), map2_set1' (by simp), sra_of]
      simp [avxDepth, avxLane, h1, h2, Function.comp_def]
    · simp only [if_pos h1, if_neg h2]
      rw [map2_set1' (by simp), sra_of, map2_set1' (by simp), map2_set1' (by simp), map2_set1' (by simp)]
      simp [avxDepth, avxLane, h1, h2, Function.comp_def]
  · by_cases h2 : 0 < F.depthShift
    · simp only [if_neg h1, if_pos h2]
      rw [map2_set1' (by simp), map2_set1' (by simp), map2_set1' (by simp), sra_of]
      simp [avxDepth, avxLane, h1, h2, Function.comp_def]
    · simp only [if_neg h1, if_neg h2]
      rw [map2_set1' (by simp), map2_set1' (by simp), map2_set1' (by simp)]
      simp [avxDepth, avxLane, h1, h2, Function.comp_def]

/-- Sixteen lanes of 16 bits to bytes. -/
theorem pack16_of (l : List Int) : packus16 (lo128 (of16 l)) (hi128 (of16 l)) = l.map fun v => (satU8 (wrap16 v)).toNat := by
  unfold packus16 lo128 hi128
  have t := take_of16 (k := 8); have d := drop_of16 (k := 8)
  simp only [show 2 * 8 = 16 by rfl] at t d
  rw [t, d, w16_of16, w16_of16, ← List.map_append, List.take_append_drop, List.map_map]
  rfl

/-- A byte of a group as AVX2 leaves it. -/
def avxByte (F : FinP) (t : Int) : Nat := (satU8 (wrap16 (satU16 (wrap32 (avxDepth F (avxLane F t)))))).toNat

theorem fin8Avx2Group_eq (F : FinP) (src : Nat → Int) (x : Nat) :
    fin8Avx2Group F src x = (List.range' x 16).flatMap fun i => [avxByte F (src i)] := by
  unfold fin8Avx2Group
  simp only
  rw [finAvx2Half_eq, finAvx2Half_eq, packus32_of, pack_permute _ _ _ (by simp) (by simp), pack16_of,
    range_split (fun i => avxDepth F (avxLane F (src i))) x 8 8, List.map_map, List.map_map, ← List.map_eq_flatMap]
  rfl

/-- Bounds that fit into a byte after the shift by the depth. -/
def FinP.Fits (F : FinP) : Prop := 0 ≤ F.minval ∧ F.depthShift ≤ 31 ∧ F.maxval / 2 ^ F.depthShift.toNat ≤ 255

theorem fin_bounds {F : FinP} (hF : F.Ok) {t v : Int} (h : finSample F t = some v) : F.minval ≤ v ∧ v ≤ F.maxval := by
  obtain ⟨_, u, _, _, _, _, hv⟩ := finSample_cases h
  have := hF.order
  rw [hv]
  split <;> split <;> omega

theorem depth_bounds {F : FinP} (hf : F.Fits) {v : Int} (h : F.minval ≤ v ∧ v ≤ F.maxval) :
    0 ≤ v / 2 ^ F.depthShift.toNat ∧ v / 2 ^ F.depthShift.toNat ≤ 255 := by
  have hp := pow_ge1 F.depthShift.toNat
  have h0 := hf.1
  refine ⟨Int.ediv_nonneg (by omega) (by omega), ?_⟩
  have := Int.ediv_le_ediv (c := 2 ^ F.depthShift.toNat) (by omega) h.2
  have := hf.2.2
  omega

theorem fin8_eq {F : FinP} (hf : F.Fits) {v : Int} (h : F.minval ≤ v ∧ v ≤ F.maxval) : fin8 F v = [(v / 2 ^ F.depthShift.toNat).toNat] := by
  have b := depth_bounds hf h
  unfold fin8
  have e : (if 0 < F.depthShift then v / 2 ^ F.depthShift.toNat else v) = v / 2 ^ F.depthShift.toNat := by
    split
    · rfl
    · rw [show F.depthShift.toNat = 0 by omega]; simp
  rw [e, byte_of_lt b.1 (by omega)]

theorem avxByte_eq {F : FinP} (hF : F.Ok) (hf : F.Fits) (h0 : 0 ≤ F.downshift) {t v : Int} (h : finSample F t = some v) : [avxByte F t] = fin8 F v := by
  have bd := fin_bounds hF h
  have b := depth_bounds hf bd
  rw [fin8_eq hf bd]
  unfold avxByte
  rw [avxLane_eq hF h0 h]
  have e : avxDepth F v = v / 2 ^ F.depthShift.toNat := by
    unfold avxDepth
    split
    · have := hF.mn; have := hF.mx; have := hf.2.1
      rw [wrap32_of (by unfold i32 at *; omega), sraCount, if_pos ⟨by omega, by omega⟩]
    · rw [show F.depthShift.toNat = 0 by omega]; simp
  rw [e]
  generalize v / 2 ^ F.depthShift.toNat = y at b ⊢
  rw [wrap32_of (by unfold i32; omega)]
  simp only [List.cons.injEq, and_true]
  unfold satU8 satU16 wrap16; omega

/-- **C78** `finalize_f32_to_u8` with AVX2: where the scalar reference is defined and leaves a memory, the vector code leaves the same, if the bounds are not negative and fit into a
byte after the shift by the depth. -/
theorem C78_finalize_avx2 {F : FinP} (hF : F.Ok) (hf : F.Fits) {src : Nat → Int} {width : Nat} {m m' : Mem} (h : fin8Loop F src width m 0 = some m') :
    fin8Avx2 F src width m = some m' := by
  have hd := fin8Loop_some m m' 0 h
  have hs := fin8Loop_def (F := F) (src := src) (width := width) m 0 (Nat.zero_le _) hd
  simp only [List.range_zero, List.flatMap_nil, store_nil] at hs
  have em : m' = _ := Option.some.inj (h.symm.trans hs)
  unfold fin8Avx2
  by_cases h0 : 0 ≤ F.downshift
  · simp only [if_pos h0]
    rw [run_store0 (k := 16) (b := 1) (g := fun i => fin8 F (finOr F (src i))) (by decide) (fun _ => rfl) m fun m j _ hj => by
      rw [fin8Avx2Group_eq, Nat.mul_one]
      congr 1
      refine flatMap_group fun i hi => ?_
      have := List.mem_range'_1.1 hi
      obtain ⟨v, hv⟩ := Option.isSome_iff_exists.1 (hd i (by omega) (by omega))
      rw [avxByte_eq hF hf h0 hv, finOr, hv]; rfl]
    rw [fin8Loop_def m _ (Nat.div_mul_le_self _ _) fun i _ h2 => hd i (by omega) h2, em]
  · simp only [if_neg h0]
    exact h

/-! ### NEON -/

/-- A lane of the NEON code before the shift by the depth. -/
def neonLane (F : FinP) (t : Int) : Int :=
  let c := vcvt t
  let v := if 0 < F.downshift then vshl1 (wrap32 (wrap32 c + wrap32 F.rnd)) (wrap32 (-F.downshift))
    else if F.downshift < 0 then vshl1 (wrap32 c) (wrap32 (-F.downshift)) else c
  max (wrap32 (min (wrap32 (wrap32 v + wrap32 F.dc)) (wrap32 F.maxval))) (wrap32 F.minval)

theorem finNeon4_eq (F : FinP) (src : Nat → Int) (p : Nat) : finNeon4 F src p = of32 ((List.range 4).map fun i => neonLane F (src (p + i))) := by
  unfold finNeon4 load32 add32 max32 min32
  simp only
  by_cases h1 : 0 < F.downshift
  · simp only [if_pos h1]
    rw [map2_set1' (by simp), vshl_of (by simp), map2_set1' (by simp), map2_set1' (by simp), map2_set1' (by simp)]
    simp [neonLane, h1, Function.comp_def]
  · by_cases h2 : F.downshift < 0
    · simp only [if_neg h1, if_pos h2]
      rw [vshl_of (by simp), map2_set1' (by simp), map2_set1' (by simp), map2_set1' (by simp)]
      simp [neonLane, h1, h2, Function.comp_def]
    · simp only [if_neg h1, if_neg h2]
      rw [map2_set1' (by simp), map2_set1' (by simp), map2_set1' (by simp)]
      simp [neonLane, h1, h2, Function.comp_def]

/-- To the left. -/
theorem vshl1_left {v s : Int} (h0 : 0 ≤ s) (h1 : s ≤ 31) : vshl1 v s = v * 2 ^ s.toNat := by
  unfold vshl1
  simp only
  rw [show (s + 128) % 256 - 128 = s by omega, if_pos h0, if_pos (by omega)]

/-- Where the sample is defined, the lane holds it. -/
theorem neonLane_eq {F : FinP} (hF : F.Ok) {t v : Int} (h : finSample F t = some v) : neonLane F t = v := by
  obtain ⟨ht, u, hu, hr, hui, hud, hv⟩ := finSample_cases h
  have order := hF.order; have lo := hF.lo; have hi := hF.hi
  unfold neonLane vcvt
  simp only
  have ec : max (-2147483648) (min t 2147483647) = t := by unfold i32 at ht; omega
  rw [ec]
  have e : (if 0 < F.downshift then vshl1 (wrap32 (wrap32 t + wrap32 F.rnd)) (wrap32 (-F.downshift))
      else if F.downshift < 0 then vshl1 (wrap32 t) (wrap32 (-F.downshift)) else t) = u := by
    rw [hu, wrap32_of (v := -F.downshift) (by unfold i32; omega)]
    by_cases h1 : 0 < F.downshift
    · rw [if_pos h1, if_neg (show ¬ F.downshift < 0 by omega), if_pos h1, wrap32_of ht, wrap32_of hF.rnd, wrap32_of (hr (by omega)),
        vshl1_right (by omega) hi]
    · by_cases h2 : F.downshift < 0
      · rw [if_neg h1, if_pos h2, if_pos h2, wrap32_of ht, vshl1_left (by omega) (by omega), hF.noRnd (by omega)]
        simp
      · rw [if_neg h1, if_neg h2, if_neg h2, if_neg h1]
  rw [e, wrap32_of hui, wrap32_of hF.dc, wrap32_of hud, wrap32_of hF.mn, wrap32_of hF.mx]
  have hmn := hF.mn; have hmx := hF.mx
  unfold i32 at hmn hmx hud
  rw [wrap32_of (by unfold i32; omega), hv]
  split <;> split <;> omega

/-- A byte of a group as NEON leaves it. -/
def neonByte (F : FinP) (t : Int) : Nat :=
  (satU8 (wrap16 (sat16 (wrap32 (vshl1 (wrap32 (neonLane F t)) (wrap32 (-F.depthShift))))))).toNat

theorem fin8NeonGroup_eq (F : FinP) (src : Nat → Int) (x : Nat) : fin8NeonGroup F src x = (List.range' x 8).flatMap fun i => [neonByte F (src i)] := by
  unfold fin8NeonGroup
  simp only
  rw [finNeon4_eq, finNeon4_eq, vshl_of (by simp), vshl_of (by simp), narrow8_of, ← List.map_append,
    range_split (fun i => neonLane F (src i)) x 4 4, List.map_map, List.map_map, ← List.map_eq_flatMap]
  rfl

theorem neonByte_eq {F : FinP} (hF : F.Ok) (hf : F.Fits) (h0 : 0 ≤ F.depthShift) {t v : Int} (h : finSample F t = some v) : [neonByte F t] = fin8 F v := by
  have bd := fin_bounds hF h
  have b := depth_bounds hf bd
  rw [fin8_eq hf bd]
  unfold neonByte
  have := hF.mn; have := hF.mx; have := hf.2.1
  rw [neonLane_eq hF h, wrap32_of (v := v) (by unfold i32 at *; omega), wrap32_of (v := -F.depthShift) (by unfold i32; omega), vshl1_right h0 (by omega)]
  generalize v / 2 ^ F.depthShift.toNat = y at b ⊢
  rw [wrap32_of (by unfold i32; omega)]
  simp only [List.cons.injEq, and_true]
  unfold satU8 sat16 wrap16; omega

/-- **C78** `finalize_f32_to_u8` with NEON: the same, if the depth is at least 8. -/
theorem C78_finalize_neon {F : FinP} (hF : F.Ok) (hf : F.Fits) (h0 : 0 ≤ F.depthShift) {src : Nat → Int} {width : Nat} {m m' : Mem}
    (h : fin8Loop F src width m 0 = some m') : fin8Neon F src width m = some m' := by
  have hd := fin8Loop_some m m' 0 h
  have hs := fin8Loop_def (F := F) (src := src) (width := width) m 0 (Nat.zero_le _) hd
  simp only [List.range_zero, List.flatMap_nil, store_nil] at hs
  have em : m' = _ := Option.some.inj (h.symm.trans hs)
  have g8 : ∀ x, x + 8 ≤ width → fin8NeonGroup F src x = (List.range' x 8).flatMap fun i => fin8 F (finOr F (src i)) := fun x hx => by
    rw [fin8NeonGroup_eq]
    refine flatMap_group fun i hi => ?_
    have := List.mem_range'_1.1 hi
    obtain ⟨v, hv⟩ := Option.isSome_iff_exists.1 (hd i (by omega) (by omega))
    rw [neonByte_eq hF hf h0 hv, finOr, hv]; rfl
  unfold fin8Neon
  simp only
  have h16 := Nat.div_mul_le_self width 16
  rw [run_store0 (k := 16) (b := 1) (g := fun i => fin8 F (finOr F (src i))) (by decide) (fun _ => rfl) m fun m j _ hj => by
    rw [g8 j (by omega), g8 (j + 8) (by omega), ← List.flatMap_append, List.range'_append_1, Nat.mul_one]]
  by_cases h8 : width / 16 * 16 + 8 ≤ width
  · simp only [if_pos h8]
    rw [g8 _ h8, store_append' (by rw [flatMap_length _ _ 1 fun _ => rfl]; simp), ← List.flatMap_append, List.range_eq_range']
    have := List.range'_append_1 (s := 0) (m := width / 16 * 16) (n := 8)
    rw [Nat.zero_add] at this
    rw [this, ← List.range_eq_range', fin8Loop_def m _ h8 fun i _ h2 => hd i (by omega) h2, em]
  · simp only [if_neg h8]
    rw [fin8Loop_def m _ h16 fun i _ h2 => hd i (by omega) h2, em]

/-- **C78** `finalize_f32_to_u16` with NEON: the same as the scalar reference, if the bounds are numbers of 16 bits without sign. -/
theorem C78_finalize16_neon {F : FinP} (hF : F.Ok) (h0 : 0 ≤ F.minval) (h1 : F.maxval ≤ 65535) {src : Nat → Int} {width : Nat} {m m' : Mem}
    (h : fin16Loop F src width m 0 = some m') : fin16Neon F src width m = some m' := by
  have hd := fin16Loop_some m m' 0 h
  have hs := fin16Loop_def (F := F) (src := src) (width := width) m 0 (Nat.zero_le _) hd
  simp only [List.range_zero, List.flatMap_nil, store_nil] at hs
  have em : m' = _ := Option.some.inj (h.symm.trans hs)
  have g8 : ∀ x, x + 8 ≤ width → vqmovun32 (finNeon4 F src x) ++ vqmovun32 (finNeon4 F src (x + 4))
      = (List.range' x 8).flatMap fun i => fin16 (finOr F (src i)) := fun x hx => by
    unfold vqmovun32
    rw [finNeon4_eq, finNeon4_eq, w32_of32, w32_of32, ← of16_append, ← List.map_append, ← List.map_append,
      range_split (fun i => neonLane F (src i)) x 4 4, List.map_map, List.map_map]
    unfold of16
    rw [List.flatMap_map]
    refine flatMap_group fun i hi => ?_
    have := List.mem_range'_1.1 hi
    obtain ⟨v, hv⟩ := Option.isSome_iff_exists.1 (hd i (by omega) (by omega))
    have b := fin_bounds hF hv
    have e : satU16 (wrap32 v) = v := by rw [wrap32_of (by unfold i32; omega)]; unfold satU16; omega
    simp only [Function.comp, neonLane_eq hF hv, e, finOr, hv]
    rfl
  unfold fin16Neon
  simp only
  have h16 := Nat.div_mul_le_self width 16
  rw [run_store0 (k := 16) (b := 2) (g := fun i => fin16 (finOr F (src i))) (by decide) (fun _ => rfl) m fun m j _ hj => by
    rw [g8 j (by omega), g8 (j + 8) (by omega), store_append' (by rw [flatMap_length _ _ 2 fun _ => rfl, List.length_range']; omega),
      ← List.flatMap_append, List.range'_append_1]]
  rw [fin16Loop_def m _ h16 fun i _ h2 => hd i (by omega) h2, em]

/-! ### As the receiver calls them -/

/-- coding_units.cpp:6673-6681 and decode_helpers.cpp:464-488 (pipeline_multi_threaded.cpp:220-232): what the kernels are told for a component of `bd` bits; `FRACBITS` is 13. -/
def finOf (reversible signed : Bool) (bd : Nat) (use16 : Bool) : FinP :=
  let ds : Int := if reversible then 0 else 13 - bd
  { downshift := ds
    rnd := if ds ≤ 0 then 0 else 2 ^ (ds.toNat - 1)
    dc := if signed then 0 else 2 ^ (bd - 1)
    maxval := if signed then 2 ^ (bd - 1) - 1 else 2 ^ bd - 1
    minval := if signed then -2 ^ (bd - 1) else 0
    depthShift := if use16 then 0 else bd - 8 }

theorem finOf_ok (reversible signed use16 : Bool) {bd : Nat} (h1 : 1 ≤ bd) (h2 : bd ≤ 30) : (finOf reversible signed bd use16).Ok := by
  have : ∀ (b : Fin 31), 1 ≤ b.1 → ∀ r s u, i32 (finOf r s b.1 u).rnd ∧ i32 (finOf r s b.1 u).dc ∧ i32 (finOf r s b.1 u).maxval ∧ i32 (finOf r s b.1 u).minval ∧
      (finOf r s b.1 u).minval ≤ (finOf r s b.1 u).maxval ∧ -31 ≤ (finOf r s b.1 u).downshift ∧ (finOf r s b.1 u).downshift ≤ 31 ∧
      ((finOf r s b.1 u).downshift ≤ 0 → (finOf r s b.1 u).rnd = 0) := by decide +kernel
  obtain ⟨a, b, c, d, e, f, g, h⟩ := this ⟨bd, by omega⟩ h1 reversible signed use16
  exact ⟨a, b, c, d, e, f, g, h⟩

theorem finOf_fits (reversible : Bool) {bd : Nat} (h1 : 1 ≤ bd) (h2 : bd ≤ 30) : (finOf reversible false bd false).Fits := by
  have : ∀ (b : Fin 31), 1 ≤ b.1 → ∀ r, 0 ≤ (finOf r false b.1 false).minval ∧ (finOf r false b.1 false).depthShift ≤ 31 ∧
      (finOf r false b.1 false).maxval / 2 ^ (finOf r false b.1 false).depthShift.toNat ≤ 255 := by decide +kernel
  exact this ⟨bd, by omega⟩ h1 reversible

/-- **C78** For components without sign of 1 to 30 bits, reversible or not, AVX2 gives the planes of the scalar reference, and so does NEON from 8 bits on. -/
theorem C78_finalize_unsigned (reversible : Bool) {bd : Nat} (h1 : 1 ≤ bd) (h2 : bd ≤ 30) {src : Nat → Int} {width : Nat} {m m' : Mem}
    (h : fin8Loop (finOf reversible false bd false) src width m 0 = some m') :
    fin8Avx2 (finOf reversible false bd false) src width m = some m' ∧ (8 ≤ bd → fin8Neon (finOf reversible false bd false) src width m = some m') := by
  refine ⟨C78_finalize_avx2 (finOf_ok _ _ _ h1 h2) (finOf_fits _ h1 h2) h, fun h8 => C78_finalize_neon (finOf_ok _ _ _ h1 h2) (finOf_fits _ h1 h2) ?_ h⟩
  simp only [finOf, Bool.false_eq_true, if_false]
  omega

/-- A row of lossless 8-bit samples for which the scalar reference is defined. -/
example (m : Mem) : ∃ m', fin8Loop (finOf true false 8 false) (fun i => (i : Int) % 300 - 150) 50 m 0 = some m' := by
  have h := fin8Loop_def (F := finOf true false 8 false) (src := fun i => (i : Int) % 300 - 150) (width := 50) m 0 (by omega) fun i _ hi => by
    have : ∀ i : Fin 50, (finSample (finOf true false 8 false) ((i.1 : Int) % 300 - 150)).isSome := by decide +kernel
    exact this ⟨i, hi⟩
  simp only [List.range_zero, List.flatMap_nil, store_nil] at h
  exact ⟨_, h⟩

/-- **C78** For components with sign the AVX2 code makes 0 of negative samples in whole groups of 16, and the loop over the rest of the row wraps them: a lossless row of 17 samples of -1
of 8 bits becomes sixteen bytes of 0 and one of 255; the scalar reference gives 255 everywhere. -/
theorem C78_finalize_signed (m : Mem) :
    fin8Avx2 (finOf true true 8 false) (fun _ => -1) 17 m = some (store m 0 (List.replicate 16 0 ++ [255])) ∧
    fin8Loop (finOf true true 8 false) (fun _ => -1) 17 m 0 = some (store m 0 (List.replicate 17 255)) := by
  have hd : ∀ t : Nat, (finSample (finOf true true 8 false) ((fun _ => -1 : Nat → Int) t)).isSome := fun _ => (by decide +kernel : (finSample (finOf true true 8 false) (-1)).isSome = true)
  constructor
  · unfold fin8Avx2
    simp only
    rw [if_pos (by decide +kernel), run_store0 (k := 16) (b := 1) (g := fun _ => [avxByte (finOf true true 8 false) (-1)]) (by decide) (fun _ => rfl) m
      fun m j _ _ => by rw [fin8Avx2Group_eq, Nat.mul_one]]
    simp only
    rw [fin8Loop, if_pos (by decide), show finSample (finOf true true 8 false) (-1) = some (-1) by decide +kernel, Option.bind_some, fin8Loop, if_neg (by decide),
      store_append' (by rw [flatMap_length _ _ 1 fun _ => rfl]; simp)]
    exact congrArg (fun l => some (store m 0 l)) (by decide +kernel)
  · have h := fin8Loop_def (F := finOf true true 8 false) (src := fun _ => -1) (width := 17) m 0 (by omega) fun i _ _ => hd i
    simp only [List.range_zero, List.flatMap_nil, store_nil] at h
    rw [h]
    exact congrArg (fun l => some (store m 0 l)) (by decide +kernel)

/-- **C78** Below 8 bits the NEON code shifts the samples to the left: zero, which is mid grey of 4 bits without sign, becomes 128 in groups and 8 in the rest of the row. -/
theorem C78_finalize_neon_small (m : Mem) : fin8Neon (finOf true false 4 false) (fun _ => 0) 9 m = some (store m 0 (List.replicate 8 128 ++ [8])) := by
  unfold fin8Neon
  simp only
  have e : fin8NeonGroup (finOf true false 4 false) (fun _ => 0) 0 = List.replicate 8 128 := by decide +kernel
  have r : run 16 9 (fun m x => store m x (fin8NeonGroup (finOf true false 4 false) (fun _ => 0) x ++ fin8NeonGroup (finOf true false 4 false) (fun _ => 0) (x + 8))) m 0
      = (m, 0) := by rw [run, if_neg (by decide)]
  rw [r]
  simp only [show 0 + 8 ≤ 9 by decide, if_true]
  rw [e, fin8Loop, if_pos (by decide),
    show finSample (finOf true false 4 false) 0 = some 8 by decide +kernel, Option.bind_some, fin8Loop, if_neg (by decide), store_append' (by simp)]
  exact congrArg (fun l => some (store m 0 l)) (by decide +kernel)

end Verif.Simd
