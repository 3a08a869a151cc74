import Verif.Simd.LiftImageLemmas
import Verif.Dwt.PropsMachine

/-!
# C81 for whole images: the transform with the AVX2 kernels

`analyseLevelsV` and `synthesiseLevelsV` are the levels of the transform with the vector kernels, on memory of arbitrary contents (`Verif.Simd.LiftImage`);
`analyseLevels` is the transform in exact arithmetic, `synthesiseLevelsM toInt32` the scalar one on `int32_t` (`Verif.Dwt`).
-/

namespace Verif.Simd.Lift

open Verif.Dwt (toInt32 ceilHalf Detail analyseLevels analyseLevelsM synthesiseLevelsM)

/-- Analysis: for any image of 32-bit samples (even if additions overflow) the vector build computes the coefficients of the scalar one, whatever the memory held. -/
theorem C81_image_analysis (ms : List Scratch) (u0 v0 : Int) (hu : 0 ≤ u0) (hv : 0 ≤ v0) (w : Nat) (rows : List (List Int)) (hrows : ∀ r ∈ rows, r.length = w)
    (hx : ∀ r ∈ rows, ∀ x ∈ r, -2 ^ 31 ≤ x ∧ x < 2 ^ 31) (hw : ∀ l < ms.length, (u0 + 2 ^ l - 1) / 2 ^ l < (u0 + w + 2 ^ l - 1) / 2 ^ l) (hm : RoomAll RoomFwd ms u0 w) :
    ∃ r, analyseLevelsV ms u0 v0 rows = some r ∧ analyseLevelsM toInt32 ms.length u0 v0 rows = some r := by
  obtain ⟨ll, ds, e1, e2, -⟩ := analyseLevelsV_eq hu hv (fun r hr => ⟨hrows r hr, hx r hr⟩) hw hm
  exact ⟨_, e1, e2⟩

/-- Synthesis: for any coefficients that have the shape of the decomposition of an image with rows of `w` samples. -/
theorem C81_image_synthesis (ms : List Scratch) (u0 v0 : Int) (hu : 0 ≤ u0) (hv : 0 ≤ v0) (w : Nat) (ll : List (List Int)) (ds : List Detail) (hl : ms.length = ds.length)
    (hf : Fits u0 w ll ds) (hm : RoomAll RoomInv ms u0 w) :
    ∃ rows, synthesiseLevelsV ms u0 v0 ll ds = some rows ∧ synthesiseLevelsM toInt32 u0 v0 ll ds = some rows := by
  obtain ⟨rows, e1, e2, -⟩ := synthesiseLevelsV_eq hu hv hl hf hm
  exact ⟨rows, e1, e2⟩

/-- The shape of a level of 5 × 2 samples at an odd column: two low-pass and three high-pass columns. -/
example : Fits 1 5 [[70000, -3]] [⟨[[0, 1, -2147483648]], [[5, 6]], [[7, 8, 2147483647]]⟩] :=
  ⟨2, 3, rfl, by decide, by simp [Good, IR], by simp [Good, IR], by simp [Good, IR], by intro r hr; simp at hr; subst hr; simp [Good, IR]⟩

/-- For up to five levels and samples below `2^16` in absolute value the vector analysis gives the coefficients of exact arithmetic and the vector synthesis gives the
image back; the two may run on different memory. -/
theorem C81_image_lossless (ms ms' : List Scratch) (hn : ms.length ≤ 5) (hn' : ms'.length = ms.length) (u0 v0 : Int) (hu : 0 ≤ u0) (hv : 0 ≤ v0) (w : Nat)
    (rows : List (List Int)) (hrows : ∀ r ∈ rows, r.length = w) (hx : ∀ r ∈ rows, ∀ x ∈ r, |x| < 2 ^ 16)
    (hw : ∀ l < ms.length, (u0 + 2 ^ l - 1) / 2 ^ l < (u0 + w + 2 ^ l - 1) / 2 ^ l) (hm : RoomAll RoomFwd ms u0 w) (hm' : RoomAll RoomInv ms' u0 w) :
    ∃ ll ds, analyseLevels ms.length u0 v0 rows = some (ll, ds) ∧ analyseLevelsV ms u0 v0 rows = some (ll, ds) ∧ synthesiseLevelsV ms' u0 v0 ll ds = some rows := by
  obtain ⟨ll, ds, e, -, e32, s32, -⟩ := Dwt.C64_float_encoder_int_decoder ms.length hn u0 v0 hu hv w rows hrows hx hw
  obtain ⟨ll', ds', e1, e2, hf, hd⟩ := analyseLevelsV_eq (ms := ms) (v0 := v0) hu hv (rows := rows) (w := w) (fun r hr => ⟨hrows r hr, fun x h => by
    have := abs_lt.1 (hx r hr x h)
    unfold IR; omega⟩) hw hm
  rw [e32, Option.some.injEq, Prod.mk.injEq] at e2
  obtain ⟨rfl, rfl⟩ := e2
  obtain ⟨rows', s1, s2, -⟩ := synthesiseLevelsV_eq (ms := ms') (v0 := v0) hu hv (by rw [hn', hd]) hf hm'
  rw [s32, Option.some.injEq] at s2
  exact ⟨ll, ds, e, e1, by rw [s1, s2]⟩

/-- Two levels of an image of 40 × 3 samples at (1, 2): memory with rubbish in it, large enough for the first level and so for the second. -/
example : ∃ ll ds, analyseLevels 2 1 2 (List.replicate 3 ((List.range 40).map fun i => ((i * i * 31 % 1000 : Nat) : Int))) = some (ll, ds) ∧
    analyseLevelsV (List.replicate 2 ⟨fun i k => if k ≤ 60 then some (BitVec.ofInt 32 (k + i)) else none, fun i k => if k ≤ 60 then some (BitVec.ofInt 32 (k * i)) else none,
      fun _ _ => some 9#32, fun _ _ => some 8#32⟩) 1 2 (List.replicate 3 ((List.range 40).map fun i => ((i * i * 31 % 1000 : Nat) : Int))) = some (ll, ds) ∧
    synthesiseLevelsV (List.replicate 2 ⟨fun _ _ => some 1#32, fun _ _ => none, fun _ _ => none, fun _ _ => none⟩) 1 2 ll ds =
      some (List.replicate 3 ((List.range 40).map fun i => ((i * i * 31 % 1000 : Nat) : Int))) := by
  refine C81_image_lossless (List.replicate 2 _) (List.replicate 2 _) (by simp) (by simp) 1 2 (by norm_num) (by norm_num) 40 _ ?_ ?_ ?_ ?_ ?_
  · intro r hr
    rw [List.eq_of_mem_replicate hr]; simp
  · intro r hr x hx
    rw [List.eq_of_mem_replicate hr] at hx
    obtain ⟨i, -, rfl⟩ := List.mem_map.1 hx
    rw [abs_of_nonneg (by omega)]
    omega
  · intro l hl
    have : l = 0 ∨ l = 1 := by simp at hl; omega
    rcases this with rfl | rfl <;> norm_num
  · refine ⟨fun i => ⟨fun k h1 h2 => ?_, fun _ _ _ => rfl, fun _ _ _ => rfl⟩, fun i => ⟨fun k h1 h2 => ?_, fun _ _ _ => rfl, fun _ _ _ => rfl⟩, trivial⟩
    · simp only; rw [if_pos (by push_cast at h2; omega)]; rfl
    · simp [ceilHalf] at h2
      simp only; rw [if_pos (by omega)]; rfl
  · exact ⟨fun i _ _ _ => rfl, fun i _ _ _ => rfl, trivial⟩

end Verif.Simd.Lift
