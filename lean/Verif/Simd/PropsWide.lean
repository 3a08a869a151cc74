import Verif.Simd.WideRows
import Verif.Simd.PropsLift

/-!
# C82: the NEON and AVX-512 code of the 5/3 filter computes the lifting steps of the scalar code

The NEON and the AVX-512 counterpart of C81.  `rowFromPlanarW`, `rowToPlanarW` and the vertical steps are the vector kernels (`Verif.Simd.Wide`); `synthesiseRow`, `analyseExt`
and `rowStep` are the scalar code in `int32_t` arithmetic (`Verif.Dwt`).  Scratch memory has arbitrary contents; `none` is memory that was not allocated.
-/

namespace Verif.Simd.Lift.Wide

open Verif.Dwt (toInt32 join split rowStep synthesiseRow analyseExt rev53M rev53InvM doubleM halve ceilHalf readBack bufOf)

/-- One row of the synthesis, for rows of two samples or more at any position, in either build: whatever the ring slot held before, the kernels leave in it the row that the
scalar filter makes of the interleaved planes, and they touch nothing but eight words before and nineteen words after the row (the code leaves 32 there). -/
theorem C82_row_synthesis (isa : Isa) (u0 : Int) (h0 : 0 ≤ u0) (lp hp : List (BitVec 32))
    (hshape : (lp.length : Int) = ceilHalf (u0 + (lp.length + hp.length)) - ceilHalf u0) (hw : 2 ≤ lp.length + hp.length) (slot : Mem)
    (hslot : Allocated slot (-8) (lp.length + hp.length + 18)) :
    ∃ slot' y, rowFromPlanarW isa u0 lp hp slot = some slot' ∧ readBack 0 (lp.length + hp.length) slot' = some y ∧
      synthesiseRow (rev53InvM toInt32) halve u0 (join u0 (lp.map BitVec.toInt) (hp.map BitVec.toInt)) = some (y.map BitVec.toInt) ∧
      ∀ k : Int, k < -8 ∨ lp.length + hp.length + 18 < k → slot' k = slot k := by
  have hlen := join_length u0 lp hp
  obtain ⟨s, hs⟩ := Dwt.ext_exists (x := join u0 lp hp) (by omega)
  obtain ⟨slot', e, a, -, c⟩ := rowFromPlanarW_spec isa hshape hw hslot (le_refl _) hs
  obtain ⟨y, ey, ly⟩ := readBack_of a
  obtain ⟨z, ez, lz⟩ := Dwt.synthesiseRow_spec (flt := rev53InvM toInt32) (single := halve) h0 (by rw [List.length_map, hlen]; exact hw) (ext_map BitVec.toInt hs)
  refine ⟨slot', y, e, ey, ?_, fun k hk => c k (by push_cast; omega)⟩
  rw [join_map, ez, ← synthesiseAll_toInt] at *
  rw [List.length_map, hlen] at lz
  exact congrArg some (lz.unique (lists_map BitVec.toInt ly))

/-- Planar rows of 33 samples (two turns and a tail with NEON, the AVX2 kernel in the AVX-512 build) and of 67 samples. -/
example (isa : Isa) : ∃ slot' y, rowFromPlanarW isa 4 (List.replicate 17 5#32) (List.replicate 16 (-3#32))
      (fun k => if -8 ≤ k ∧ k ≤ 51 then some (BitVec.ofInt 32 (k * 77)) else none) = some slot' ∧
    readBack 0 33 slot' = some y ∧ y.map BitVec.toInt = (List.range 33).map fun i => if i % 2 = 0 then 6 else 3 := by
  obtain ⟨slot', y, e, ey, h, -⟩ := C82_row_synthesis isa 4 (by decide) (List.replicate 17 5#32) (List.replicate 16 (-3#32)) (by decide) (by decide)
    (fun k => if -8 ≤ k ∧ k ≤ 51 then some (BitVec.ofInt 32 (k * 77)) else none) (by intro k h1 h2; simp at h2; simp [h1]; omega)
  refine ⟨slot', y, e, ey, (Option.some.inj (Eq.trans ?_ h)).symm⟩
  decide +kernel
example (isa : Isa) : ∃ slot' y, rowFromPlanarW isa 4 (List.replicate 34 5#32) (List.replicate 33 (-3#32))
      (fun k => if -8 ≤ k ∧ k ≤ 85 then some 0#32 else none) = some slot' ∧
    readBack 0 67 slot' = some y ∧ y.map BitVec.toInt = (List.range 67).map fun i => if i % 2 = 0 then 6 else 3 := by
  obtain ⟨slot', y, e, ey, h, -⟩ := C82_row_synthesis isa 4 (by decide) (List.replicate 34 5#32) (List.replicate 33 (-3#32)) (by decide) (by decide)
    (fun k => if -8 ≤ k ∧ k ≤ 85 then some 0#32 else none) (by intro k h1 h2; simp at h2; simp [h1]; omega)
  refine ⟨slot', y, e, ey, (Option.some.inj (Eq.trans ?_ h)).symm⟩
  decide +kernel
/-- A row of three samples at an odd position, filtered in place. -/
example (isa : Isa) : ∃ slot' y, rowFromPlanarW isa 3 [5#32] [7#32, -1#32] (fun k => if -8 ≤ k ∧ k ≤ 21 then some 99#32 else none) = some slot' ∧ readBack 0 3 slot' = some y ∧
    y.map BitVec.toInt = [10, 3, 2] := by
  obtain ⟨slot', y, e, ey, h, -⟩ := C82_row_synthesis isa 3 (by decide) [5#32] [7#32, -1#32] (by decide) (by decide)
    (fun k => if -8 ≤ k ∧ k ≤ 21 then some 99#32 else none) (by intro k h1 h2; simp at h2; simp [h1]; omega)
  refine ⟨slot', y, e, ey, (Option.some.inj (Eq.trans ?_ h)).symm⟩
  decide +kernel

/-- One row of the analysis: the two rows the kernels deliver are the low-pass and the high-pass half of what the scalar filter makes of the row, whatever the scratch row
and the planes held before. -/
theorem C82_row_analysis (isa : Isa) (u0 : Int) (h0 : 0 ≤ u0) (x : List (BitVec 32)) (hw : 2 ≤ x.length) (tmp lpMem hpMem : Mem) (ht : Allocated tmp (-2) (x.length + 18))
    (hL : Allocated lpMem 0 (ceilHalf (u0 + x.length) - ceilHalf u0 - 1)) (hH : Allocated hpMem 0 ((u0 + x.length) / 2 - u0 / 2 - 1)) :
    ∃ l h, rowToPlanarW isa u0 x tmp lpMem hpMem = some (l, h) ∧
      (analyseExt (rev53M toInt32) (doubleM toInt32) u0 (x.map BitVec.toInt)).map (split u0) = some (l.map BitVec.toInt, h.map BitVec.toInt) := by
  obtain ⟨s, hs⟩ := Dwt.ext_exists (x := x) hw
  have hfl := fwdLeft_le u0
  obtain ⟨y, e, ly⟩ := rowToPlanarW_spec isa (u0 := u0) hw (fun k k0 k1 => ht k (by omega) k1) hL hH hs
  obtain ⟨z, ez, lz⟩ := Dwt.analyseExt_spec (flt := rev53M toInt32) (single := doubleM toInt32) h0 (by rw [List.length_map]; exact hw) (ext_map BitVec.toInt hs)
  refine ⟨_, _, e, ?_⟩
  rw [← analyseAll_toInt, List.length_map] at lz
  rw [ez, lz.unique (lists_map BitVec.toInt ly), Option.map_some, Dwt.split_map]
  rfl

/-- A ramp of 40 samples, to planes. -/
example (isa : Isa) : ∃ l h, rowToPlanarW isa 0 ((List.range 40).map fun i => BitVec.ofNat 32 (10 * i)) (fun k => if -2 ≤ k ∧ k ≤ 58 then some 1#32 else none)
    (fun k => if 0 ≤ k ∧ k < 20 then some 2#32 else none) (fun k => if 0 ≤ k ∧ k < 20 then some 3#32 else none) = some (l, h) ∧
    h.map BitVec.toInt = List.replicate 19 0 ++ [10] ∧ l.map BitVec.toInt = (List.range 19).map (fun i => (20 * i : Int)) ++ [383] := by
  obtain ⟨l, h, e, r⟩ := C82_row_analysis isa 0 (by decide) ((List.range 40).map fun i => BitVec.ofNat 32 (10 * i)) (by decide)
    (fun k => if -2 ≤ k ∧ k ≤ 58 then some 1#32 else none) (fun k => if 0 ≤ k ∧ k < 20 then some 2#32 else none) (fun k => if 0 ≤ k ∧ k < 20 then some 3#32 else none)
    (by intro k h1 h2; rw [List.length_map, List.length_range] at h2; simp [h1]; omega)
    (by intro k h1 h2; rw [List.length_map, List.length_range] at h2; simp [ceilHalf] at h2; simp [h1]; omega)
    (by intro k h1 h2; rw [List.length_map, List.length_range] at h2; simp [h1]; omega)
  have hc : (analyseExt (rev53M toInt32) (doubleM toInt32) 0 (((List.range 40).map fun i => BitVec.ofNat 32 (10 * i)).map BitVec.toInt)).map (split 0) =
      some ((List.range 19).map (fun i => (20 * i : Int)) ++ [383], List.replicate 19 0 ++ [10]) := by decide +kernel
  rw [hc, Option.some.injEq, Prod.mk.injEq] at r
  exact ⟨l, h, e, r.2.symm, r.1.symm⟩

/-- A row analysed in one build and synthesised in any other comes back, for all words, those that make the additions overflow included. -/
theorem C82_row_lossless (enc dec : Isa) (u0 : Int) (x : List (BitVec 32)) (h0 : 0 ≤ u0) (hw : 2 ≤ x.length) (tmp lpMem hpMem slot : Mem)
    (ht : Allocated tmp (-2) (x.length + 18)) (hL : Allocated lpMem 0 (ceilHalf (u0 + x.length) - ceilHalf u0 - 1))
    (hH : Allocated hpMem 0 ((u0 + x.length) / 2 - u0 / 2 - 1)) (hslot : Allocated slot (-8) (x.length + 18)) :
    ((rowToPlanarW enc u0 x tmp lpMem hpMem).bind fun b => (rowFromPlanarW dec u0 b.1 b.2 slot).bind (readBack 0 x.length)) = some x := by
  obtain ⟨s, hs⟩ := Dwt.ext_exists (x := x) hw
  have hfl := fwdLeft_le u0
  obtain ⟨y, e, ly⟩ := rowToPlanarW_spec enc (u0 := u0) hw (fun k k0 k1 => ht k (by omega) k1) hL hH hs
  have hund : Dwt.UndoesAll (fun _ : BitVec 32 => True) wFwd wInv :=
    .two ⟨fun _ _ _ _ _ _ => trivial, fun a b t _ _ _ => by rw [BitVec.add_comm a b], fun a b t _ _ _ => BitVec.sub_add_cancel _ _⟩
      ⟨fun _ _ _ _ _ _ => trivial, fun a b t _ _ _ => by rw [BitVec.add_comm a b], fun a b t _ _ _ => BitVec.add_sub_cancel _ _⟩
  obtain ⟨-, hext, hback⟩ := Dwt.reconstruct hund (fun _ _ => trivial) hw hs ly
  have hsl := Dwt.length_split u0 h0 y
  have hsum : (split u0 y).1.length + (split u0 y).2.length = x.length := by rw [hsl.2, ly.1]
  obtain ⟨slot', e', a, -, -⟩ := rowFromPlanarW_spec dec (u0 := u0) (lp := (split u0 y).1) (hp := (split u0 y).2) (by rw [← Nat.cast_add, hsl.2]; exact hsl.1) (by omega) hslot
    (by omega) (s := Dwt.analyseAll wFwd (u0 % 2) s) (by rw [Dwt.join_split]; exact hext)
  rw [hsum] at a
  obtain ⟨z, ez, lz⟩ := readBack_of a
  rw [← ly.1] at lz
  rw [e, Option.bind_some, e', Option.bind_some, ez, hback z lz]

/-- Extreme words: the sums of the filter overflow, the row comes back from the other build. -/
example : ((rowToPlanarW .neon 1 [2147483647#32, 2147483648#32, 2147483647#32] (fun k => if -2 ≤ k ∧ k ≤ 21 then some 1#32 else none)
      (fun k => if 0 ≤ k ∧ k < 1 then some 0#32 else none) (fun k => if 0 ≤ k ∧ k < 2 then some 0#32 else none)).bind
    fun b => (rowFromPlanarW .avx512 1 b.1 b.2 (fun k => if -8 ≤ k ∧ k ≤ 21 then some 5#32 else none)).bind (readBack 0 3)) =
    some [2147483647#32, 2147483648#32, 2147483647#32] :=
  C82_row_lossless .neon .avx512 1 _ (by decide) (by decide) _ _ _ _ (by intro k h1 h2; simp at h2; simp [h1]; omega) (by intro k h1 h2; simp [ceilHalf] at h2; simp; omega)
    (by intro k h1 h2; simp at h2; simp [h1]; omega) (by intro k h1 h2; simp at h2; simp [h1]; omega)

/-- All builds decode a row to the same words: NEON, AVX-512 and AVX2. -/
theorem C82_same_in_every_build (u0 : Int) (h0 : 0 ≤ u0) (lp hp : List (BitVec 32)) (hshape : (lp.length : Int) = ceilHalf (u0 + (lp.length + hp.length)) - ceilHalf u0)
    (hw : 2 ≤ lp.length + hp.length) (a b c : Mem) (ha : Allocated a (-8) (lp.length + hp.length + 18)) (hb : Allocated b (-8) (lp.length + hp.length + 18))
    (hc : Allocated c (-8) (lp.length + hp.length + 18)) :
    ∃ y, (rowFromPlanarW .neon u0 lp hp a).bind (readBack 0 (lp.length + hp.length)) = some y ∧
      (rowFromPlanarW .avx512 u0 lp hp b).bind (readBack 0 (lp.length + hp.length)) = some y ∧ (rowFromPlanar u0 lp hp c).bind (readBack 0 (lp.length + hp.length)) = some y := by
  obtain ⟨a', y, ea, ra, sa, -⟩ := C82_row_synthesis .neon u0 h0 lp hp hshape hw a ha
  obtain ⟨b', y2, eb, rb, sb, -⟩ := C82_row_synthesis .avx512 u0 h0 lp hp hshape hw b hb
  obtain ⟨c', y3, ec, rc, sc, -⟩ := C81_row_synthesis u0 h0 lp hp hshape hw c (fun k k1 k2 => hc k k1 (by omega))
  have inj : Function.Injective (List.map (BitVec.toInt (n := 32))) := List.map_injective_iff.2 fun x y h => BitVec.eq_of_toInt_eq h
  obtain rfl : y = y2 := inj (Option.some.inj (sa.symm.trans sb))
  obtain rfl : y = y3 := inj (Option.some.inj (sa.symm.trans sc))
  exact ⟨y, by rw [ea, Option.bind_some, ra], by rw [eb, Option.bind_some, rb], by rw [ec, Option.bind_some, rc]⟩

/-- All builds analyse a row to the same two rows. -/
theorem C82_same_analysis_in_every_build (u0 : Int) (h0 : 0 ≤ u0) (x : List (BitVec 32)) (hw : 2 ≤ x.length) (tmp lpMem hpMem : Mem)
    (ht : Allocated tmp (-2) (x.length + 18)) (hL : Allocated lpMem 0 (ceilHalf (u0 + x.length) - ceilHalf u0 - 1))
    (hH : Allocated hpMem 0 ((u0 + x.length) / 2 - u0 / 2 - 1)) :
    ∃ r, rowToPlanarW .neon u0 x tmp lpMem hpMem = some r ∧ rowToPlanarW .avx512 u0 x tmp lpMem hpMem = some r ∧ rowToPlanar u0 x tmp lpMem hpMem = some r := by
  obtain ⟨l, h, e, s⟩ := C82_row_analysis .neon u0 h0 x hw tmp lpMem hpMem ht hL hH
  obtain ⟨l2, h2, e2, s2⟩ := C82_row_analysis .avx512 u0 h0 x hw tmp lpMem hpMem ht hL hH
  obtain ⟨l3, h3, e3, s3⟩ := C81_row_analysis u0 h0 x hw tmp lpMem hpMem (fun k k1 k2 => ht k k1 (by omega)) hL hH
  have inj : Function.Injective (List.map (BitVec.toInt (n := 32))) := List.map_injective_iff.2 fun x y h => BitVec.eq_of_toInt_eq h
  have q2 := Prod.mk.inj (Option.some.inj (s.symm.trans s2))
  have q3 := Prod.mk.inj (Option.some.inj (s.symm.trans s3))
  obtain rfl := inj q2.1
  obtain rfl := inj q2.2
  obtain rfl := inj q3.1
  obtain rfl := inj q3.2
  exact ⟨(l, h), e, e2, e3⟩

/-- Memory of 16 samples for both theorems. -/
example : ∃ y, (rowFromPlanarW .neon 0 [1#32, 2#32] [3#32, 4#32] (fun k => if -8 ≤ k ∧ k ≤ 22 then some 9#32 else none)).bind (readBack 0 4) = some y ∧
    (rowFromPlanar 0 [1#32, 2#32] [3#32, 4#32] (fun k => if -8 ≤ k ∧ k ≤ 22 then some 8#32 else none)).bind (readBack 0 4) = some y := by
  obtain ⟨y, h1, -, h3⟩ := C82_same_in_every_build 0 (by decide) [1#32, 2#32] [3#32, 4#32] (by decide) (by decide) (fun k => if -8 ≤ k ∧ k ≤ 22 then some 9#32 else none)
    (fun k => if -8 ≤ k ∧ k ≤ 22 then some 7#32 else none) (fun k => if -8 ≤ k ∧ k ≤ 22 then some 8#32 else none)
    (by intro k h1 h2; simp at h2; simp [h1]; omega) (by intro k h1 h2; simp at h2; simp [h1]; omega) (by intro k h1 h2; simp at h2; simp [h1]; omega)
  exact ⟨y, h1, h3⟩
example : ∃ r, rowToPlanarW .neon 0 [1#32, 2#32, 9#32, 7#32] (fun k => if -2 ≤ k ∧ k ≤ 22 then some 9#32 else none) (bufOf [0#32, 0#32]) (bufOf [0#32, 0#32]) = some r ∧
    rowToPlanar 0 [1#32, 2#32, 9#32, 7#32] (fun k => if -2 ≤ k ∧ k ≤ 22 then some 9#32 else none) (bufOf [0#32, 0#32]) (bufOf [0#32, 0#32]) = some r := by
  have hb : Allocated (bufOf [0#32, 0#32]) 0 1 := by
    intro k h1 h2
    obtain rfl | rfl : k = 0 ∨ k = 1 := by omega
    · decide
    · decide
  obtain ⟨r, h1, -, h3⟩ := C82_same_analysis_in_every_build 0 (by decide) [1#32, 2#32, 9#32, 7#32] (by decide) (fun k => if -2 ≤ k ∧ k ≤ 22 then some 9#32 else none)
    (bufOf [0#32, 0#32]) (bufOf [0#32, 0#32]) (by intro k h1 h2; simp at h2; simp [h1]; omega) (by simpa [ceilHalf] using hb) (by simpa using hb)
  exact ⟨r, h1, h3⟩

/-- The vertical steps of the AVX-512 build and those of the NEON synthesis: on rows of any equal length they compute the scalar step in every column and touch nothing but
the row. -/
theorem C82_vertical (p q t : List (BitVec 32)) (hp : p.length = t.length) (hq : q.length = t.length) (prev next tgt : Mem)
    (mp : ∀ i (h : i < p.length), prev (i : Int) = some p[i]) (mq : ∀ i (h : i < q.length), next (i : Int) = some q[i])
    (mt : ∀ i (h : i < t.length), tgt (i : Int) = some t[i]) :
    ∀ step ∈ [(verInvNeon vInvHp, fun a b t => toInt32 (t + toInt32 (a + b) / 2)), (verInvNeon vInvLp, fun a b t => toInt32 (t - toInt32 (toInt32 (a + b) + 2) / 4)),
        (ver512 vInvHp, fun a b t => toInt32 (t + toInt32 (a + b) / 2)), (ver512 vInvLp, fun a b t => toInt32 (t - toInt32 (toInt32 (a + b) + 2) / 4)),
        (ver512 vFwdHp, fun a b t => toInt32 (t - toInt32 (a + b) / 2)), (ver512 vFwdLp, fun a b t => toInt32 (t + toInt32 (toInt32 (a + b) + 2) / 4))],
      ∃ tgt' y, step.1 t.length prev next tgt = some tgt' ∧ readBack 0 t.length tgt' = some y ∧
        y.map BitVec.toInt = rowStep step.2 (p.map BitVec.toInt) (q.map BitVec.toInt) (t.map BitVec.toInt) ∧ ∀ k : Int, k < 0 ∨ t.length ≤ k → tgt' k = tgt k := by
  have val : ∀ (x : List (BitVec 32)) i (h : i < x.length), (x[((i : Nat) : Int).toNat]?).getD 0#32 = x[i] := fun x i h => by
    rw [Int.toNat_natCast, List.getElem?_eq_getElem h, Option.getD_some]
  have ag : ∀ (x : List (BitVec 32)) (m : Mem), x.length = t.length → (∀ i (h : i < x.length), m (i : Int) = some x[i]) →
      Dwt.Agree m (fun k => (x[k.toNat]?).getD 0#32) 0 ((t.length : Nat) - 1) := by
    intro x m hx hm k k0 k1
    have := hm k.toNat (by omega)
    rw [show ((k.toNat : Nat) : Int) = k by omega] at this
    rw [this]
    simp only [List.getElem?_eq_getElem (show k.toNat < x.length by omega), Option.getD_some]
  intro step hs
  have neon : ∀ {v : Ver} {fm : Dwt.Step Int}, v.Lanes → (∀ a b t, (v.word a b t).toInt = fm a.toInt b.toInt t.toInt) →
      ∃ tgt' y, verInvNeon v t.length prev next tgt = some tgt' ∧ readBack 0 t.length tgt' = some y ∧
        y.map BitVec.toInt = rowStep fm (p.map BitVec.toInt) (q.map BitVec.toInt) (t.map BitVec.toInt) ∧ ∀ k : Int, k < 0 ∨ t.length ≤ k → tgt' k = tgt k := by
    intro v fm h1 h2
    obtain ⟨tgt', e, d⟩ := verInvNeon_spec h1 (n := (t.length : Nat)) (by omega) (ag p prev hp mp) (ag q next hq mq) (ag t tgt rfl mt)
    obtain ⟨y, ey, r⟩ := done_rows h2 hp hq (le_refl _) (val p) (val q) (val t) d
    exact ⟨tgt', y, e, ey, r, fun k hk => d.2.2 k (by omega)⟩
  have avx : ∀ {v : Ver} {fm : Dwt.Step Int}, v.Lanes → (∀ a b t, (v.word a b t).toInt = fm a.toInt b.toInt t.toInt) →
      ∃ tgt' y, ver512 v t.length prev next tgt = some tgt' ∧ readBack 0 t.length tgt' = some y ∧
        y.map BitVec.toInt = rowStep fm (p.map BitVec.toInt) (q.map BitVec.toInt) (t.map BitVec.toInt) ∧ ∀ k : Int, k < 0 ∨ t.length ≤ k → tgt' k = tgt k := by
    intro v fm h1 h2
    obtain ⟨tgt', e, d⟩ := ver512_spec h1 (n := (t.length : Nat)) (by omega) (ag p prev hp mp) (ag q next hq mq) (ag t tgt rfl mt)
    obtain ⟨y, ey, r⟩ := done_rows h2 hp hq (le_refl _) (val p) (val q) (val t) d
    exact ⟨tgt', y, e, ey, r, fun k hk => d.2.2 k (by omega)⟩
  simp only [List.mem_cons, List.not_mem_nil, or_false] at hs
  rcases hs with rfl | rfl | rfl | rfl | rfl | rfl
  · exact neon vInvHp_lanes toInt_hpInv
  · exact neon vInvLp_lanes toInt_lpInv
  · exact avx vInvHp_lanes toInt_hpInv
  · exact avx vInvLp_lanes toInt_lpInv
  · exact avx vFwdHp_lanes toInt_hpFwd
  · exact avx vFwdLp_lanes toInt_lpFwd

/-- The vertical steps of the NEON analysis compute the scalar step too, but read and write up to the end of the last group of eight columns; with memory allocated that
far (the code rounds rows up to 32 words) nothing beyond it is touched. -/
theorem C82_vertical_neon_analysis (p q t : List (BitVec 32)) (hp : p.length = t.length) (hq : q.length = t.length) (prev next tgt : Mem)
    (mp : ∀ i (h : i < p.length), prev (i : Int) = some p[i]) (mq : ∀ i (h : i < q.length), next (i : Int) = some q[i])
    (mt : ∀ i (h : i < t.length), tgt (i : Int) = some t[i]) (ap : Allocated prev 0 (8 * ((t.length + 7) / 8) - 1)) (aq : Allocated next 0 (8 * ((t.length + 7) / 8) - 1))
    (at' : Allocated tgt 0 (8 * ((t.length + 7) / 8) - 1)) :
    ∀ step ∈ [(verFwdNeon vFwdHp, fun a b t => toInt32 (t - toInt32 (a + b) / 2)), (verFwdNeon vFwdLp, fun a b t => toInt32 (t + toInt32 (toInt32 (a + b) + 2) / 4))],
      ∃ tgt' y, step.1 t.length prev next tgt = some tgt' ∧ readBack 0 t.length tgt' = some y ∧
        y.map BitVec.toInt = rowStep step.2 (p.map BitVec.toInt) (q.map BitVec.toInt) (t.map BitVec.toInt) ∧
        ∀ k : Int, k < 0 ∨ 8 * ((t.length + 7) / 8) ≤ k → tgt' k = tgt k := by
  have val : ∀ (x : List (BitVec 32)) (m : Mem), (∀ i (h : i < x.length), m (i : Int) = some x[i]) → ∀ i (h : i < x.length), (m (i : Int)).getD 0#32 = x[i] :=
    fun x m hm i h => by rw [hm i h, Option.getD_some]
  have ag : ∀ m : Mem, Allocated m 0 (8 * ((t.length + 7) / 8) - 1) → Dwt.Agree m (fun k => (m k).getD 0#32) 0 (8 * (((t.length : Nat) + 7) / 8) - 1) := by
    intro m hm k k0 k1
    obtain ⟨v, hv⟩ := Option.isSome_iff_exists.1 (hm k k0 k1)
    simp only [hv, Option.getD_some]
  intro step hs
  have neon : ∀ {v : Ver} {fm : Dwt.Step Int}, v.Lanes → (∀ a b t, (v.word a b t).toInt = fm a.toInt b.toInt t.toInt) →
      ∃ tgt' y, verFwdNeon v t.length prev next tgt = some tgt' ∧ readBack 0 t.length tgt' = some y ∧
        y.map BitVec.toInt = rowStep fm (p.map BitVec.toInt) (q.map BitVec.toInt) (t.map BitVec.toInt) ∧
        ∀ k : Int, k < 0 ∨ 8 * ((t.length + 7) / 8) ≤ k → tgt' k = tgt k := by
    intro v fm h1 h2
    obtain ⟨i', tgt', e, g1, g2, d⟩ := verFwdNeon_spec h1 (n := (t.length : Nat)) (by omega) (ag prev ap) (ag next aq) (ag tgt at')
    obtain ⟨y, ey, r⟩ := done_rows h2 hp hq g1 (val p prev mp) (val q next mq) (val t tgt mt) d
    exact ⟨tgt', y, e, ey, r, fun k hk => d.2.2 k (by omega)⟩
  simp only [List.mem_cons, List.not_mem_nil, or_false] at hs
  rcases hs with rfl | rfl
  · exact neon vFwdHp_lanes toInt_hpFwd
  · exact neon vFwdLp_lanes toInt_lpFwd

private theorem bufOf_replicate (n : Nat) (c : BitVec 32) : ∀ i (h : i < (List.replicate n c).length), bufOf (List.replicate n c) (i : Int) = some (List.replicate n c)[i] := by
  intro i h
  rw [bufOf, if_pos (by omega), Int.toNat_natCast, List.getElem?_eq_getElem h]

/-- Thirteen columns: the NEON synthesis takes a pair of registers, one register and one column; the AVX-512 build a masked register.  The memory ends with the row. -/
example : ∀ kernel ∈ [verInvNeon vInvLp, ver512 vInvLp], ∃ tgt' y, kernel 13 (bufOf (List.replicate 13 3#32)) (bufOf (List.replicate 13 4#32))
      (bufOf (List.replicate 13 100#32)) = some tgt' ∧ readBack 0 13 tgt' = some y ∧ y.map BitVec.toInt = List.replicate 13 98 := by
  have key := C82_vertical (List.replicate 13 3#32) (List.replicate 13 4#32) (List.replicate 13 100#32) rfl rfl _ _ _ (bufOf_replicate _ _) (bufOf_replicate _ _)
    (bufOf_replicate _ _)
  intro kernel hk
  simp only [List.mem_cons, List.not_mem_nil, or_false] at hk
  rcases hk with rfl | rfl
  · obtain ⟨tgt', y, e, ey, r, -⟩ := key (verInvNeon vInvLp, fun a b t => toInt32 (t - toInt32 (toInt32 (a + b) + 2) / 4)) (by simp)
    exact ⟨tgt', y, e, ey, by rw [r]; decide⟩
  · obtain ⟨tgt', y, e, ey, r, -⟩ := key (ver512 vInvLp, fun a b t => toInt32 (t - toInt32 (toInt32 (a + b) + 2) / 4)) (by simp)
    exact ⟨tgt', y, e, ey, by rw [r]; decide⟩

/-- Five columns of the NEON analysis in memory of eight. -/
example : ∃ tgt' y, verFwdNeon vFwdHp 5 (bufOf (List.replicate 8 3#32)) (bufOf (List.replicate 8 4#32)) (bufOf (List.replicate 8 100#32)) = some tgt' ∧
    readBack 0 5 tgt' = some y ∧ y.map BitVec.toInt = List.replicate 5 97 := by
  have al : ∀ c : BitVec 32, Allocated (bufOf (List.replicate 8 c)) 0 (8 * (((List.replicate 5 100#32).length + 7) / 8) - 1) := by
    intro c k h1 h2
    have := bufOf_replicate 8 c k.toNat (by simp at h2 ⊢; omega)
    rw [show ((k.toNat : Nat) : Int) = k by omega] at this
    rw [this]; rfl
  have va : ∀ c : BitVec 32, ∀ i (h : i < (List.replicate 5 c).length), bufOf (List.replicate 8 c) (i : Int) = some (List.replicate 5 c)[i] := by
    intro c i h
    rw [bufOf_replicate 8 c i (by simp at h ⊢; omega), List.getElem_replicate, List.getElem_replicate]
  obtain ⟨tgt', y, e, ey, r, -⟩ := C82_vertical_neon_analysis (List.replicate 5 3#32) (List.replicate 5 4#32) (List.replicate 5 100#32) rfl rfl _ _ _ (va _) (va _) (va _)
    (al _) (al _) (al _) (verFwdNeon vFwdHp, fun a b t => toInt32 (t - toInt32 (a + b) / 2)) (by simp)
  exact ⟨tgt', y, e, ey, by rw [r]; decide⟩

/-- The bound of `C82_vertical_neon_analysis` is needed: on rows of any length `8 m + 5`, `8 m + 6` or `8 m + 7` in memory that ends with the row, the NEON analysis leaves the
memory, while the NEON synthesis and the AVX-512 build do not (`C82_vertical`). -/
theorem C82_neon_analysis_overruns (v : Ver) (x : List (BitVec 32)) (h : 5 ≤ x.length % 8) : verFwdNeon v x.length (bufOf x) (bufOf x) (bufOf x) = none := by
  have hend : ∀ (c : Nat) (j : Int) (tgt : Mem), 8 * c = x.length - x.length % 8 - j → 0 ≤ j → sweep 8 4 x.length (cols44 v (bufOf x) (bufOf x)) j tgt = none := by
    intro c
    induction c with
    | zero =>
      intro j tgt hc hj
      have hlt : j + ((4 : Nat) : Int) < x.length ∧ 0 < 8 := ⟨by push_cast at hc ⊢; omega, by decide⟩
      rw [sweep, if_pos hlt]
      have : loadL 4 (bufOf x) (j + 4) = none := by
        unfold loadL
        rw [dif_neg]
        intro hall
        have h3 := hall 3
        rw [bufOf, if_pos (by simp; omega), List.getElem?_eq_none (by simp; omega)] at h3
        exact absurd h3 (by decide)
      have e : cols44 v (bufOf x) (bufOf x) j tgt = none := by
        unfold cols44
        rw [this]
        cases loadL 4 (bufOf x) j <;> cases loadL 4 tgt j <;> rfl
      rw [e]; rfl
    | succ c ih =>
      intro j tgt hc hj
      have hlt : j + ((4 : Nat) : Int) < x.length ∧ 0 < 8 := ⟨by push_cast at hc ⊢; omega, by decide⟩
      rw [sweep, if_pos hlt]
      cases cols44 v (bufOf x) (bufOf x) j tgt with
      | none => rfl
      | some t => exact ih (j + 8) t (by push_cast at hc ⊢; omega) (by omega)
  rw [verFwdNeon, hend (x.length / 8) 0 _ (by omega) (le_refl _)]
  rfl

/-- A row of five words. -/
example : verFwdNeon vFwdHp 5 (bufOf [1#32, 2#32, 3#32, 4#32, 5#32]) (bufOf [1#32, 2#32, 3#32, 4#32, 5#32]) (bufOf [1#32, 2#32, 3#32, 4#32, 5#32]) = none :=
  C82_neon_analysis_overruns vFwdHp [1#32, 2#32, 3#32, 4#32, 5#32] (by decide)

end Verif.Simd.Lift.Wide
