import Verif.Simd.LiftWords

/-!
# C81: the AVX2 code of the 5/3 filter computes the lifting steps of the scalar code

`rowFromPlanar`, `rowToPlanar` and the vertical steps are the vector kernels (`Verif.Simd.Lift`); `synthesiseRow`, `analyseExt` and `rowStep` are the scalar
code in `int32_t` arithmetic (`Verif.Dwt`).  The memories that the kernels use as scratch space have arbitrary contents; `none` is memory that was not allocated, which no
kernel may touch.
-/

namespace Verif.Simd.Lift

open Verif.Dwt (toInt32 join split rowStep synthesiseRow analyseExt rev53M rev53InvM doubleM halve ceilHalf readBack)

/-- Words `lo … hi` of the memory are allocated. -/
def Allocated (m : Mem) (lo hi : Int) : Prop := ∀ k, lo ≤ k → k ≤ hi → (m k).isSome

/-- One row of the synthesis, for rows of two samples or more at any position: whatever the ring slot held before, the vector kernels leave in it the row that the
scalar filter makes of the interleaved planes, and they touch nothing but eight words before and nine words after the row. -/
theorem C81_row_synthesis (u0 : Int) (h0 : 0 ≤ u0) (lp hp : List (BitVec 32)) (hshape : (lp.length : Int) = ceilHalf (u0 + (lp.length + hp.length)) - ceilHalf u0)
    (hw : 2 ≤ lp.length + hp.length) (slot : Mem) (hslot : Allocated slot (-8) (lp.length + hp.length + 8)) :
    ∃ slot' y, rowFromPlanar u0 lp hp slot = some slot' ∧ readBack 0 (lp.length + hp.length) slot' = some y ∧
      synthesiseRow (rev53InvM toInt32) halve u0 (join u0 (lp.map BitVec.toInt) (hp.map BitVec.toInt)) = some (y.map BitVec.toInt) ∧
      ∀ k : Int, k < -8 ∨ lp.length + hp.length + 8 < k → slot' k = slot k := by
  have hlen := join_length u0 lp hp
  obtain ⟨s, hs⟩ := Dwt.ext_exists (x := join u0 lp hp) (by omega)
  obtain ⟨slot', e, a, -, c⟩ := rowFromPlanar_spec hshape hw hslot (le_refl _) hs
  obtain ⟨y, ey, ly⟩ := readBack_of a
  obtain ⟨z, ez, lz⟩ := Dwt.synthesiseRow_spec (flt := rev53InvM toInt32) (single := halve) h0 (by rw [List.length_map, hlen]; exact hw) (ext_map BitVec.toInt hs)
  refine ⟨slot', y, e, ey, ?_, fun k hk => c k (by push_cast; omega)⟩
  rw [join_map, ez, ← synthesiseAll_toInt] at *
  rw [List.length_map, hlen] at lz
  exact congrArg some (lz.unique (lists_map BitVec.toInt ly))

/-- Both kernels of the synthesis: a planar row of 33 samples, a narrow row at an odd position, memory with rubbish in it. -/
example : ∃ slot' y, rowFromPlanar 4 (List.replicate 17 5#32) (List.replicate 16 (-3#32)) (fun k => if -8 ≤ k ∧ k ≤ 41 then some (BitVec.ofInt 32 (k * 77)) else none) = some slot' ∧
    readBack 0 33 slot' = some y ∧ y.map BitVec.toInt = (List.range 33).map fun i => if i % 2 = 0 then 6 else 3 := by
  obtain ⟨slot', y, e, ey, h, -⟩ := C81_row_synthesis 4 (by decide) (List.replicate 17 5#32) (List.replicate 16 (-3#32)) (by decide) (by decide)
    (fun k => if -8 ≤ k ∧ k ≤ 41 then some (BitVec.ofInt 32 (k * 77)) else none) (by intro k h1 h2; simp at h2; simp [h1]; omega)
  refine ⟨slot', y, e, ey, (Option.some.inj (Eq.trans ?_ h)).symm⟩
  decide +kernel
example : ∃ slot' y, rowFromPlanar 3 [5#32] [7#32, -1#32] (fun k => if -8 ≤ k ∧ k ≤ 11 then some 99#32 else none) = some slot' ∧ readBack 0 3 slot' = some y ∧
    y.map BitVec.toInt = [10, 3, 2] := by
  obtain ⟨slot', y, e, ey, h, -⟩ := C81_row_synthesis 3 (by decide) [5#32] [7#32, -1#32] (by decide) (by decide)
    (fun k => if -8 ≤ k ∧ k ≤ 11 then some 99#32 else none) (by intro k h1 h2; simp at h2; simp [h1]; omega)
  refine ⟨slot', y, e, ey, (Option.some.inj (Eq.trans ?_ h)).symm⟩
  decide +kernel

/-- One row of the analysis: the two rows the vector kernels deliver are the low-pass and the high-pass half of what the scalar filter makes of the row, whatever the
scratch row and the planes held before. -/
theorem C81_row_analysis (u0 : Int) (h0 : 0 ≤ u0) (x : List (BitVec 32)) (hw : 2 ≤ x.length) (tmp lpMem hpMem : Mem) (ht : Allocated tmp (-2) (x.length + 8))
    (hL : Allocated lpMem 0 (ceilHalf (u0 + x.length) - ceilHalf u0 - 1)) (hH : Allocated hpMem 0 ((u0 + x.length) / 2 - u0 / 2 - 1)) :
    ∃ l h, rowToPlanar u0 x tmp lpMem hpMem = some (l, h) ∧
      (analyseExt (rev53M toInt32) (doubleM toInt32) u0 (x.map BitVec.toInt)).map (split u0) = some (l.map BitVec.toInt, h.map BitVec.toInt) := by
  obtain ⟨s, hs⟩ := Dwt.ext_exists (x := x) hw
  have hfl := fwdLeft_le u0
  obtain ⟨y, e, ly⟩ := rowToPlanar_spec (u0 := u0) hw (fun k k0 k1 => ht k (by omega) k1) hL hH hs
  obtain ⟨z, ez, lz⟩ := Dwt.analyseExt_spec (flt := rev53M toInt32) (single := doubleM toInt32) h0 (by rw [List.length_map]; exact hw) (ext_map BitVec.toInt hs)
  refine ⟨_, _, e, ?_⟩
  rw [← analyseAll_toInt, List.length_map] at lz
  rw [ez, lz.unique (lists_map BitVec.toInt ly), Option.map_some, Dwt.split_map]
  rfl

/-- A ramp of 40 samples, to planes. -/
example : ∃ l h, rowToPlanar 0 ((List.range 40).map fun i => BitVec.ofNat 32 (10 * i)) (fun k => if -2 ≤ k ∧ k ≤ 48 then some 1#32 else none)
    (fun k => if 0 ≤ k ∧ k < 20 then some 2#32 else none) (fun k => if 0 ≤ k ∧ k < 20 then some 3#32 else none) = some (l, h) ∧
    h.map BitVec.toInt = List.replicate 19 0 ++ [10] ∧ l.map BitVec.toInt = (List.range 19).map (fun i => (20 * i : Int)) ++ [383] := by
  obtain ⟨l, h, e, r⟩ := C81_row_analysis 0 (by decide) ((List.range 40).map fun i => BitVec.ofNat 32 (10 * i)) (by decide) (fun k => if -2 ≤ k ∧ k ≤ 48 then some 1#32 else none)
    (fun k => if 0 ≤ k ∧ k < 20 then some 2#32 else none) (fun k => if 0 ≤ k ∧ k < 20 then some 3#32 else none)
    (by intro k h1 h2; rw [List.length_map, List.length_range] at h2; simp [h1]; omega)
    (by intro k h1 h2; rw [List.length_map, List.length_range] at h2; simp [ceilHalf] at h2; simp [h1]; omega)
    (by intro k h1 h2; rw [List.length_map, List.length_range] at h2; simp [h1]; omega)
  have hc : (analyseExt (rev53M toInt32) (doubleM toInt32) 0 (((List.range 40).map fun i => BitVec.ofNat 32 (10 * i)).map BitVec.toInt)).map (split 0) =
      some ((List.range 19).map (fun i => (20 * i : Int)) ++ [383], List.replicate 19 0 ++ [10]) := by decide +kernel
  rw [hc, Option.some.injEq, Prod.mk.injEq] at r
  exact ⟨l, h, e, r.2.symm, r.1.symm⟩

/-- A row analysed and synthesised by the vector kernels comes back, for all words, those that make the additions overflow included. -/
theorem C81_row_lossless (u0 : Int) (x : List (BitVec 32)) (h0 : 0 ≤ u0) (hw : 2 ≤ x.length) (tmp lpMem hpMem slot : Mem) (ht : Allocated tmp (-2) (x.length + 8))
    (hL : Allocated lpMem 0 (ceilHalf (u0 + x.length) - ceilHalf u0 - 1)) (hH : Allocated hpMem 0 ((u0 + x.length) / 2 - u0 / 2 - 1))
    (hslot : Allocated slot (-8) (x.length + 8)) :
    ((rowToPlanar u0 x tmp lpMem hpMem).bind fun b => (rowFromPlanar u0 b.1 b.2 slot).bind (readBack 0 x.length)) = some x := by
  obtain ⟨s, hs⟩ := Dwt.ext_exists (x := x) hw
  have hfl := fwdLeft_le u0
  obtain ⟨y, e, ly⟩ := rowToPlanar_spec (u0 := u0) hw (fun k k0 k1 => ht k (by omega) k1) hL hH hs
  have hund : Dwt.UndoesAll (fun _ : BitVec 32 => True) wFwd wInv :=
    .two ⟨fun _ _ _ _ _ _ => trivial, fun a b t _ _ _ => by rw [BitVec.add_comm a b], fun a b t _ _ _ => BitVec.sub_add_cancel _ _⟩
      ⟨fun _ _ _ _ _ _ => trivial, fun a b t _ _ _ => by rw [BitVec.add_comm a b], fun a b t _ _ _ => BitVec.add_sub_cancel _ _⟩
  obtain ⟨-, hext, hback⟩ := Dwt.reconstruct hund (fun _ _ => trivial) hw hs ly
  have hsl := Dwt.length_split u0 h0 y
  have hsum : (split u0 y).1.length + (split u0 y).2.length = x.length := by rw [hsl.2, ly.1]
  obtain ⟨slot', e', a, -, -⟩ := rowFromPlanar_spec (u0 := u0) (lp := (split u0 y).1) (hp := (split u0 y).2) (by rw [← Nat.cast_add, hsl.2]; exact hsl.1) (by omega) hslot
    (by omega) (s := Dwt.analyseAll wFwd (u0 % 2) s) (by rw [Dwt.join_split]; exact hext)
  rw [hsum] at a
  obtain ⟨z, ez, lz⟩ := readBack_of a
  rw [← ly.1] at lz
  rw [e, Option.bind_some, e', Option.bind_some, ez, hback z lz]

/-- The vertical steps: on rows of any equal length they compute the scalar step in every column and leave the memory around the row alone.  The four steps are those of
the synthesis (`verInvHp`, `verInvLp`) and of the analysis (`verFwdHp`, `verFwdLp`). -/
theorem C81_vertical (p q t : List (BitVec 32)) (hp : p.length = t.length) (hq : q.length = t.length) (prev next tgt : Mem)
    (mp : ∀ i (h : i < p.length), prev (i : Int) = some p[i]) (mq : ∀ i (h : i < q.length), next (i : Int) = some q[i])
    (mt : ∀ i (h : i < t.length), tgt (i : Int) = some t[i]) :
    ∀ step ∈ [(verInvHp, fun a b t => toInt32 (t + toInt32 (a + b) / 2)), (verInvLp, fun a b t => toInt32 (t - toInt32 (toInt32 (a + b) + 2) / 4)),
        (verFwdHp, fun a b t => toInt32 (t - toInt32 (a + b) / 2)), (verFwdLp, fun a b t => toInt32 (t + toInt32 (toInt32 (a + b) + 2) / 4))],
      ∃ tgt' y, step.1 t.length prev next tgt = some tgt' ∧ readBack 0 t.length tgt' = some y ∧
        y.map BitVec.toInt = rowStep step.2 (p.map BitVec.toInt) (q.map BitVec.toInt) (t.map BitVec.toInt) ∧ ∀ k : Int, k < 0 ∨ t.length ≤ k → tgt' k = tgt k := by
  intro step hs
  have fin : ∀ {g : V 8 → V 8 → V 8 → V 8} {f : BitVec 32 → BitVec 32 → BitVec 32 → BitVec 32} {fm : Dwt.Step Int}, (∀ a b t : V 8, ∀ i, g a b t i = f (a i) (b i) (t i)) →
      (∀ a b t, (f a b t).toInt = fm a.toInt b.toInt t.toInt) → ∃ tgt' y, vertical g f t.length 0 prev next tgt = some tgt' ∧ readBack 0 t.length tgt' = some y ∧
        y.map BitVec.toInt = rowStep fm (p.map BitVec.toInt) (q.map BitVec.toInt) (t.map BitVec.toInt) ∧ ∀ k : Int, k < 0 ∨ t.length ≤ k → tgt' k = tgt k := by
    intro g f fm h1 h2
    obtain ⟨tgt', y, e, ey, r, c⟩ := vertical_rows h1 h2 hp hq mp mq mt
    exact ⟨tgt', y, e, ey, r, fun k hk => c k (by omega)⟩
  simp only [List.mem_cons, List.not_mem_nil, or_false] at hs
  rcases hs with rfl | rfl | rfl | rfl
  · exact fin (fun _ _ _ _ => rfl) toInt_hpInv
  · exact fin (fun _ _ _ _ => rfl) toInt_lpInv
  · exact fin (fun _ _ _ _ => rfl) toInt_hpFwd
  · exact fin (fun _ _ _ _ => rfl) toInt_lpFwd

/-- Eleven columns: one vector and three scalar columns, in memory that ends with the row. -/
example : ∃ tgt' y, verInvLp 11 (Dwt.bufOf (List.replicate 11 3#32)) (Dwt.bufOf (List.replicate 11 4#32)) (Dwt.bufOf (List.replicate 11 100#32)) = some tgt' ∧
    readBack 0 11 tgt' = some y ∧ y.map BitVec.toInt = List.replicate 11 98 := by
  have hb : ∀ c : BitVec 32, ∀ i (h : i < (List.replicate 11 c).length), Dwt.bufOf (List.replicate 11 c) (i : Int) = some (List.replicate 11 c)[i] := by
    intro c i h
    rw [Dwt.bufOf, if_pos (by omega), Int.toNat_natCast, List.getElem?_eq_getElem h]
  obtain ⟨tgt', y, e, ey, r, -⟩ := C81_vertical (List.replicate 11 3#32) (List.replicate 11 4#32) (List.replicate 11 100#32) rfl rfl _ _ _ (hb _) (hb _) (hb _) _
    (List.mem_cons_of_mem _ (List.mem_cons_self ..))
  exact ⟨tgt', y, e, ey, by rw [r]; decide⟩

end Verif.Simd.Lift
