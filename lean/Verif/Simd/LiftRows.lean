import Verif.Simd.LiftLemmas
/-
Rows filtered in place: extension, then the kernels.
-/
namespace Verif.Simd.Lift
open Verif.Dwt (Buf pseo fromLeft loopM ceilHalf copyTo Step Filter Agree Filled liftLoop liftStep liftAll Ext Lists Sym mirror)
open Verif.Simd

theorem fillWide_spec {b : Mem} {s : Int → BitVec 32} {w : Nat} (hw : 9 ≤ w) (hs : Sym w s) (hb : Agree b s 0 (w - 1)) {hi : Int} (hF : Filled b (-8) hi)
    (hhi : w + 7 ≤ hi) :
    ∃ b', fillWide w b = some b' ∧ Agree b' s (-8) (w + 7) ∧ Filled b' (-8) hi ∧ ∀ k : Int, ¬ (-8 ≤ k ∧ k ≤ w + 7) → b' k = b k := by
  obtain ⟨lv, e1, h1⟩ := load_filled (b := b) (m := 1) (fun k k1 k2 => hF k (by omega) (by omega))
  obtain ⟨b1, e2, s1, s2⟩ := store_filled (b := b) (m := -8) (fun k k1 k2 => hF k (by omega) (by omega)) (permute lv Fin.rev)
  have f1 : Filled b1 (-8) hi := filled_of_eq hF (m := -8) (fun k k1 k2 => by
    obtain ⟨i, hi⟩ : ∃ i : Fin 8, k = -8 + (i.val : Int) := ⟨⟨(k + 8).toNat, by omega⟩, by simp; omega⟩
    rw [hi, s1]; rfl) s2
  obtain ⟨rv, e3, h3⟩ := load_filled (b := b1) (m := w - 9) (fun k k1 k2 => f1 k (by omega) (by omega))
  obtain ⟨b2, e4, s3, s4⟩ := store_filled (b := b1) (m := w) (fun k k1 k2 => f1 k (by omega) (by omega)) (permute rv Fin.rev)
  have f2 : Filled b2 (-8) hi := filled_of_eq f1 (m := w) (fun k k1 k2 => by
    obtain ⟨i, hi⟩ : ∃ i : Fin 8, k = w + (i.val : Int) := ⟨⟨(k - w).toNat, by omega⟩, by simp; omega⟩
    rw [hi, s3]; rfl) s4
  refine ⟨b2, by simp [fillWide, e1, e2, e3, e4], ?_, f2, ?_⟩
  · intro k k1 k2
    by_cases hk : k < 0
    · obtain ⟨i, rfl⟩ : ∃ i : Fin 8, k = -8 + (i.val : Int) := ⟨⟨(k + 8).toNat, by omega⟩, by simp; omega⟩
      rw [s4 _ (by omega), s1 i]
      have := h1 (Fin.rev i)
      rw [hb _ (by omega) (by omega)] at this
      simp only [permute]
      rw [← this, Fin.val_rev, ← hs.1]
      congr 2
      omega
    · by_cases hk2 : k < w
      · rw [s4 _ (by omega), s2 _ (by omega), hb k (by omega) (by omega)]
      · obtain ⟨i, rfl⟩ : ∃ i : Fin 8, k = w + (i.val : Int) := ⟨⟨(k - w).toNat, by omega⟩, by simp; omega⟩
        rw [s3 i]
        have := h3 (Fin.rev i)
        rw [s2 _ (by omega), hb _ (by omega) (by omega)] at this
        simp only [permute]
        rw [← this, Fin.val_rev, ← hs.2]
        congr 2
        omega
  · intro k hk
    rw [s4 _ (by omega), s2 _ (by omega)]

theorem moveLoop {s : Int → BitVec 32} {lo hi A B : Int} (n : Nat) (src : Nat → Option Int) (d : Nat → Int)
    (hd : ∀ i < n, ∃ j, src i = some j ∧ lo ≤ j ∧ j ≤ hi ∧ s j = s (d i) ∧ ¬ (lo ≤ d i ∧ d i ≤ hi) ∧ A ≤ d i ∧ d i ≤ B) {b : Mem} (hb : Agree b s lo hi)
    (hF : Filled b A B) :
    ∃ b', loopM n (fun i b => (src i).bind fun j => move (d i) j b) b = some b' ∧ Agree b' s lo hi ∧ (∀ i < n, b' (d i) = some (s (d i))) ∧ Filled b' A B ∧
      ∀ k : Int, (∀ i < n, k ≠ d i) → b' k = b k := by
  induction n with
  | zero => exact ⟨b, rfl, hb, fun i hi => by omega, hF, fun k _ => rfl⟩
  | succ n ih =>
    obtain ⟨b1, e1, a1, a2, f1, a3⟩ := ih (fun i hi => hd i (by omega))
    obtain ⟨j, ej, j1, j2, j3, j4, j5, j6⟩ := hd n (by omega)
    refine ⟨Function.update b1 (d n) (some (s (d n))), ?_, ?_, ?_, ?_, ?_⟩
    · rw [loopM, e1]
      simp only [Option.bind_some, ej, move, a1 j j1 j2, j3, put_filled (f1 _ j5 j6)]
    · intro k k1 k2
      rw [Function.update_of_ne (by rintro rfl; exact j4 ⟨k1, k2⟩)]
      exact a1 k k1 k2
    · intro i hi'
      by_cases h : d i = d n
      · rw [h, Function.update_self]
      · rw [Function.update_of_ne h]
        rcases Nat.lt_succ_iff_lt_or_eq.1 hi' with h' | rfl
        · exact a2 i h'
        · exact absurd rfl h
    · intro k k1 k2
      by_cases h : k = d n
      · rw [h, Function.update_self]; rfl
      · rw [Function.update_of_ne h]; exact f1 k k1 k2
    · intro k hk
      rw [Function.update_of_ne (hk n (by omega))]
      exact a3 k fun i hi' => hk i (by omega)

theorem fillNarrow_spec {b : Mem} {s : Int → BitVec 32} {w : Nat} (hw : 2 ≤ w) (hs : Sym w s) (hb : Agree b s 0 (w - 1)) {lo hi : Int} (hF : Filled b lo hi)
    {left right : Nat} (hl : lo ≤ -left) (hr : w - 1 + right ≤ hi) (i0 : Int) :
    ∃ b', fillNarrow left right i0 w b = some b' ∧ Agree b' s (-left) (w - 1 + right) ∧ Filled b' lo hi ∧
      ∀ k : Int, ¬ (-(left : Int) ≤ k ∧ k ≤ w - 1 + right) → b' k = b k := by
  obtain ⟨b1, e1, a1, a2, f1, a3⟩ := moveLoop (s := s) (A := lo) (B := hi) left (fun i => pseo (i0 - (i + 1)) i0 (i0 + w)) (fun i => -((i : Int) + 1)) (by
      intro i hi
      refine ⟨_, Dwt.pseo_eq (by omega), ?_⟩
      rw [show i0 + (w : Int) - i0 = w by ring, show i0 - ((i : Int) + 1) - i0 = -((i : Int) + 1) by ring]
      have := Dwt.mirror_range (w := (w : Int)) (by omega) (-((i : Int) + 1))
      exact ⟨this.1, by omega, hs.at_mirror _, by omega, by omega, by omega⟩) hb hF
  obtain ⟨b2, e2, c1, c2, f2, c3⟩ := moveLoop (s := s) (A := lo) (B := hi) right (fun i => pseo (i0 + w - i0 + (i + 1) - 1 + i0) i0 (i0 + w))
    (fun i => (w : Int) + (i + 1) - 1) (by
      intro i hi
      refine ⟨_, Dwt.pseo_eq (by omega), ?_⟩
      rw [show i0 + (w : Int) - i0 = w by ring, show (w : Int) + (i + 1) - 1 + i0 - i0 = w + (i + 1) - 1 by ring]
      have := Dwt.mirror_range (w := (w : Int)) (by omega) ((w : Int) + (i + 1) - 1)
      exact ⟨this.1, by omega, hs.at_mirror _, by omega, by omega, by omega⟩) a1 f1
  refine ⟨b2, ?_, ?_, f2, ?_⟩
  · simp only [fillNarrow, e1, Option.bind_some, e2]
  · intro k k1 k2
    by_cases h0 : k < 0
    · rw [c3 k (by intro i hi; omega)]
      have := a2 (-k - 1).toNat (by omega)
      rw [show -(((-k - 1).toNat : Int) + 1) = k by omega] at this
      exact this
    · by_cases h1 : k ≤ w - 1
      · exact c1 k (by omega) h1
      · have := c2 (k - w).toNat (by omega)
        rw [show (w : Int) + (((k - w).toNat : Int) + 1) - 1 = k by omega] at this
        exact this
  · intro k hk
    rw [c3 k (by intro i hi; omega), a3 k (by intro i hi; omega)]

theorem invLeft_le (u : Int) : 1 ≤ invLeft u ∧ invLeft u ≤ 2 := by unfold invLeft; split_ifs <;> omega
theorem invRight_le (u : Int) : invRight u ≤ 2 := by unfold invRight; split_ifs <;> omega
theorem fwdLeft_le (u : Int) : 1 ≤ fwdLeft u ∧ fwdLeft u ≤ 2 := by unfold fwdLeft; split_ifs <;> omega
theorem fwdRight_le (u : Int) : fwdRight u ≤ 2 := by unfold fwdRight; split_ifs <;> omega

/-- The row filtered in place is the synthesis of the extended signal; at most eight words before it and nine after it change. -/
theorem rowInverse_spec {u0 : Int} {w : Nat} (hw : 2 ≤ w) {b : Mem} {s : Int → BitVec 32} (hs : Sym w s) (hb : Agree b s 0 (w - 1)) {hi : Int}
    (hF : Filled b (-8) hi) (hhi : w + 8 ≤ hi) :
    ∃ b', rowInverse u0 w b = some b' ∧ Agree b' (Dwt.synthesiseAll wInv (u0 % 2) s) 0 (w - 1) ∧ Filled b' (-8) hi ∧ ∀ k : Int, ¬ (-8 ≤ k ∧ k ≤ w + 8) → b' k = b k := by
  have hl := invLeft_le u0
  have hr := invRight_le (u0 + w)
  obtain ⟨b1, e1, a1, f1, c1⟩ : ∃ b1, (if 9 ≤ w then fillWide w b else fillNarrow (invLeft u0) (invRight (u0 + w)) u0 w b) = some b1 ∧
      Agree b1 s (-(invLeft u0 : Nat)) (w - 1 + (invRight (u0 + w) : Nat)) ∧ Filled b1 (-8) hi ∧ ∀ k : Int, ¬ (-8 ≤ k ∧ k ≤ w + 8) → b1 k = b k := by
    split_ifs with h9
    · obtain ⟨b1, e, a, f, c⟩ := fillWide_spec h9 hs hb hF (by omega)
      exact ⟨b1, e, a.mono (by omega) (by omega), f, fun k hk => c k (by omega)⟩
    · obtain ⟨b1, e, a, f, c⟩ := fillNarrow_spec hw hs hb hF (left := invLeft u0) (right := invRight (u0 + w)) (by omega) (by omega) u0
      exact ⟨b1, e, a, f, fun k hk => c k (by omega)⟩
  unfold rowInverse
  simp only [e1, Option.bind_some]
  generalize hL : invLeft u0 = L at a1 hl ⊢
  have hX := Dwt.fromLeft_agree a1 L
  obtain ⟨X', e, f, a, c⟩ := inverse_spec (i0 := u0) (w := w) hw (X := fromLeft L b1) (s := Dwt.shift L s) (L := L) (by rw [hL]) (p := ((L : Int) + u0) % 2) rfl
    (hX.mono (by omega) (by omega)) (hi := hi + L) (fun k k1 k2 => f1 _ (by omega) (by omega)) (by omega)
  rw [Dwt.synthesiseAll_shift s (q := u0 % 2) (by omega) (by omega)] at a
  have key : ∀ k : Int, 0 ≤ k + L → k ≤ hi → (X' (k + L)).isSome := fun k k1 k2 => f _ k1 (by omega)
  refine ⟨_, by rw [e]; rfl, ?_, ?_, ?_⟩
  · intro k k1 k2
    simp only [fromLeft]
    rw [a _ (by omega) (by omega)]
    simp [Dwt.shift]
  · intro k k1 k2
    simp only [fromLeft, sub_neg_eq_add]
    by_cases hk : 0 ≤ k + L
    · exact key k hk k2
    · rw [c _ (by omega)]
      simp only [fromLeft]
      exact f1 _ (by omega) (by omega)
  · intro k hk
    simp only [fromLeft, sub_neg_eq_add]
    rw [c _ (by omega)]
    simp only [fromLeft]
    rw [show k + (L : Int) - L = k by omega]
    exact c1 k hk

theorem blit_spec {x : List (BitVec 32)} {b : Mem} {s : Int → BitVec 32} (hs : Ext x s) {lo hi : Int} (hF : Filled b lo hi) (hlo : lo ≤ 0) (hhi : x.length ≤ hi + 1) :
    ∃ b', blit x b = some b' ∧ Agree b' s 0 (x.length - 1) ∧ Filled b' lo hi ∧ ∀ k : Int, ¬ (0 ≤ k ∧ k < x.length) → b' k = b k := by
  refine ⟨_, if_pos (fun i hi' => hF _ (by omega) (by omega)), ?_, ?_, ?_⟩
  · intro k k1 k2
    have : 0 ≤ k ∧ k < x.length := by omega
    have h := hs.get this.1 this.2
    rw [List.getElem?_eq_getElem (by omega)] at h
    simp only [this, and_self, dif_pos, h]
  · intro k k1 k2
    by_cases h : 0 ≤ k ∧ k < x.length
    · simp [h]
    · simp only [h, dif_neg, not_false_eq_true]; exact hF k k1 k2
  · intro k hk
    simp [hk]

theorem rowForward_spec {u0 : Int} {x : List (BitVec 32)} (hw : 2 ≤ x.length) {tmp : Mem} {s : Int → BitVec 32} (hs : Ext x s) {hi : Int}
    (hF : Filled tmp (-(fwdLeft u0 : Nat)) hi) (hhi : x.length + 8 ≤ hi) :
    ∃ b', rowForward u0 x tmp = some b' ∧ Agree b' (Dwt.analyseAll wFwd (u0 % 2) s) 0 (x.length - 1) ∧ Filled b' (-(fwdLeft u0 : Nat)) hi ∧
      ∀ k : Int, ¬ (-(fwdLeft u0 : Nat) ≤ k ∧ k ≤ x.length + 8) → b' k = tmp k := by
  have hl := fwdLeft_le u0
  have hr := fwdRight_le (u0 + x.length)
  obtain ⟨b0, e0, a0, f0, c0⟩ := blit_spec hs hF (by omega) (by omega)
  obtain ⟨b1, e1, a1, f1, c1⟩ := fillNarrow_spec hw (hs.sym hw) a0 f0 (left := fwdLeft u0) (right := fwdRight (u0 + x.length)) (le_refl _) (by omega) u0
  unfold rowForward
  simp only [e0, e1, Option.bind_some]
  generalize hL : fwdLeft u0 = L at a1 hl f1 c1 ⊢
  have hX := Dwt.fromLeft_agree a1 L
  obtain ⟨X', e, f, a, c⟩ := forward_spec (i0 := u0) (w := x.length) hw (X := fromLeft L b1) (s := Dwt.shift L s) (L := L) (by rw [hL]) (p := ((L : Int) + u0) % 2)
    rfl (hX.mono (by omega) (by omega)) (hi := hi + L) (fun k k1 k2 => f1 _ (by omega) (by omega)) (by omega)
  rw [Dwt.analyseAll_shift s (q := u0 % 2) (by omega) (by omega)] at a
  refine ⟨_, by rw [e]; rfl, ?_, ?_, ?_⟩
  · intro k k1 k2
    simp only [fromLeft]
    rw [a _ (by omega) (by omega)]
    simp [Dwt.shift]
  · intro k k1 k2
    simp only [fromLeft, sub_neg_eq_add]
    exact f _ (by omega) (by omega)
  · intro k hk
    simp only [fromLeft, sub_neg_eq_add]
    rw [c _ (by omega)]
    simp only [fromLeft]
    rw [show k + (L : Int) - L = k by omega, c1 k (by omega), c0 k (by omega)]

end Verif.Simd.Lift
