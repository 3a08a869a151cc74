import Verif.Ht.RefScan
import Verif.Ht.RefStreams

/-! # Refinement passes: the encoder's bits and the decoder's samples, lemmas -/

namespace Verif.Ht

theorem upd2_self (f : Nat → Nat → Nat) (r c v : Nat) : upd2 f r c v r c = v := by simp [upd2]
theorem upd2_upd2 (f : Nat → Nat → Nat) (r c v v' : Nat) : upd2 (upd2 f r c v) r c v' = upd2 f r c v' := by
  funext a b; unfold upd2; split_ifs <;> rfl
theorem upd2_of_ne (f : Nat → Nat → Nat) {r c r' c' : Nat} (v : Nat) (h : ¬ (r' = r ∧ c' = c)) : upd2 f r c v r' c' = f r' c' :=
  if_neg h

theorem testBit_upd2_or (f : Nat → Nat → Nat) (r c v r' c' k : Nat) :
    (upd2 f r c (f r c ||| v) r' c').testBit k = ((f r' c').testBit k || (decide (r' = r ∧ c' = c) && v.testBit k)) := by
  by_cases h : r' = r ∧ c' = c
  · obtain ⟨rfl, rfl⟩ := h
    simp [upd2_self, Nat.testBit_or]
  · rw [upd2_of_ne _ _ h]; simp [h]

theorem RBlk.orSt_of {b : RBlk} {r c : Nat} (h : b.inSt r c) (v : Nat) :
    b.orSt r c v = some { b with st := upd2 b.st r c (b.st r c ||| v) } := if_pos h
theorem RBlk.modSmp_of {b : RBlk} {r c : Nat} (h : b.inSmp r c) (f : Nat → Nat) :
    b.modSmp r c f = some { b with smp := upd2 b.smp r c (f (b.smp r c)) } := if_pos h

theorem RBlk.inSt_pad {b : RBlk} {i j : Nat} (hi : i < b.h) (hj : j < b.w) : b.inSt (i + 1) (j + 1) := by
  have := rup8_ge b.h; have := rup8_ge b.w
  unfold RBlk.inSt; omega
theorem RBlk.inSmp_of {b : RBlk} {i j : Nat} (hi : i < b.h) (hj : j < b.w) : b.inSmp i j := by
  have := rup8_ge b.h; have := rup8_ge b.w
  unfold RBlk.inSmp; omega

/-! ## Specification of the bits and of the samples -/

open Classical in
/-- The magnitude bit of a sample, if it is a member. -/
noncomputable def mBits (b : RBlk) (x : Nat × Nat) : List Bool := if Member b x then [b.mag x] else []
open Classical in
/-- The sign of a sample, if it is a member and nonzero. -/
noncomputable def sBits (b : RBlk) (x : Nat × Nat) : List Bool := if Member b x ∧ b.mag x = true then [b.neg x] else []
/-- The refinement bit of a sample, if it is significant. -/
def rBits (b : RBlk) (x : Nat × Nat) : List Bool := if b.sig x = true then [b.mag x] else []

/-- The samples of a stripe group. -/
abbrev gscan (g : Nat × Nat × Nat × Nat) : List (Nat × Nat) := groupScan g.1 g.2.1 g.2.2.1 g.2.2.2

/-- The bits of a stripe group. -/
noncomputable def gBits (b : RBlk) (g : Nat × Nat × Nat × Nat) : List Bool := (gscan g).flatMap (mBits b) ++ (gscan g).flatMap (sBits b)

/-! ## States -/

theorem PInv.congr {b0 : RBlk} {done : List (Nat × Nat)} {b b' : RBlk} (h : PInv b0 done b) (h1 : b'.w = b.w) (h2 : b'.h = b.h)
    (h3 : b'.causal = b.causal) (h4 : b'.st = b.st) : PInv b0 done b' := by
  obtain ⟨a1, a2, a3, a4, a5, a6, a7⟩ := h
  exact ⟨by rw [h1, a1], by rw [h2, a2], by rw [h3, a3], by rw [h4]; exact a4, by rw [h4]; exact a5, by rw [h4]; exact a6,
    by rw [h4]; exact a7⟩

open Classical in
theorem PInv.visit {b0 : RBlk} {done : List (Nat × Nat)} {b b' : RBlk} (h : PInv b0 done b) {i j v : Nat} (h1 : b'.w = b.w)
    (h2 : b'.h = b.h) (h3 : b'.causal = b.causal) (h4 : b'.st = upd2 b.st (i + 1) (j + 1) (b.st (i + 1) (j + 1) ||| v))
    (v0 : v.testBit 0 = false) (v3 : v.testBit 3 = decide (Member b0 (i, j) ∧ b0.mag (i, j) = true)) (v4 : v.testBit 4 = true) :
    PInv b0 (done ++ [(i, j)]) b' := by
  obtain ⟨a1, a2, a3, a4, a5, a6, a7⟩ := h
  have e : ∀ r c k, (b'.st r c).testBit k = ((b.st r c).testBit k || (decide (r = i + 1 ∧ c = j + 1) && v.testBit k)) := by
    intro r c k; rw [h4, testBit_upd2_or]
  refine ⟨by rw [h1, a1], by rw [h2, a2], by rw [h3, a3], fun r c => by rw [e, v0, a4]; simp, fun u w => ?_, fun u w => ?_,
    fun r c hrc => ?_⟩
  · rw [e, a5, v3]
    by_cases hx : u = i ∧ w = j
    · obtain ⟨rfl, rfl⟩ := hx
      by_cases hm : Member b0 (u, w) ∧ b0.mag (u, w) = true <;> simp [hm]
    · have : ¬ (u, w) = (i, j) := by simpa using hx
      simp [hx]
  · rw [e, a6, v4]
    by_cases hx : u = i ∧ w = j
    · obtain ⟨rfl, rfl⟩ := hx; simp
    · simp [hx]
  · rw [e, a7 r c hrc]
    have : ¬ (r = i + 1 ∧ c = j + 1) := by omega
    simp [this]

theorem toNat_shift_testBit (b : Bool) (k : Nat) : (b.toNat <<< k).testBit k = b := by
  rw [Nat.testBit_shiftLeft]; cases b <;> simp

theorem shift3_bits (b : Bool) : (4 ||| b.toNat <<< 3 ||| 16).testBit 0 = false ∧ (4 ||| b.toNat <<< 3 ||| 16).testBit 3 = b ∧
    (4 ||| b.toNat <<< 3 ||| 16).testBit 4 = true ∧ (4 ||| b.toNat <<< 3 ||| 16).testBit 5 = false ∧
    (4 ||| b.toNat <<< 3 ||| 16).testBit 6 = false := by cases b <;> decide

/-! ## Encoder -/

/-- The encoder's block when `done` has been visited. -/
structure EInv (b0 : RBlk) (done : List (Nat × Nat)) (b : RBlk) : Prop where
  p : PInv b0 done b
  s5 : ∀ r c, (b.st r c).testBit 5 = (b0.st r c).testBit 5
  s6 : ∀ r c, (b.st r c).testBit 6 = (b0.st r c).testBit 6

theorem toNat_eq_one (b : Bool) : decide (b.toNat = 1) = b := by cases b <;> rfl

open Classical in
theorem spMagEnc_eq {b0 : RBlk} (hf : Fresh b0) {pre post : List (Nat × Nat)} {b : RBlk} {x : Nat × Nat} {iEnd : Nat}
    (hs : magScan b0.w b0.h = pre ++ x :: post) (h : EInv b0 pre b) (hE : iEnd = min (4 * (x.1 / 4) + 4) b0.h) (B : List Bool) :
    ∃ b', spMagEnc iEnd (b, B) x = some (b', B ++ mBits b0 x) ∧ EInv b0 (pre ++ [x]) b' := by
  obtain ⟨i, j⟩ := x
  have hin : i < b.h ∧ j < b.w := by
    have : (i, j) ∈ magScan b0.w b0.h := by rw [hs]; simp
    rw [h.p.h, h.p.w]; exact mem_magScan.mp this
  have hst := b.inSt_pad hin.1 hin.2
  unfold spMagEnc
  dsimp only at *
  rw [mbrAt_eq hf hs h.p hE]
  by_cases hm : Member b0 (i, j)
  · simp only [hm, decide_true, Bool.toNat_true, Option.bind_eq_bind, Option.bind_some, ne_eq, one_ne_zero, not_false_eq_true,
      if_true, RBlk.getSt_of hst, RBlk.orSt_of hst, mBits]
    have h1 : ∀ v, ({ b with st := v } : RBlk).inSt (i + 1) (j + 1) := fun _ => hst
    simp only [RBlk.orSt_of (h1 _), Option.bind_some, upd2_self, upd2_upd2, Option.pure_def, and1_toNat,
      Nat.testBit_shiftRight, Nat.add_zero, h.s5, toNat_eq_one]
    have hb := shift3_bits (b0.mag (i, j))
    refine ⟨_, rfl, ⟨?_, ?_, ?_⟩⟩
    · refine h.p.visit (v := 4 ||| (b0.mag (i, j)).toNat <<< 3 ||| 16) rfl rfl rfl ?_ hb.1 ?_ hb.2.2.1
      · dsimp only
        rw [← Nat.or_assoc, ← Nat.or_assoc]; rfl
      · rw [hb.2.1]; simp [hm]
    · intro r c
      rw [← h.s5 r c]
      dsimp only
      rw [Nat.or_assoc, Nat.or_assoc, ← Nat.or_assoc, Nat.or_assoc, testBit_upd2_or]
      have := hb.2.2.2.1
      rw [Nat.or_assoc] at this
      rw [show (1 <<< 2 ||| (((b0.st (i + 1) (j + 1)).testBit 5).toNat <<< 3 ||| 1 <<< 4)).testBit 5 = false from this]
      simp
    · intro r c
      rw [← h.s6 r c]
      dsimp only
      rw [Nat.or_assoc, Nat.or_assoc, ← Nat.or_assoc, Nat.or_assoc, testBit_upd2_or]
      have := hb.2.2.2.2
      rw [Nat.or_assoc] at this
      rw [show (1 <<< 2 ||| (((b0.st (i + 1) (j + 1)).testBit 5).toNat <<< 3 ||| 1 <<< 4)).testBit 6 = false from this]
      simp
  · simp only [hm, decide_false, Bool.toNat_false, Option.bind_eq_bind, Option.bind_some, ne_eq, not_true_eq_false,
      if_false, RBlk.orSt_of hst, mBits, Option.pure_def, List.append_nil]
    refine ⟨_, rfl, ⟨?_, ?_, ?_⟩⟩
    · exact h.p.visit (v := 16) rfl rfl rfl rfl (by decide) (by simp [hm]; decide) (by decide)
    · intro r c
      rw [← h.s5 r c]
      dsimp only
      rw [testBit_upd2_or, show (1 <<< 4).testBit 5 = false by decide]; simp
    · intro r c
      rw [← h.s6 r c]
      dsimp only
      rw [testBit_upd2_or, show (1 <<< 4).testBit 6 = false by decide]; simp

theorem spMagEnc_fold {b0 : RBlk} (hf : Fresh b0) {iEnd : Nat} : ∀ (xs pre post : List (Nat × Nat)) (b : RBlk) (B : List Bool),
    magScan b0.w b0.h = pre ++ xs ++ post → EInv b0 pre b → (∀ x ∈ xs, iEnd = min (4 * (x.1 / 4) + 4) b0.h) →
    ∃ b', xs.foldlM (spMagEnc iEnd) (b, B) = some (b', B ++ xs.flatMap (mBits b0)) ∧ EInv b0 (pre ++ xs) b'
  | [], pre, post, b, B, hs, h, hE => ⟨b, by simp, by simpa using h⟩
  | x :: xs, pre, post, b, B, hs, h, hE => by
    obtain ⟨b1, e1, h1⟩ := spMagEnc_eq hf (post := xs ++ post) (by simpa using hs) h (hE x (by simp)) B
    obtain ⟨b2, e2, h2⟩ := spMagEnc_fold hf xs (pre ++ [x]) post b1 (B ++ mBits b0 x) (by simpa using hs) h1
      (fun y hy => hE y (by simp [hy]))
    exact ⟨b2, by simp [e1, e2], by simpa using h2⟩

open Classical in
theorem spSgnEnc_eq {b0 : RBlk} {done : List (Nat × Nat)} {b : RBlk} {x : Nat × Nat} (h : EInv b0 done b)
    (hx : x ∈ done) (hin : b0.has x) (B : List Bool) : spSgnEnc (b, B) x = some (b, B ++ sBits b0 x) := by
  obtain ⟨i, j⟩ := x
  unfold spSgnEnc
  dsimp only
  rw [RBlk.getSt_of (b.inSt_pad (by rw [h.p.h]; exact hin.1) (by rw [h.p.w]; exact hin.2))]
  simp only [Option.bind_eq_bind, Option.bind_some, and1_toNat, Nat.testBit_shiftRight, Nat.add_zero, h.p.s3, h.s6, toNat_eq_one,
    hx, true_and, sBits, Option.pure_def]
  by_cases hm : Member b0 (i, j) ∧ b0.mag (i, j) = true
  · simp [hm, RBlk.neg]
  · simp [hm]

theorem spSgnEnc_fold {b0 : RBlk} {done : List (Nat × Nat)} {b : RBlk} (h : EInv b0 done b) : ∀ (xs : List (Nat × Nat)) (B : List Bool),
    (∀ x ∈ xs, x ∈ done ∧ b0.has x) → xs.foldlM spSgnEnc (b, B) = some (b, B ++ xs.flatMap (sBits b0))
  | [], B, _ => by simp
  | x :: xs, B, hx => by
    rw [List.foldlM_cons, spSgnEnc_eq h (hx x (by simp)).1 (hx x (by simp)).2]
    simp only [Option.bind_eq_bind, Option.bind_some]
    rw [spSgnEnc_fold h xs _ (fun y hy => hx y (by simp [hy]))]
    simp

theorem spGroupEnc_fold {b0 : RBlk} (hf : Fresh b0) : ∀ (gs : List (Nat × Nat × Nat × Nat)) (pre post : List (Nat × Nat)) (b : RBlk)
    (B : List Bool), magScan b0.w b0.h = pre ++ gs.flatMap gscan ++ post → EInv b0 pre b →
    (∀ g ∈ gs, ∀ x ∈ gscan g, g.1 + g.2.2.2 = min (4 * (x.1 / 4) + 4) b0.h) →
    ∃ b', gs.foldlM spGroupEnc (b, B) = some (b', B ++ gs.flatMap (gBits b0)) ∧ EInv b0 (pre ++ gs.flatMap gscan) b'
  | [], pre, post, b, B, hs, h, hE => ⟨b, by simp, by simpa using h⟩
  | g :: gs, pre, post, b, B, hs, h, hE => by
    obtain ⟨b1, e1, h1⟩ := spMagEnc_fold hf (gscan g) pre (gs.flatMap gscan ++ post) b B (by simpa using hs) h (hE g (by simp))
    have e2 := spSgnEnc_fold h1 (gscan g) (B ++ (gscan g).flatMap (mBits b0)) (fun x hx => ⟨by simp [hx], by
      have : x ∈ magScan b0.w b0.h := by rw [hs]; simp [hx]
      exact mem_magScan.mp this⟩)
    obtain ⟨b3, e3, h3⟩ := spGroupEnc_fold hf gs (pre ++ gscan g) post b1 (B ++ (gscan g).flatMap (mBits b0) ++ (gscan g).flatMap (sBits b0))
      (by simpa using hs) h1 (fun y hy => hE y (by simp [hy]))
    refine ⟨b3, ?_, by simpa using h3⟩
    rw [List.foldlM_cons]
    have : spGroupEnc (b, B) g = some (b1, B ++ (gscan g).flatMap (mBits b0) ++ (gscan g).flatMap (sBits b0)) := by
      unfold spGroupEnc
      simp only [e1, Option.bind_eq_bind, Option.bind_some]
      exact e2
    rw [this]
    simp only [Option.bind_eq_bind, Option.bind_some, e3]
    simp [gBits]

theorem groups_end {w h : Nat} : ∀ g ∈ groups w h, ∀ x ∈ gscan g, g.1 + g.2.2.2 = min (4 * (x.1 / 4) + 4) h := by
  intro g hg x hx
  rw [mem_groupScan] at hx
  rw [groups_eq, List.mem_append, List.mem_flatMap] at hg
  rcases hg with ⟨a, ha, hg⟩ | hg
  · rw [List.mem_range] at ha
    have := mem_groupRow hg; omega
  · have := mem_groupRow hg; omega

theorem groups_flat (w h : Nat) : (groups w h).flatMap gscan = magScan w h := spScan_eq_magScan w h

/-- What the SigProp pass sends. -/
theorem sigpropEncode_eq {b0 : RBlk} (hf : Fresh b0) :
    ∃ b', sigpropEncode b0 = some (b', (groups b0.w b0.h).flatMap (gBits b0)) ∧ EInv b0 (magScan b0.w b0.h) b' := by
  obtain ⟨b', e, h⟩ := spGroupEnc_fold hf (groups b0.w b0.h) [] [] b0 [] (by simp [groups_flat]) ⟨.start hf, fun _ _ => rfl, fun _ _ => rfl⟩
    groups_end
  refine ⟨b', by simpa [sigpropEncode] using e, by simpa [groups_flat] using h⟩

theorem mrEnc_fold {b0 : RBlk} : ∀ (xs : List (Nat × Nat)) (b : RBlk) (B : List Bool), b.w = b0.w → b.h = b0.h →
    (∀ r c, (b.st r c).testBit 0 = (b0.st r c).testBit 0) → (∀ r c, (b.st r c).testBit 5 = (b0.st r c).testBit 5) →
    (∀ x ∈ xs, b0.has x) → ∃ b', xs.foldlM mrEnc (b, B) = some (b', B ++ xs.flatMap (rBits b0))
  | [], b, B, _, _, _, _, _ => ⟨b, by simp⟩
  | (i, j) :: xs, b, B, hw, hh, h0, h5, hx => by
    have hin := hx (i, j) (by simp)
    have hst := b.inSt_pad (by rw [hh]; exact hin.1) (by rw [hw]; exact hin.2)
    dsimp only at hst
    rw [List.foldlM_cons]
    have : ∃ b1, mrEnc (b, B) (i, j) = some (b1, B ++ rBits b0 (i, j)) ∧ b1.w = b0.w ∧ b1.h = b0.h ∧
        (∀ r c, (b1.st r c).testBit 0 = (b0.st r c).testBit 0) ∧ (∀ r c, (b1.st r c).testBit 5 = (b0.st r c).testBit 5) := by
      unfold mrEnc
      simp only [RBlk.getSt_of hst, RBlk.orSt_of hst, Option.bind_eq_bind, Option.bind_some, Nat.shiftRight_zero, and1_toNat, h0,
        Nat.testBit_shiftRight, Nat.add_zero, h5, toNat_eq_one, rBits, Option.pure_def]
      by_cases hg : b0.sig (i, j) = true
      · have hg' : (b0.st (i + 1) (j + 1)).testBit 0 = true := hg
        simp only [hg, hg', Bool.toNat_true, ne_eq, one_ne_zero, not_false_eq_true, if_true]
        refine ⟨_, rfl, hw, hh, fun r c => ?_, fun r c => ?_⟩
        · rw [← h0 r c]; dsimp only; rw [testBit_upd2_or, show (1 <<< 2).testBit 0 = false by decide]; simp
        · rw [← h5 r c]; dsimp only; rw [testBit_upd2_or, show (1 <<< 2).testBit 5 = false by decide]; simp
      · have hg' : (b0.st (i + 1) (j + 1)).testBit 0 = false := Bool.eq_false_iff.mpr hg
        simp only [hg, hg', Bool.toNat_false, ne_eq, not_true_eq_false, if_false, List.append_nil, Bool.false_eq_true]
        exact ⟨_, rfl, hw, hh, h0, h5⟩
    obtain ⟨b1, e1, c1, c2, c3, c4⟩ := this
    obtain ⟨b2, e2⟩ := mrEnc_fold xs b1 (B ++ rBits b0 (i, j)) c1 c2 c3 c4 (fun y hy => hx y (by simp [hy]))
    refine ⟨b2, ?_⟩
    rw [e1]
    simp only [Option.bind_eq_bind, Option.bind_some, e2]
    simp

theorem groupScan_length (i0 j0 wd ht : Nat) : (groupScan i0 j0 wd ht).length = wd * ht := by
  simp [groupScan, List.length_flatMap]

theorem magScan_length (w h : Nat) : (magScan w h).length = w * h := by
  unfold magScan
  rw [List.length_append, groupScan_length, List.length_flatMap]
  simp only [groupScan_length, List.map_const', List.length_range, List.sum_replicate, Nat.nsmul_eq_mul]
  conv_rhs => rw [show h = 4 * (h / 4) + h % 4 by omega]
  ring

theorem flatMap_le {α : Type} {f : α → List Bool} (h : ∀ x, (f x).length ≤ 1) (xs : List α) : (xs.flatMap f).length ≤ xs.length := by
  induction xs with
  | nil => simp
  | cons x xs ih => have := h x; simp only [List.flatMap_cons, List.length_append, List.length_cons]; omega

theorem gBits_length (b : RBlk) (g : Nat × Nat × Nat × Nat) : (gBits b g).length ≤ 2 * (gscan g).length := by
  unfold gBits
  have h1 := flatMap_le (f := mBits b) (fun x => by unfold mBits; split_ifs <;> simp) (gscan g)
  have h2 := flatMap_le (f := sBits b) (fun x => by unfold sBits; split_ifs <;> simp) (gscan g)
  rw [List.length_append]; omega

theorem gBits_total (b : RBlk) (gs : List (Nat × Nat × Nat × Nat)) : (gs.flatMap (gBits b)).length ≤ 2 * (gs.flatMap gscan).length := by
  induction gs with
  | nil => simp
  | cons g gs ih => have := gBits_length b g; simp only [List.flatMap_cons, List.length_append]; omega

/-- The refinement segment. -/
theorem refineEncode_eq {b0 : RBlk} (hf : Fresh b0) (hsz : b0.w * b0.h ≤ 4096) :
    refineEncode b0 = some (termSpMr (((groups b0.w b0.h).flatMap (gBits b0)).foldl SpEnc.emit SpEnc.init)
      (((magScan b0.w b0.h).flatMap (rBits b0)).foldl MrEnc.emit MrEnc.init)) := by
  obtain ⟨b1, e1, h1⟩ := sigpropEncode_eq hf
  obtain ⟨b2, e2⟩ := mrEnc_fold (b0 := b0) (magScan b0.w b0.h) b1 [] h1.p.w h1.p.h h1.p.s0 h1.s5 (fun x hx => mem_magScan.mp hx)
  have e2' : magrefEncode b1 = some (b2, (magScan b0.w b0.h).flatMap (rBits b0)) := by
    unfold magrefEncode; rw [h1.p.w, h1.p.h, e2]; simp
  unfold refineEncode
  simp only [e1, e2', Option.bind_eq_bind, Option.bind_some]
  unfold refSegment
  have a1 := (SpInv.init.emitAll ((groups b0.w b0.h).flatMap (gBits b0))).length
  have a2 := (MrInv.init.emitAll ((magScan b0.w b0.h).flatMap (rBits b0))).length
  have a3 := gBits_total b0 (groups b0.w b0.h)
  have a4 := flatMap_le (f := rBits b0) (fun x => by unfold rBits; split_ifs <;> simp) (magScan b0.w b0.h)
  rw [groups_flat, magScan_length] at a3
  rw [magScan_length] at a4
  rw [List.nil_append] at a1 a2
  dsimp only
  rw [if_pos (by unfold maxLref; omega)]

/-! ## Decoder -/

open Classical in
/-- What the SigProp pass ors into a sample: magnitude and centre of the interval. -/
noncomputable def spAmt (b : RBlk) (p : Nat) (x : Nat × Nat) : Nat := if Member b x ∧ b.mag x = true then 1 <<< p ||| 1 <<< (p - 1) else 0
open Classical in
/-- What it ors in for the sign. -/
noncomputable def spSgn (b : RBlk) (x : Nat × Nat) : Nat := if Member b x ∧ b.mag x = true then (b.neg x).toNat <<< 31 else 0

/-- The samples after magnitudes `dm` and signs `ds`. -/
def SInv (b0 : RBlk) (p : Nat) (v0 : Nat → Nat → Nat) (dm ds : List (Nat × Nat)) (v : Nat → Nat → Nat) : Prop :=
  ∀ i j, v i j = v0 i j ||| (if (i, j) ∈ dm then spAmt b0 p (i, j) else 0) ||| (if (i, j) ∈ ds then spSgn b0 (i, j) else 0)

theorem or_right_comm' (a b c : Nat) : a ||| b ||| c = a ||| c ||| b := by
  rw [Nat.or_assoc, Nat.or_comm b, ← Nat.or_assoc]

theorem SInv.mag {b0 : RBlk} {p : Nat} {v0 v v' : Nat → Nat → Nat} {dm ds : List (Nat × Nat)} (h : SInv b0 p v0 dm ds v) {i j : Nat}
    (hv : v' = upd2 v i j (v i j ||| spAmt b0 p (i, j))) : SInv b0 p v0 (dm ++ [(i, j)]) ds v' := by
  intro a c
  by_cases hx : a = i ∧ c = j
  · obtain ⟨rfl, rfl⟩ := hx
    rw [hv, upd2_self, h a c]
    have : (a, c) ∈ dm ++ [(a, c)] := by simp
    rw [if_pos this]
    by_cases hm : (a, c) ∈ dm
    · rw [if_pos hm, or_right_comm', Nat.or_assoc (v0 a c), Nat.or_self]
    · rw [if_neg hm, Nat.or_zero, or_right_comm']
  · rw [hv, upd2_of_ne _ _ hx, h a c]
    have : (a, c) ∈ dm ++ [(i, j)] ↔ (a, c) ∈ dm := by simp [hx]
    simp only [this]

theorem SInv.sgn {b0 : RBlk} {p : Nat} {v0 v v' : Nat → Nat → Nat} {dm ds : List (Nat × Nat)} (h : SInv b0 p v0 dm ds v) {i j : Nat}
    (hv : v' = upd2 v i j (v i j ||| spSgn b0 (i, j))) : SInv b0 p v0 dm (ds ++ [(i, j)]) v' := by
  intro a c
  by_cases hx : a = i ∧ c = j
  · obtain ⟨rfl, rfl⟩ := hx
    rw [hv, upd2_self, h a c]
    have : (a, c) ∈ ds ++ [(a, c)] := by simp
    rw [if_pos this]
    by_cases hm : (a, c) ∈ ds
    · rw [if_pos hm, Nat.or_assoc _ (spSgn b0 (a, c)), Nat.or_self]
    · rw [if_neg hm, Nat.or_zero]
  · rw [hv, upd2_of_ne _ _ hx, h a c]
    have : (a, c) ∈ ds ++ [(i, j)] ↔ (a, c) ∈ ds := by simp [hx]
    simp only [this]

theorem upd2_same (f : Nat → Nat → Nat) (r c : Nat) : upd2 f r c (f r c) = f := by
  funext a b; unfold upd2
  split_ifs with h
  · rw [h.1, h.2]
  · rfl

open Classical in
theorem spMagStep_eq {b0 : RBlk} (hf : Fresh b0) {D : Nat → Option Nat} {seg : List Nat} (hD : Shows D seg) (p : Nat)
    {pre post ds : List (Nat × Nat)} {b : RBlk} {x : Nat × Nat} {iEnd : Nat} {v0 : Nat → Nat → Nat}
    (hs : magScan b0.w b0.h = pre ++ x :: post) (h : PInv b0 pre b) (hv : SInv b0 p v0 pre ds b.smp)
    (hE : iEnd = min (4 * (x.1 / 4) + 4) b0.h) {r : SpDec} {L : List Bool} (hr : SpRep seg r (mBits b0 x ++ L)) :
    ∃ b' r', spMagStep D seg.length p iEnd (b, r) x = some (b', r') ∧ PInv b0 (pre ++ [x]) b' ∧ SInv b0 p v0 (pre ++ [x]) ds b'.smp ∧
      SpRep seg r' L := by
  obtain ⟨i, j⟩ := x
  have hin : i < b.h ∧ j < b.w := by
    have : (i, j) ∈ magScan b0.w b0.h := by rw [hs]; simp
    rw [h.h, h.w]; exact mem_magScan.mp this
  have hst := b.inSt_pad hin.1 hin.2
  have hsm := b.inSmp_of hin.1 hin.2
  unfold spMagStep
  dsimp only at *
  rw [mbrAt_eq hf hs h hE]
  by_cases hm : Member b0 (i, j)
  · simp only [mBits, hm, if_true, List.singleton_append] at hr
    obtain ⟨r', er, hr'⟩ := hr.bit hD
    have h1 : ∀ v u, ({ b with st := v, smp := u } : RBlk).inSt (i + 1) (j + 1) := fun _ _ => hst
    have h2 : ∀ v u, ({ b with st := v, smp := u } : RBlk).inSmp i j := fun _ _ => hsm
    simp only [hm, decide_true, Bool.toNat_true, Option.bind_eq_bind, Option.bind_some, ne_eq, one_ne_zero, not_false_eq_true,
      if_true, RBlk.orSt_of hst, er, RBlk.orSt_of (h1 _ _), RBlk.modSmp_of (h2 _ _), upd2_self, upd2_upd2, Option.pure_def]
    have hb := shift3_bits (b0.mag (i, j))
    refine ⟨_, _, rfl, ?_, ?_, hr'⟩
    · refine h.visit (v := 4 ||| (b0.mag (i, j)).toNat <<< 3 ||| 16) rfl rfl rfl ?_ hb.1 ?_ hb.2.2.1
      · dsimp only
        rw [← Nat.or_assoc, ← Nat.or_assoc]; rfl
      · rw [hb.2.1]; simp [hm]
    · refine hv.mag ?_
      dsimp only
      rw [Nat.or_assoc]
      congr 2
      unfold spAmt
      cases hg : b0.mag (i, j) <;> simp [hm]
  · simp only [mBits, hm, if_false, List.nil_append] at hr
    simp only [hm, decide_false, Bool.toNat_false, Option.bind_eq_bind, Option.bind_some, ne_eq, not_true_eq_false,
      if_false, RBlk.orSt_of hst, Option.pure_def]
    refine ⟨_, _, rfl, ?_, ?_, hr⟩
    · exact h.visit (v := 16) rfl rfl rfl rfl (by decide) (by simp [hm]; decide) (by decide)
    · refine hv.mag ?_
      simp [spAmt, hm, upd2_same]

theorem spMagStep_fold {b0 : RBlk} (hf : Fresh b0) {D : Nat → Option Nat} {seg : List Nat} (hD : Shows D seg) (p : Nat)
    {v0 : Nat → Nat → Nat} {iEnd : Nat} {ds : List (Nat × Nat)} {L : List Bool} : ∀ (xs pre post : List (Nat × Nat)) (b : RBlk) (r : SpDec),
    magScan b0.w b0.h = pre ++ xs ++ post → PInv b0 pre b → SInv b0 p v0 pre ds b.smp →
    (∀ x ∈ xs, iEnd = min (4 * (x.1 / 4) + 4) b0.h) → SpRep seg r (xs.flatMap (mBits b0) ++ L) →
    ∃ b' r', xs.foldlM (spMagStep D seg.length p iEnd) (b, r) = some (b', r') ∧ PInv b0 (pre ++ xs) b' ∧
      SInv b0 p v0 (pre ++ xs) ds b'.smp ∧ SpRep seg r' L
  | [], pre, post, b, r, hs, h, hv, hE, hr => ⟨b, r, by simp, by simpa using h, by simpa using hv, by simpa using hr⟩
  | x :: xs, pre, post, b, r, hs, h, hv, hE, hr => by
    obtain ⟨b1, r1, e1, h1, hv1, hr1⟩ := spMagStep_eq hf hD p (post := xs ++ post) (by simpa using hs) h hv (hE x (by simp))
      (L := xs.flatMap (mBits b0) ++ L) (by simpa using hr)
    obtain ⟨b2, r2, e2, h2, hv2, hr2⟩ := spMagStep_fold hf hD p xs (pre ++ [x]) post b1 r1 (by simpa using hs) h1 hv1
      (fun y hy => hE y (by simp [hy])) hr1
    exact ⟨b2, r2, by simp [e1, e2], by simpa using h2, by simpa using hv2, hr2⟩

open Classical in
theorem spSgnStep_eq {b0 : RBlk} {D : Nat → Option Nat} {seg : List Nat} (hD : Shows D seg) {p : Nat}
    {done ds : List (Nat × Nat)} {b : RBlk} {x : Nat × Nat} {v0 : Nat → Nat → Nat}
    (h : PInv b0 done b) (hv : SInv b0 p v0 done ds b.smp) (hx : x ∈ done) (hin : b0.has x) {r : SpDec} {L : List Bool}
    (hr : SpRep seg r (sBits b0 x ++ L)) :
    ∃ b' r', spSgnStep D seg.length (b, r) x = some (b', r') ∧ PInv b0 done b' ∧ SInv b0 p v0 done (ds ++ [x]) b'.smp ∧
      SpRep seg r' L := by
  obtain ⟨i, j⟩ := x
  have hi : i < b.h := by rw [h.h]; exact hin.1
  have hj : j < b.w := by rw [h.w]; exact hin.2
  unfold spSgnStep
  dsimp only
  rw [RBlk.getSt_of (b.inSt_pad hi hj)]
  simp only [Option.bind_eq_bind, Option.bind_some, and1_toNat, Nat.testBit_shiftRight, Nat.add_zero, h.s3, hx, true_and, Option.pure_def]
  by_cases hm : Member b0 (i, j) ∧ b0.mag (i, j) = true
  · simp only [sBits, hm, and_self, if_true, List.singleton_append] at hr
    obtain ⟨r', er, hr'⟩ := hr.bit hD
    simp only [hm, and_self, decide_true, Bool.toNat_true, ne_eq, one_ne_zero, not_false_eq_true, if_true, er, Option.bind_some,
      RBlk.modSmp_of (b.inSmp_of hi hj)]
    refine ⟨_, _, rfl, h.congr rfl rfl rfl rfl, hv.sgn ?_, hr'⟩
    simp [spSgn, hm]
  · simp only [sBits, hm, if_false, List.nil_append] at hr
    simp only [hm, decide_false, Bool.toNat_false, ne_eq, not_true_eq_false, if_false]
    refine ⟨_, _, rfl, h, hv.sgn ?_, hr⟩
    simp [spSgn, hm, upd2_same]

theorem spSgnStep_fold {b0 : RBlk} {D : Nat → Option Nat} {seg : List Nat} (hD : Shows D seg) {p : Nat}
    {v0 : Nat → Nat → Nat} {done : List (Nat × Nat)} {L : List Bool} : ∀ (xs ds : List (Nat × Nat)) (b : RBlk) (r : SpDec),
    PInv b0 done b → SInv b0 p v0 done ds b.smp → (∀ x ∈ xs, x ∈ done ∧ b0.has x) → SpRep seg r (xs.flatMap (sBits b0) ++ L) →
    ∃ b' r', xs.foldlM (spSgnStep D seg.length) (b, r) = some (b', r') ∧ PInv b0 done b' ∧
      SInv b0 p v0 done (ds ++ xs) b'.smp ∧ SpRep seg r' L
  | [], ds, b, r, h, hv, hx, hr => ⟨b, r, by simp, by simpa using h, by simpa using hv, by simpa using hr⟩
  | x :: xs, ds, b, r, h, hv, hx, hr => by
    obtain ⟨b1, r1, e1, h1, hv1, hr1⟩ := spSgnStep_eq hD h hv (hx x (by simp)).1 (hx x (by simp)).2
      (L := xs.flatMap (sBits b0) ++ L) (by simpa using hr)
    obtain ⟨b2, r2, e2, h2, hv2, hr2⟩ := spSgnStep_fold hD xs (ds ++ [x]) b1 r1 h1 hv1 (fun y hy => hx y (by simp [hy])) hr1
    exact ⟨b2, r2, by simp [e1, e2], h2, by simpa using hv2, hr2⟩

theorem spGroup_fold {b0 : RBlk} (hf : Fresh b0) {D : Nat → Option Nat} {seg : List Nat} (hD : Shows D seg) (p : Nat)
    {v0 : Nat → Nat → Nat} {L : List Bool} : ∀ (gs : List (Nat × Nat × Nat × Nat)) (pre post : List (Nat × Nat)) (b : RBlk) (r : SpDec),
    magScan b0.w b0.h = pre ++ gs.flatMap gscan ++ post → PInv b0 pre b → SInv b0 p v0 pre pre b.smp →
    (∀ g ∈ gs, ∀ x ∈ gscan g, g.1 + g.2.2.2 = min (4 * (x.1 / 4) + 4) b0.h) → SpRep seg r (gs.flatMap (gBits b0) ++ L) →
    ∃ b' r', gs.foldlM (spGroup D seg.length p) (b, r) = some (b', r') ∧ PInv b0 (pre ++ gs.flatMap gscan) b' ∧
      SInv b0 p v0 (pre ++ gs.flatMap gscan) (pre ++ gs.flatMap gscan) b'.smp ∧ SpRep seg r' L
  | [], pre, post, b, r, hs, h, hv, hE, hr => ⟨b, r, by simp, by simpa using h, by simpa using hv, by simpa using hr⟩
  | g :: gs, pre, post, b, r, hs, h, hv, hE, hr => by
    obtain ⟨b1, r1, e1, h1, hv1, hr1⟩ := spMagStep_fold hf hD p (gscan g) pre (gs.flatMap gscan ++ post) b r (by simpa using hs) h hv
      (hE g (by simp)) (L := (gscan g).flatMap (sBits b0) ++ (gs.flatMap (gBits b0) ++ L)) (by simpa [gBits] using hr)
    obtain ⟨b2, r2, e2, h2, hv2, hr2⟩ := spSgnStep_fold hD (gscan g) pre b1 r1 h1 hv1 (fun x hx => ⟨by simp [hx], by
      have : x ∈ magScan b0.w b0.h := by rw [hs]; simp [hx]
      exact mem_magScan.mp this⟩) hr1
    obtain ⟨b3, r3, e3, h3, hv3, hr3⟩ := spGroup_fold hf hD p gs (pre ++ gscan g) post b2 r2 (by simpa using hs) h2 hv2
      (fun y hy => hE y (by simp [hy])) hr2
    refine ⟨b3, r3, ?_, by simpa using h3, by simpa using hv3, hr3⟩
    have : spGroup D seg.length p (b, r) g = some (b2, r2) := by
      unfold spGroup
      simp only [e1, Option.bind_eq_bind, Option.bind_some]
      exact e2
    rw [List.foldlM_cons, this]
    simp only [Option.bind_eq_bind, Option.bind_some, e3]

/-- The decoder's block shows the significance the encoder's block has. -/
structure SameSig (b d : RBlk) : Prop where
  w : d.w = b.w
  h : d.h = b.h
  ca : d.causal = b.causal
  s0 : ∀ r c, (d.st r c).testBit 0 = (b.st r c).testBit 0

theorem sigpropDecode_eq {b0 d : RBlk} (hf : Fresh b0) (hfd : Fresh d) (hsd : SameSig b0 d) {D : Nat → Option Nat} {seg : List Nat}
    (hD : Shows D seg) {p : Nat} (hp : p ≠ 0) (hr : SpRep seg SpDec.init ((groups b0.w b0.h).flatMap (gBits b0))) :
    ∃ d', sigpropDecode D seg.length p d = some d' ∧ PInv b0 (magScan b0.w b0.h) d' ∧
      SInv b0 p d.smp (magScan b0.w b0.h) (magScan b0.w b0.h) d'.smp := by
  have hP : PInv b0 [] d := ⟨hsd.w, hsd.h, hsd.ca, hsd.s0, fun _ _ => by rw [hfd.r3]; simp, fun _ _ => by rw [hfd.r4]; simp,
    fun _ _ _ => hfd.r3 _ _⟩
  obtain ⟨d', r', e, h1, h2, -⟩ := spGroup_fold hf hD p (v0 := d.smp) (L := []) (groups b0.w b0.h) [] [] d SpDec.init
    (by simp [groups_flat]) hP (fun i j => by simp) groups_end (by simpa using hr)
  refine ⟨d', ?_, by simpa [groups_flat] using h1, by simpa [groups_flat] using h2⟩
  unfold sigpropDecode
  rw [if_neg hp, hsd.w, hsd.h, e]; rfl

/-- What MagRef makes of a sample. -/
def mrVal (p v : Nat) (bit : Bool) : Nat := (v &&& ((0xFFFFFFFE ||| bit.toNat) <<< p) % 2 ^ 32) ||| 1 <<< (p - 1)

theorem mrStep_fold {b0 : RBlk} {D : Nat → Option Nat} {seg : List Nat} (hD : Shows D seg) (p : Nat) {v0 : Nat → Nat → Nat} :
    ∀ (xs pre : List (Nat × Nat)) (b : RBlk) (r : MrDec), (pre ++ xs).Nodup → b.w = b0.w → b.h = b0.h →
    (∀ r c, (b.st r c).testBit 0 = (b0.st r c).testBit 0) → (∀ x ∈ xs, b0.has x) →
    (∀ i j, b.smp i j = if (i, j) ∈ pre ∧ b0.sig (i, j) = true then mrVal p (v0 i j) (b0.mag (i, j)) else v0 i j) →
    MrRep seg r (xs.flatMap (rBits b0)) →
    ∃ b' r', xs.foldlM (mrStep D p) (b, r) = some (b', r') ∧
      (∀ i j, b'.smp i j = if (i, j) ∈ pre ++ xs ∧ b0.sig (i, j) = true then mrVal p (v0 i j) (b0.mag (i, j)) else v0 i j)
  | [], pre, b, r, _, _, _, _, _, hv, _ => ⟨b, r, by simp, by simpa using hv⟩
  | (i, j) :: xs, pre, b, r, hnd, hw, hh, h0, hx, hv, hr => by
    have hin := hx (i, j) (by simp)
    have hi : i < b.h := by rw [hh]; exact hin.1
    have hj : j < b.w := by rw [hw]; exact hin.2
    have hnot : (i, j) ∉ pre := by
      intro hc
      rw [List.nodup_append] at hnd
      exact hnd.2.2 _ hc _ (by simp) rfl
    have : ∃ b1 r1, mrStep D p (b, r) (i, j) = some (b1, r1) ∧ b1.w = b0.w ∧ b1.h = b0.h ∧
        (∀ r c, (b1.st r c).testBit 0 = (b0.st r c).testBit 0) ∧
        (∀ u v, b1.smp u v = if (u, v) ∈ pre ++ [(i, j)] ∧ b0.sig (u, v) = true then mrVal p (v0 u v) (b0.mag (u, v)) else v0 u v) ∧
        MrRep seg r1 (xs.flatMap (rBits b0)) := by
      unfold mrStep
      have hst := b.inSt_pad hi hj
      have h2 : ∀ v u, ({ b with st := v, smp := u } : RBlk).inSmp i j := fun _ _ => b.inSmp_of hi hj
      simp only [RBlk.getSt_of hst, RBlk.orSt_of hst, Option.bind_eq_bind, Option.bind_some, Nat.shiftRight_zero, and1_toNat, h0,
        Option.pure_def]
      by_cases hg : b0.sig (i, j) = true
      · have hg' : (b0.st (i + 1) (j + 1)).testBit 0 = true := hg
        rw [List.flatMap_cons, rBits, if_pos hg, List.singleton_append] at hr
        obtain ⟨r1, er, hr1⟩ := hr.bit hD
        simp only [hg', Bool.toNat_true, ne_eq, one_ne_zero, not_false_eq_true, if_true, er, Option.bind_some,
          RBlk.modSmp_of (h2 _ _), upd2_self, upd2_upd2]
        refine ⟨_, _, rfl, hw, hh, fun r c => ?_, fun u v => ?_, hr1⟩
        · rw [← h0 r c]; dsimp only; rw [testBit_upd2_or, show (1 <<< 2).testBit 0 = false by decide]; simp
        · dsimp only
          by_cases hx : u = i ∧ v = j
          · obtain ⟨rfl, rfl⟩ := hx
            rw [upd2_self, hv u v, if_neg (fun hc => hnot hc.1), if_pos ⟨by simp, hg⟩]; rfl
          · rw [upd2_of_ne _ _ hx, hv u v]
            have : (u, v) ∈ pre ++ [(i, j)] ↔ (u, v) ∈ pre := by simp [hx]
            simp only [this]
      · have hg' : (b0.st (i + 1) (j + 1)).testBit 0 = false := Bool.eq_false_iff.mpr hg
        rw [List.flatMap_cons, rBits, if_neg hg, List.nil_append] at hr
        simp only [hg', Bool.toNat_false, ne_eq, not_true_eq_false, if_false]
        refine ⟨_, _, rfl, hw, hh, h0, fun u v => ?_, hr⟩
        rw [hv u v]
        by_cases hx : u = i ∧ v = j
        · obtain ⟨rfl, rfl⟩ := hx
          simp [hg]
        · have : (u, v) ∈ pre ++ [(i, j)] ↔ (u, v) ∈ pre := by simp [hx]
          simp only [this]
    obtain ⟨b1, r1, e1, c1, c2, c3, c4, c5⟩ := this
    obtain ⟨b2, r2, e2, c6⟩ := mrStep_fold hD p xs (pre ++ [(i, j)]) b1 r1 (by simpa using hnd) c1 c2 c3 (fun y hy => hx y (by simp [hy])) c4 c5
    refine ⟨b2, r2, ?_, by simpa using c6⟩
    rw [List.foldlM_cons, e1]
    simp only [Option.bind_eq_bind, Option.bind_some, e2]

theorem magScan_nodup (w h : Nat) : (magScan w h).Nodup :=
  (pairwise_magScan w h).imp fun {x y} hb => by rintro rfl; exact Before.irrefl _ hb

theorem magrefDecode_eq {b0 d : RBlk} (hw : d.w = b0.w) (hh : d.h = b0.h) (h0 : ∀ r c, (d.st r c).testBit 0 = (b0.st r c).testBit 0)
    {D : Nat → Option Nat} {seg : List Nat} (hD : Shows D seg) {p : Nat} (hp : p ≠ 0)
    (hr : MrRep seg (MrDec.init seg.length) ((magScan b0.w b0.h).flatMap (rBits b0))) :
    ∃ d', magrefDecode D seg.length p d = some d' ∧
      ∀ i j, d'.smp i j = if (i < b0.h ∧ j < b0.w) ∧ b0.sig (i, j) = true then mrVal p (d.smp i j) (b0.mag (i, j)) else d.smp i j := by
  obtain ⟨d', r', e, h⟩ := mrStep_fold (b0 := b0) hD p (v0 := d.smp) (magScan b0.w b0.h) [] d (MrDec.init seg.length)
    (by simpa using magScan_nodup _ _) hw hh h0 (fun x hx => mem_magScan.mp hx) (fun i j => by simp) hr
  refine ⟨d', ?_, fun i j => ?_⟩
  · unfold magrefDecode
    rw [if_neg hp, hw, hh, e]; rfl
  · rw [h i j]
    simp only [List.nil_append, mem_magScan]

/-! ## Values -/

theorem and_mask (m : Nat) (bit : Bool) (h : 2 * m + 1 < 2 ^ 32) : (2 * m + 1) &&& (0xFFFFFFFE ||| bit.toNat) = 2 * m + bit.toNat := by
  cases bit
  · apply Nat.eq_of_testBit_eq
    intro k
    rw [Nat.testBit_and]
    simp only [Bool.toNat_false, Nat.or_zero, Nat.add_zero]
    cases k with
    | zero => simp
    | succ k =>
      rw [Nat.testBit_succ, Nat.testBit_succ, Nat.testBit_succ, show (2 * m + 1) / 2 = m by omega, show 2 * m / 2 = m by omega,
        show (0xFFFFFFFE : Nat) / 2 = 2 ^ 31 - 1 by decide, ← Nat.testBit_and, Nat.and_two_pow_sub_one_eq_mod, Nat.mod_eq_of_lt (by omega)]
  · rw [show (0xFFFFFFFE ||| true.toNat : Nat) = 2 ^ 32 - 1 by decide, Nat.and_two_pow_sub_one_eq_mod, Nat.mod_eq_of_lt h]; rfl

theorem mrVal_eq {p m v : Nat} (hp : p ≠ 0) (bit : Bool) (hv : v = (2 * m + 1) * 2 ^ p) (h32 : v < 2 ^ 32) :
    mrVal p v bit = (4 * m + 2 * bit.toNat + 1) * 2 ^ (p - 1) := by
  obtain ⟨q, rfl⟩ := Nat.exists_eq_succ_of_ne_zero hp
  unfold mrVal
  have h1 : v &&& ((0xFFFFFFFE ||| bit.toNat) <<< q.succ) % 2 ^ 32 = v &&& (0xFFFFFFFE ||| bit.toNat) <<< q.succ := by
    apply Nat.eq_of_testBit_eq
    intro k
    rw [Nat.testBit_and, Nat.testBit_and, Nat.testBit_mod_two_pow]
    by_cases hk : k < 32
    · simp [hk]
    · rw [Nat.testBit_lt_two_pow (lt_of_lt_of_le h32 (Nat.pow_le_pow_right (by omega) (by omega)))]; simp
  have hlt : 2 * m + 1 < 2 ^ 32 := by
    have : (2 * m + 1) * 1 ≤ (2 * m + 1) * 2 ^ q.succ := Nat.mul_le_mul_left _ Nat.one_le_two_pow
    omega
  rw [h1, hv, ← Nat.shiftLeft_eq, ← Nat.shiftLeft_and_distrib, and_mask m bit hlt]
  simp only [Nat.succ_eq_add_one, Nat.add_sub_cancel]
  rw [show (2 * m + bit.toNat) <<< (q + 1) = (4 * m + 2 * bit.toNat) <<< q by rw [Nat.shiftLeft_eq, Nat.shiftLeft_eq, pow_succ]; ring,
    ← Nat.shiftLeft_or_distrib, Nat.shiftLeft_eq]
  congr 1
  rw [show 4 * m + 2 * bit.toNat = (2 * m + bit.toNat) * 2 ^ 1 by ring, Nat.or_comm, ← Nat.shiftLeft_eq,
    show (2 * m + bit.toNat) <<< 1 = (2 * m + bit.toNat) <<< 1 from rfl]
  have := or_shift_low (n := 1) (a := 1) (b := 2 * m + bit.toNat) (by decide)
  rw [this]; omega

theorem spVal_eq {p : Nat} (hp : p ≠ 0) (hp30 : p ≤ 30) (s : Bool) :
    1 <<< p ||| 1 <<< (p - 1) ||| s.toNat <<< 31 = s.toNat * 2 ^ 31 + 3 * 2 ^ (p - 1) := by
  obtain ⟨q, rfl⟩ := Nat.exists_eq_succ_of_ne_zero hp
  simp only [Nat.succ_eq_add_one, Nat.add_sub_cancel]
  have h1 : 1 <<< (q + 1) ||| 1 <<< q = 3 * 2 ^ q := by
    rw [show 1 <<< (q + 1) = 2 <<< q by rw [Nat.shiftLeft_eq, Nat.shiftLeft_eq, pow_succ]; ring, ← Nat.shiftLeft_or_distrib,
      Nat.shiftLeft_eq]; rfl
  have h2 : 3 * 2 ^ q < 2 ^ 31 := by
    have : 2 ^ q ≤ 2 ^ 29 := Nat.pow_le_pow_right (by omega) (by omega)
    omega
  rw [h1, or_shift_low h2]; omega

end Verif.Ht
