import Verif.Ht.PackLoop

/-! # Packed SigProp against the scalar build, lemmas -/

namespace Verif.Ht

/-! ## Loads -/

theorem ld_bits {a c : Nat} {F : Nat → Bool} (h1 : ∀ k, a.testBit k = (decide (k < 16) && F k))
    (h2 : ∀ k, c.testBit k = (decide (k < 16) && F (k + 16))) {k : Nat} (hk : k < 32) : (a ||| c <<< 16).testBit k = F k := by
  rw [Nat.testBit_or, Nat.testBit_shiftLeft, h1, h2]
  by_cases h : k < 16
  · simp [h]
  · rw [decide_eq_false h, decide_eq_true (show k ≥ 16 by omega), decide_eq_true (show k - 16 < 16 by omega), Nat.sub_add_cancel (by omega)]
    simp

/-- `prev_row_sig`, as far as it is looked at: the lowest row of each group, of this row of groups to the left of `qx` and of the
previous one from `qx`. -/
structure RowInv (b : RBlk) (qy qx : Nat) (row : Nat → Nat) : Prop where
  hi : ∀ q k, 16 ≤ k → (row q).testBit k = false
  lo : ∀ q c, c < 4 → (row q).testBit (4 * c + 3) = hot b (if q < qx then qy * 4 + 4 else qy * 4) (q * 4 + c + 1)

/-- `prev`: the column to the left. -/
structure PrevInv (b0 b : RBlk) (qy qx prev : Nat) : Prop where
  hi : ∀ k, 16 ≤ k → prev.testBit k = false
  lo : ∀ r < 4, prev.testBit (12 + r) = colOf (hot b) b0.causal (qy * 4) r (qx * 4)

theorem fit_lt {b0 : RBlk} (hfit : quads b0.h * mstrOf b0.w + quads b0.w < sigmaLen) {qy qx : Nat} (hy : qy < quads b0.h)
    (hx : qx < quads b0.w) : qy * mstrOf b0.w + qx + 1 < sigmaLen ∧ qy * mstrOf b0.w + mstrOf b0.w + qx + 1 < sigmaLen ∧ qx + 1 < prevLen := by
  have h1 : (qy + 1) * mstrOf b0.w ≤ quads b0.h * mstrOf b0.w := Nat.mul_le_mul_right _ hy
  rw [Nat.succ_mul] at h1
  have := mstr_gt b0.w
  unfold sigmaLen prevLen at *
  omega

/-- `mbr` of a group. -/
theorem mbrWord_bits {b0 b : RBlk} {qy qx : Nat} (hg : GInv b0 qy qx b) {cs ps ns prev : Nat} (hy : qy < quads b0.h) (hx : qx < quads b0.w)
    (hcs : ∀ k < 32, cs.testBit k = (b0.st (qy * 4 + k % 4 + 1) (qx * 4 + k / 4 + 1)).testBit 0)
    (hns : ∀ k < 32, ns.testBit k = (b0.st (qy * 4 + 4 + k % 4 + 1) (qx * 4 + k / 4 + 1)).testBit 0)
    (hps : ∀ c < 8, ps.testBit (4 * c + 3) = hot b (qy * 4) (qx * 4 + c + 1)) (hprev : PrevInv b0 b qy qx prev) (k : Nat) :
    (mbrWord cs (aboveBelow b0.causal ps ns) prev (patOf b0.w (part b0.h qy) (qx * 4))).testBit k =
      (decide (k ∈ kScan (part b0.w qx) (part b0.h qy)) &&
        (!(b0.st (qy * 4 + k % 4 + 1) (qx * 4 + k / 4 + 1)).testBit 0 && nbOf (hot b) b0.causal (qy * 4) (qx * 4) k)) := by
  have h4 := part_le b0.h qy
  have w4 := part_le b0.w qx
  unfold mbrWord
  dsimp only
  rw [Nat.testBit_and, Nat.testBit_and, patOf_bits hy hx]
  by_cases hk : k ∈ kScan (part b0.w qx) (part b0.h qy)
  · have hk16 := kScan_lt h4 w4 hk
    have hV : ∀ j < 20, (spreadCol cs (aboveBelow b0.causal ps ns)).testBit j =
        colOf (hot b) b0.causal (qy * 4) (j % 4) (qx * 4 + j / 4 + 1) := by
      intro j hj
      rw [spread_bits _ _ (by omega), u_bits _ _ _ (by omega), hcs j (by omega), hcs (j - 1) (by omega), hcs (j + 1) (by omega)]
      unfold colOf
      generalize hr : j % 4 = r
      generalize hC : qx * 4 + j / 4 + 1 = C
      have hrl : r < 4 := by omega
      rw [hg.later (r := qy * 4 + r + 1) (c := C) (by omega), hg.later (r := qy * 4 + r + 2) (c := C) (by omega)]
      have hm : r ≠ 0 → (b0.st (qy * 4 + (j - 1) % 4 + 1) (qx * 4 + (j - 1) / 4 + 1)).testBit 0 = hot b (qy * 4 + r) C := by
        intro h
        rw [hg.later (r := qy * 4 + r) (c := C) (by omega), show qy * 4 + (j - 1) % 4 + 1 = qy * 4 + r by omega,
          show qx * 4 + (j - 1) / 4 + 1 = C by omega]
      have hpl : r ≠ 3 → (b0.st (qy * 4 + (j + 1) % 4 + 1) (qx * 4 + (j + 1) / 4 + 1)).testBit 0 = (b0.st (qy * 4 + r + 2) C).testBit 0 := by
        intro h
        rw [show qy * 4 + (j + 1) % 4 + 1 = qy * 4 + r + 2 by omega, show qx * 4 + (j + 1) / 4 + 1 = C by omega]
      have hnl : r = 3 → ns.testBit (j - 3) = (b0.st (qy * 4 + r + 2) C).testBit 0 := by
        intro h
        rw [hns _ (by omega), show qy * 4 + 4 + (j - 3) % 4 + 1 = qy * 4 + r + 2 by omega, show qx * 4 + (j - 3) / 4 + 1 = C by omega]
      have hpp : r = 0 → ps.testBit (j + 3) = hot b (qy * 4 + r) C := by
        intro h
        have e := hps (j / 4) (by omega)
        rw [show 4 * (j / 4) + 3 = j + 3 by omega, hC] at e
        rw [e, h]
        rfl
      generalize (b0.st (qy * 4 + (j - 1) % 4 + 1) (qx * 4 + (j - 1) / 4 + 1)).testBit 0 = v1 at hm ⊢
      generalize (b0.st (qy * 4 + (j + 1) % 4 + 1) (qx * 4 + (j + 1) / 4 + 1)).testBit 0 = v2 at hpl ⊢
      generalize ns.testBit (j - 3) = v3 at hnl ⊢
      generalize ps.testBit (j + 3) = v4 at hpp ⊢
      generalize (b0.st (qy * 4 + r + 2) C).testBit 0 = v5 at hpl hnl ⊢
      generalize hot b (qy * 4 + r) C = v6 at hm hpp ⊢
      generalize (b0.st (qy * 4 + r + 1) C).testBit 0 = v7
      generalize b0.causal = v8
      by_cases h0 : r = 0
      · rw [hpp h0, hpl (by omega)]
        rw [decide_eq_true h0, decide_eq_false (show ¬ r ≠ 0 by omega), decide_eq_true (show r ≠ 3 by omega), decide_eq_false (show ¬ r = 3 by omega)]
        cases v5 <;> cases v6 <;> cases v7 <;> cases v8 <;> rfl
      · by_cases h3 : r = 3
        · rw [hm h0, hnl h3]
          rw [decide_eq_true h3, decide_eq_false (show ¬ r ≠ 3 by omega), decide_eq_true (show r ≠ 0 by omega), decide_eq_false (show ¬ r = 0 by omega)]
          cases v5 <;> cases v6 <;> cases v7 <;> cases v8 <;> rfl
        · rw [hm h0, hpl h3]
          rw [decide_eq_false h3, decide_eq_true (show r ≠ 3 from h3), decide_eq_true (show r ≠ 0 from h0), decide_eq_false h0]
          cases v5 <;> cases v6 <;> cases v7 <;> cases v8 <;> rfl
    rw [decide_eq_true hk, not32_testBit (by omega), hcs k (by omega), Bool.and_true, Bool.true_and, Bool.and_comm]
    congr 1
    simp only [Nat.testBit_or, shl32_testBit, Nat.testBit_shiftRight]
    rw [hV k (by omega), Nat.add_comm 4 k, hV (k + 4) (by omega), decide_eq_true (show k < 32 by omega), Bool.true_and,
      show (k + 4) % 4 = k % 4 by omega, show (k + 4) / 4 = k / 4 + 1 by omega]
    unfold nbOf
    by_cases h0 : 4 ≤ k
    · rw [decide_eq_true h0, hV (k - 4) (by omega), show (k - 4) % 4 = k % 4 by omega, show qx * 4 + (k - 4) / 4 + 1 = qx * 4 + k / 4 by omega,
        Bool.true_and, hprev.hi _ (by omega), show qx * 4 + (k / 4 + 1) + 1 = qx * 4 + k / 4 + 2 by omega]
      generalize colOf (hot b) b0.causal (qy * 4) (k % 4) (qx * 4 + k / 4) = v1
      generalize colOf (hot b) b0.causal (qy * 4) (k % 4) (qx * 4 + k / 4 + 1) = v2
      generalize colOf (hot b) b0.causal (qy * 4) (k % 4) (qx * 4 + k / 4 + 2) = v3
      cases v1 <;> cases v2 <;> cases v3 <;> rfl
    · rw [decide_eq_false h0, Bool.false_and, Bool.or_false, hprev.lo k (by omega), show k / 4 = 0 by omega, show k % 4 = k by omega,
        show qx * 4 + (0 + 1) + 1 = qx * 4 + 0 + 2 by omega, show qx * 4 = qx * 4 + 0 from rfl]
      generalize colOf (hot b) b0.causal (qy * 4 + 0) k (qx * 4 + 0) = v1
      generalize colOf (hot b) b0.causal (qy * 4 + 0) k (qx * 4 + 0 + 1) = v2
      generalize colOf (hot b) b0.causal (qy * 4 + 0) k (qx * 4 + 0 + 2) = v3
      cases v1 <;> cases v2 <;> cases v3 <;> rfl
  · rw [decide_eq_false hk]; simp

/-! ## Samples of a group -/

theorem eachBit_zero {σ : Type} (f : σ → Nat → Option σ) (n : Nat) (s : σ) : eachBit f (n + 1) 0 s = some s := by
  rw [eachBit, if_pos rfl]

theorem packNew_eq (D : Nat → Option Nat) (lref p qy qx cs pat mbr : Nat) (b : RBlk) (rd : SpDec) :
    packNew D lref p qy qx cs pat mbr b rd = (spPos D lref (not32 cs &&& pat) 33 mbr 0 rd).bind fun r =>
      (eachBit (putMag p qy qx) 33 r.1 b).bind fun b => (eachBit (putSgn D lref qy qx) 33 r.1 (b, r.2)).bind fun t => some (r.1, t.1, t.2) := by
  unfold packNew
  by_cases hm : mbr = 0
  · rw [if_neg (by simpa using hm), hm, spPos, if_pos rfl, Option.bind_some, eachBit_zero, Option.bind_some, eachBit_zero]
    rfl
  · rw [if_pos hm]
    congr 1
    funext r
    by_cases hr : r.1 = 0
    · rw [if_neg (by simpa using hr), hr, eachBit_zero, Option.bind_some, eachBit_zero]; rfl
    · rw [if_pos hr]
      congr 1
      funext b
      rw [Option.map_eq_bind]
      rfl

theorem putMag_fold {p qy qx new : Nat} : ∀ (xs : List Nat) (c : RBlk), (∀ k ∈ xs, qy * 4 + k % 4 < c.h ∧ qx * 4 + k / 4 < c.w) →
    ∃ v, xs.foldlM (fun b k => if new.testBit k = true then putMag p qy qx b k else some b) c = some { c with smp := v } ∧
      ∀ i j, v i j = if (∃ k ∈ xs, new.testBit k = true ∧ i = qy * 4 + k % 4 ∧ j = qx * 4 + k / 4) then c.smp i j ||| 3 <<< (p - 1) else c.smp i j
  | [], c, _ => ⟨c.smp, rfl, fun i j => by simp⟩
  | k :: xs, c, h => by
    rw [List.foldlM_cons]
    by_cases hk : new.testBit k = true
    · have hin := h k (by simp)
      rw [if_pos hk, putMag, and3, shr2, RBlk.modSmp_of (RBlk.inSmp_of hin.1 hin.2)]
      obtain ⟨v, e, hv⟩ := putMag_fold (p := p) (qy := qy) (qx := qx) (new := new) xs
        { c with smp := upd2 c.smp (qy * 4 + k % 4) (qx * 4 + k / 4) (c.smp (qy * 4 + k % 4) (qx * 4 + k / 4) ||| 3 <<< (p - 1)) }
        (fun j hj => h j (by simp [hj]))
      refine ⟨v, e, fun i j => ?_⟩
      rw [hv]
      dsimp only
      by_cases hc : i = qy * 4 + k % 4 ∧ j = qx * 4 + k / 4
      · obtain ⟨rfl, rfl⟩ := hc
        rw [upd2_self, if_pos (show ∃ k' ∈ k :: xs, _ from ⟨k, by simp, hk, rfl, rfl⟩), Nat.or_assoc, Nat.or_self, ite_self]
      · rw [upd2_of_ne _ _ hc]
        congr 1
        refine propext ⟨fun ⟨k', h1, h2⟩ => ⟨k', by simp [h1], h2⟩, fun ⟨k', h1, h2, h3⟩ => ⟨k', ?_, h2, h3⟩⟩
        rw [List.mem_cons] at h1
        rcases h1 with rfl | h1
        · exact absurd h3 hc
        · exact h1
    · rw [if_neg hk]
      obtain ⟨v, e, hv⟩ := putMag_fold (p := p) (qy := qy) (qx := qx) (new := new) xs c (fun j hj => h j (by simp [hj]))
      refine ⟨v, e, fun i j => ?_⟩
      rw [hv]
      congr 1
      refine propext ⟨fun ⟨k', h1, h2⟩ => ⟨k', by simp [h1], h2⟩, fun ⟨k', h1, h2, h3⟩ => ⟨k', ?_, h2, h3⟩⟩
      rw [List.mem_cons] at h1
      rcases h1 with rfl | h1
      · exact absurd h2 hk
      · exact h1

/-! ## One group -/

/-- The two builds between groups. -/
structure QInv (b0 : RBlk) (qy qx : Nat) (s : RBlk × SpDec) (t : PackSt) : Prop where
  g : GInv b0 qy qx s.1
  blk : t.b = { b0 with smp := s.1.smp }
  rd : t.rd = s.2
  row : RowInv s.1 qy qx t.row
  prev : PrevInv b0 s.1 qy qx t.prev

theorem ORel.bindR {α β γ : Type} {R : α → β → Prop} {S : α → γ → Prop} {x : Option α} {y : Option β} {g : β → Option γ} (h : ORel R x y)
    (hg : ∀ a b, R a b → ∃ c, g b = Option.some c ∧ S a c) : ORel S x (y.bind g) := by
  rcases h with ⟨rfl, rfl⟩ | ⟨a, b, rfl, rfl, h⟩
  · exact Or.inl ⟨rfl, rfl⟩
  · obtain ⟨c, h1, h2⟩ := hg a b h
    exact Or.inr ⟨a, c, rfl, h1, h2⟩

theorem packQuad_rel {b0 : RBlk} (hf : Fresh b0) {D : Nat → Option Nat} {lref p qy qx : Nat} (hp : p ≠ 0) {sg : Nat → Nat} (hsg : Packs b0 sg)
    (hy : qy < quads b0.h) (hx : qx < quads b0.w) (hfit : quads b0.h * mstrOf b0.w + quads b0.w < sigmaLen) {s : RBlk × SpDec} {t : PackSt}
    (h : QInv b0 qy qx s t) :
    ORel (QInv b0 qy (qx + 1)) (spGroup D lref p s (qy * 4, qx * 4, part b0.w qx, part b0.h qy)) (packQuad D lref p sg qy t qx) := by
  obtain ⟨a, rd0⟩ := s
  obtain ⟨tb, trd, row, prev⟩ := t
  obtain ⟨hg, hb, hr, hrow, hprev⟩ := h
  dsimp only at hg hb hr hrow hprev
  subst hb hr
  have h4 := part_le b0.h qy
  have w4 := part_le b0.w qx
  obtain ⟨f1, f2, f3⟩ := fit_lt hfit hy hx
  unfold packQuad
  dsimp only
  unfold ld32
  rw [if_pos f1, if_pos f2, if_pos f3]
  simp only [Option.bind_eq_bind, Option.bind_some]
  have hcs : ∀ k < 32, (sg (qy * mstrOf b0.w + qx) ||| sg (qy * mstrOf b0.w + qx + 1) <<< 16).testBit k =
      (b0.st (qy * 4 + k % 4 + 1) (qx * 4 + k / 4 + 1)).testBit 0 := by
    intro k hk
    refine ld_bits (F := fun k => (b0.st (qy * 4 + k % 4 + 1) (qx * 4 + k / 4 + 1)).testBit 0) (hsg qy qx (by omega) (by omega)) ?_ hk
    intro k
    rw [Nat.add_assoc, hsg qy (qx + 1) (by omega) (by omega) k]
    rw [show (k + 16) % 4 = k % 4 by omega, show qx * 4 + (k + 16) / 4 + 1 = (qx + 1) * 4 + k / 4 + 1 by omega]
  have hns : ∀ k < 32, (sg (qy * mstrOf b0.w + mstrOf b0.w + qx) ||| sg (qy * mstrOf b0.w + mstrOf b0.w + qx + 1) <<< 16).testBit k =
      (b0.st (qy * 4 + 4 + k % 4 + 1) (qx * 4 + k / 4 + 1)).testBit 0 := by
    intro k hk
    have e : qy * mstrOf b0.w + mstrOf b0.w = (qy + 1) * mstrOf b0.w := (Nat.succ_mul _ _).symm
    rw [e]
    refine ld_bits (F := fun k => (b0.st (qy * 4 + 4 + k % 4 + 1) (qx * 4 + k / 4 + 1)).testBit 0) ?_ ?_ hk
    · intro k
      rw [hsg (qy + 1) qx (by omega) (by omega) k, show (qy + 1) * 4 = qy * 4 + 4 by omega]
    · intro k
      rw [Nat.add_assoc, hsg (qy + 1) (qx + 1) (by omega) (by omega) k]
      rw [show (k + 16) % 4 = k % 4 by omega, show qx * 4 + (k + 16) / 4 + 1 = (qx + 1) * 4 + k / 4 + 1 by omega,
        show (qy + 1) * 4 = qy * 4 + 4 by omega]
  have hps : ∀ c < 8, (row qx ||| row (qx + 1) <<< 16).testBit (4 * c + 3) = hot a (qy * 4) (qx * 4 + c + 1) := by
    intro c hc
    rw [Nat.testBit_or, Nat.testBit_shiftLeft]
    by_cases h : c < 4
    · rw [hrow.lo qx c h, if_neg (by omega), decide_eq_false (by omega)]; simp
    · have e := hrow.lo (qx + 1) (c - 4) (by omega)
      rw [if_neg (by omega), show 4 * (c - 4) + 3 = 4 * c + 3 - 16 by omega, show (qx + 1) * 4 + (c - 4) + 1 = qx * 4 + c + 1 by omega] at e
      rw [hrow.hi qx _ (by omega), e, decide_eq_true (by omega)]; simp
  have hpat := patOf_bits hy hx
  have hmbr := mbrWord_bits hg hy hx hcs hns hps hprev
  generalize sg (qy * mstrOf b0.w + qx) ||| sg (qy * mstrOf b0.w + qx + 1) <<< 16 = cs at hcs hmbr ⊢
  generalize sg (qy * mstrOf b0.w + mstrOf b0.w + qx) ||| sg (qy * mstrOf b0.w + mstrOf b0.w + qx + 1) <<< 16 = ns at hns hmbr ⊢
  generalize row qx ||| row (qx + 1) <<< 16 = ps at hps hmbr ⊢
  have hub : ∀ k < 28, (aboveBelow b0.causal ps ns).testBit k = _ := fun k hk => u_bits b0.causal ps ns hk
  generalize aboveBelow b0.causal ps ns = u at hub hmbr ⊢
  generalize patOf b0.w (part b0.h qy) (qx * 4) = pat at hpat hmbr ⊢
  generalize mbrWord cs u prev pat = mbr at hmbr ⊢
  have hks : ∀ k ∈ kScan (part b0.w qx) (part b0.h qy), qy * 4 + k % 4 < b0.h ∧ qx * 4 + k / 4 < b0.w := by
    intro k hk
    have := kScan_lt h4 w4 hk
    rw [mem_kScan h4, lt_part (by omega), lt_part (by omega)] at hk
    exact ⟨hk.2, hk.1⟩
  -- the loop over the positions
  have hrel := spPos_rel hf hg (D := D) (lref := lref) hp (fun k hk => hcs k (by omega)) hpat (kScan (part b0.w qx) (part b0.h qy)) 33 a trd mbr 0
    ⟨hg.w, hg.h, hg.ca, hg.s0, hg.k34, fun r c => by rw [newAt_zero, Bool.or_false], fun k hk => by simp at hk,
      fun k hk => by rw [hmbr, Bool.and_eq_true, decide_eq_true_eq] at hk; exact hk.1,
      fun k hk => by rw [hmbr, decide_eq_true hk, Bool.true_and],
      fun i j => by rw [newAt_zero]; simp⟩
    (by rw [length_kScan]; have := Nat.mul_le_mul w4 h4; omega) (pairwise_kScan h4) (fun k hk => hk) (fun j hj => Or.inl hj)
  rw [packNew_eq, Option.bind_assoc]
  unfold spGroup
  dsimp only
  rw [groupScan_eq_kScan h4, foldlM_map']
  refine ORel.bind hrel ?_
  rintro ⟨b1, rd1⟩ ⟨new, rd1'⟩ ⟨hrd, hM⟩
  dsimp only at hrd hM ⊢
  subst hrd
  have hnk : ∀ k, new.testBit k = true → k ∈ kScan (part b0.w qx) (part b0.h qy) := fun k hk => (hM.nw k hk).1
  have hlen : (kScan (part b0.w qx) (part b0.h qy)).length < 33 := by rw [length_kScan]; have := Nat.mul_le_mul w4 h4; omega
  rw [eachBit_eq (putMag p qy qx) _ 33 new _ (pairwise_kScan h4) (fun k hk => by have := kScan_lt h4 w4 hk; omega) hnk hlen]
  obtain ⟨v, e, hv⟩ := putMag_fold (p := p) (qy := qy) (qx := qx) (new := new) (kScan (part b0.w qx) (part b0.h qy)) { b0 with smp := a.smp } hks
  have hvb : v = b1.smp := by
    funext i j
    rw [hv, hM.smp]
    congr 1
    refine propext ⟨fun ⟨k, h1, h2, h3, h5⟩ => ?_, fun hn => ?_⟩
    · rw [h3, h5, newAt_pos _ _ _ (kScan_lt h4 w4 h1)]; exact h2
    · unfold newAt at hn
      rw [Bool.and_eq_true, decide_eq_true_eq] at hn
      exact ⟨_, hnk _ hn.2, hn.2, by omega, by omega⟩
  rw [e, hvb, Option.bind_some, Option.bind_assoc,
    eachBit_eq (putSgn D lref qy qx) _ 33 new _ (pairwise_kScan h4) (fun k hk => by have := kScan_lt h4 w4 hk; omega) hnk hlen, foldlM_map']
  -- the signs
  have hsgn : ORel (fun (s : RBlk × SpDec) (t : RBlk × SpDec) => (s.1.st = b1.st ∧ s.1.w = b1.w ∧ s.1.h = b1.h ∧ s.1.causal = b1.causal) ∧
        t.1 = { b0 with smp := s.1.smp } ∧ t.2 = s.2)
      ((kScan (part b0.w qx) (part b0.h qy)).foldlM (fun s k => spSgnStep D lref s (qy * 4 + k % 4, qx * 4 + k / 4)) (b1, rd1'))
      ((kScan (part b0.w qx) (part b0.h qy)).foldlM (fun s k => if new.testBit k = true then putSgn D lref qy qx s k else some s)
        ({ b0 with smp := b1.smp }, rd1')) := by
    refine ORel.foldlM _ _ _ ⟨⟨rfl, rfl, rfl, rfl⟩, rfl, rfl⟩ ?_
    rintro ⟨sb, sr⟩ ⟨tb, tr⟩ k hk ⟨⟨e1, e2, e3, e4⟩, e5, e6⟩
    dsimp only at e1 e2 e3 e4 e5 e6
    subst e5 e6
    have hk16 := kScan_lt h4 w4 hk
    have hin := hks k hk
    have i1 : sb.inSt (qy * 4 + k % 4 + 1) (qx * 4 + k / 4 + 1) :=
      RBlk.inSt_pad (by rw [e3, hM.h]; exact hin.1) (by rw [e2, hM.w]; exact hin.2)
    have i2 : sb.inSmp (qy * 4 + k % 4) (qx * 4 + k / 4) := RBlk.inSmp_of (by rw [e3, hM.h]; exact hin.1) (by rw [e2, hM.w]; exact hin.2)
    have i3 : ({ b0 with smp := sb.smp } : RBlk).inSmp (qy * 4 + k % 4) (qx * 4 + k / 4) := RBlk.inSmp_of hin.1 hin.2
    have hbit : (sb.st (qy * 4 + k % 4 + 1) (qx * 4 + k / 4 + 1)).testBit 3 = new.testBit k := by
      rw [e1, hM.s3, newAt_pos _ _ _ hk16]
      have : (a.st (qy * 4 + k % 4 + 1) (qx * 4 + k / 4 + 1)).testBit 3 = false := by
        by_contra hc
        have := (hg.s3 _ _ (by simpa using hc)).2
        omega
      rw [this, Bool.false_or]
    unfold spSgnStep
    dsimp only
    rw [RBlk.getSt_of i1]
    simp only [Option.bind_eq_bind, Option.bind_some]
    rw [and1_toNat, Nat.testBit_shiftRight, Nat.add_zero, hbit]
    by_cases hn : new.testBit k = true
    · rw [if_pos hn, hn, if_pos (show true.toNat ≠ 0 by decide)]
      unfold putSgn
      dsimp only
      refine ORel.bind (R := fun a b => a = b) ?_ ?_
      · cases tr.bit D lref with
        | none => exact Or.inl ⟨rfl, rfl⟩
        | some r => exact ORel.some rfl
      · rintro r _ rfl
        rw [and3, shr2, RBlk.modSmp_of i3, RBlk.modSmp_of i2]
        exact ORel.some ⟨⟨e1, e2, e3, e4⟩, rfl, rfl⟩
    · rw [if_neg hn]
      have : new.testBit k = false := by simpa using hn
      rw [this, if_neg (by decide)]
      exact ORel.some ⟨⟨e1, e2, e3, e4⟩, rfl, rfl⟩
  refine ORel.bindR hsgn ?_
  rintro ⟨sb, sr⟩ ⟨tb, tr⟩ ⟨⟨e1, e2, e3, e4⟩, e5, e6⟩
  dsimp only at e1 e2 e3 e4 e5 e6
  subst e5 e6
  rw [Option.bind_some]
  unfold stA
  dsimp only
  rw [if_pos (by omega), Option.bind_some]
  refine ⟨_, rfl, ?_⟩
  -- the state after the group
  have hhot : ∀ r c, hot sb r c = (hot a r c || newAt qy qx new r c) := by
    intro r c
    have := hM.hot hg r c
    unfold hot at this ⊢
    rw [e1]; exact this
  have hout : ∀ r c, ¬ (qy * 4 + 1 ≤ r ∧ r ≤ qy * 4 + 4 ∧ qx * 4 + 1 ≤ c ∧ c ≤ qx * 4 + 4) → hot sb r c = hot a r c := by
    intro r c ho
    rw [hhot, newAt, decide_eq_false ho]; simp
  have hnew2 : ∀ k < 16, (new ||| (cs &&& 0xFFFF)).testBit k = hot sb (qy * 4 + k % 4 + 1) (qx * 4 + k / 4 + 1) := by
    intro k hk
    rw [hhot, newAt_pos _ _ _ hk, hg.later (by omega), Nat.testBit_or, Nat.testBit_and, hcs k (by omega),
      show (0xFFFF : Nat) = 2 ^ 16 - 1 from rfl, Nat.testBit_two_pow_sub_one, decide_eq_true hk, Bool.and_true, Bool.or_comm]
  have hnew16 : ∀ k, 16 ≤ k → (new ||| (cs &&& 0xFFFF)).testBit k = false := by
    intro k hk
    have : new.testBit k = false := by
      by_contra hc
      have := kScan_lt h4 w4 (hnk k (by simpa using hc))
      omega
    rw [Nat.testBit_or, Nat.testBit_and, this, show (0xFFFF : Nat) = 2 ^ 16 - 1 from rfl, Nat.testBit_two_pow_sub_one,
      decide_eq_false (by omega)]
    simp
  refine ⟨⟨by rw [e2, hM.w], by rw [e3, hM.h], by rw [e4, hM.ca], by rw [e1]; exact hM.s0, by rw [e1]; exact hM.k34, ?_⟩, rfl, rfl, ⟨?_, ?_⟩, ⟨?_, ?_⟩⟩
  · intro r c h3
    dsimp only at h3
    rw [e1, hM.s3, Bool.or_eq_true] at h3
    rcases h3 with h3 | h3
    · have := hg.s3 r c h3
      omega
    · unfold newAt at h3
      rw [Bool.and_eq_true, decide_eq_true_eq] at h3
      have := hks _ (hnk _ h3.2)
      omega
  · intro q k hk
    dsimp only
    split_ifs with hq
    · rw [Nat.testBit_mod_two_pow, hnew16 k hk, Bool.and_false]
    · exact hrow.hi q k hk
  · intro q c hc
    dsimp only
    by_cases hq : q = qx
    · subst hq
      rw [if_pos rfl, if_pos (by omega), Nat.testBit_mod_two_pow, hnew2 _ (by omega), decide_eq_true (by omega), Bool.true_and,
        show (4 * c + 3) % 4 = 3 by omega, show (4 * c + 3) / 4 = c by omega]
    · rw [if_neg hq, hrow.lo q c hc]
      by_cases hl : q < qx
      · rw [if_pos hl, if_pos (by omega), hout _ _ (by omega)]
      · rw [if_neg hl, if_neg (by omega), hout _ _ (by omega)]
  · intro k hk
    dsimp only
    unfold prevOf
    rw [Nat.testBit_and, Nat.testBit_lt_two_pow (x := 0xF000) (lt_of_lt_of_le (show 0xF000 < 2 ^ 16 by decide) (Nat.pow_le_pow_right (by decide) hk))]
    simp
  · intro r hr
    dsimp only
    have hF : ∀ r < 4, (0xF000 : Nat).testBit (12 + r) = true := by decide
    generalize new ||| (cs &&& 0xFFFF) = nw at hnew2 ⊢
    generalize hC : (qx + 1) * 4 = C
    have hc : nw.testBit (12 + r) = hot sb (qy * 4 + r + 1) C := by
      rw [hnew2 _ (by omega), show (12 + r) % 4 = r by omega, show qx * 4 + (12 + r) / 4 + 1 = C by omega]
    have hm : r ≠ 0 → nw.testBit (12 + r - 1) = hot sb (qy * 4 + r) C := by
      intro h
      rw [hnew2 _ (by omega), show qy * 4 + (12 + r - 1) % 4 + 1 = qy * 4 + r by omega, show qx * 4 + (12 + r - 1) / 4 + 1 = C by omega]
    have hpl : r ≠ 3 → nw.testBit (1 + (12 + r)) = hot sb (qy * 4 + r + 2) C := by
      intro h
      rw [hnew2 _ (by omega), show qy * 4 + (1 + (12 + r)) % 4 + 1 = qy * 4 + r + 2 by omega, show qx * 4 + (1 + (12 + r)) / 4 + 1 = C by omega]
    have hpp : r = 0 → ps.testBit (12 + r + 3) = hot sb (qy * 4 + r) C := by
      rintro rfl
      have := hps 3 (by omega)
      rw [show qx * 4 + 3 + 1 = C by omega] at this
      rw [hout (qy * 4 + 0) C (by omega)]
      exact this
    have hnn : r = 3 → ns.testBit (12 + r - 3) = hot sb (qy * 4 + r + 2) C := by
      rintro rfl
      rw [hns _ (by omega), hout _ _ (by omega), hg.later (by omega), show qx * 4 + (12 + 3 - 3) / 4 + 1 = C by omega]
    unfold prevOf
    rw [Nat.testBit_and, hF r hr, Bool.and_true]
    simp only [Nat.testBit_or, shl32_testBit, Nat.testBit_and, Nat.testBit_shiftRight]
    rw [mask7s _ (by omega), maskEs _ (by omega), hub _ (by omega), decide_eq_true (show 12 + r < 32 by omega), Bool.true_and,
      decide_eq_true (show 1 ≤ 12 + r by omega), Bool.true_and, hc]
    unfold colOf
    generalize nw.testBit (12 + r - 1) = v1 at hm ⊢
    generalize nw.testBit (1 + (12 + r)) = v2 at hpl ⊢
    generalize ps.testBit (12 + r + 3) = v3 at hpp ⊢
    generalize ns.testBit (12 + r - 3) = v4 at hnn ⊢
    generalize hot sb (qy * 4 + r) C = v5 at hm hpp ⊢
    generalize hot sb (qy * 4 + r + 1) C = v6
    generalize hot sb (qy * 4 + r + 2) C = v7 at hpl hnn ⊢
    generalize b0.causal = v8
    have hr4 : r = 0 ∨ r = 1 ∨ r = 2 ∨ r = 3 := by omega
    rcases hr4 with rfl | rfl | rfl | rfl
    · rw [hpp rfl, hpl (by decide)]
      cases v1 <;> cases v4 <;> cases v5 <;> cases v6 <;> cases v7 <;> cases v8 <;> rfl
    · rw [hm (by decide), hpl (by decide)]
      cases v3 <;> cases v4 <;> cases v5 <;> cases v6 <;> cases v7 <;> cases v8 <;> rfl
    · rw [hm (by decide), hpl (by decide)]
      cases v3 <;> cases v4 <;> cases v5 <;> cases v6 <;> cases v7 <;> cases v8 <;> rfl
    · rw [hm (by decide), hnn rfl]
      cases v2 <;> cases v3 <;> cases v5 <;> cases v6 <;> cases v7 <;> cases v8 <;> rfl

/-! ## The pass -/

theorem sigpropPacked_rel {b0 : RBlk} (hf : Fresh b0) {D : Nat → Option Nat} {lref p : Nat} {sg : Nat → Nat} (hsg : Packs b0 sg)
    (hfit : quads b0.h * mstrOf b0.w + quads b0.w < sigmaLen) :
    ORel (fun b c => SameRef b0 b c) (sigpropDecode D lref p b0) (sigpropPacked D lref p sg b0) := by
  unfold sigpropDecode sigpropPacked
  by_cases hp : p = 0
  · rw [if_pos hp, if_pos hp]
    exact ORel.some ⟨rfl, rfl, rfl, rfl, rfl, fun _ _ => rfl⟩
  rw [if_neg hp, if_neg hp, foldlM_groups (spGroup D lref p) (fun s i j wd => by unfold spGroup; dsimp only; rw [groupScan_zero]; rfl),
    Option.map_eq_bind, Option.map_eq_bind]
  refine ORel.bind (R := fun s (t : PackSt) => QInv b0 (quads b0.h) 0 s { t with prev := 0 }) ?_ ?_
  · refine ORel.foldRange (R := fun qy s (t : PackSt) => QInv b0 qy 0 s { t with prev := 0 }) (quads b0.h) _ _ ?_ ?_
    · refine ⟨⟨rfl, rfl, rfl, fun _ _ => rfl, fun r c h => ?_, fun r c h => ?_⟩, rfl, rfl, ⟨fun _ _ _ => by simp, fun q c hc => ?_⟩,
        ⟨fun _ _ => by simp, fun r hr => ?_⟩⟩
      · rw [hf.r3] at h; simp at h
      · rw [hf.r3] at h; simp at h
      · dsimp only
        rw [if_neg (by omega), Nat.zero_testBit, hot, hf.r3, hf.out _ _ (by omega)]; rfl
      · dsimp only
        rw [Nat.zero_testBit]
        have : ∀ r, hot b0 r 0 = false := fun r => by rw [hot, hf.r3, hf.out _ _ (by omega)]; rfl
        simp [colOf, this]
    · intro s t qy hqy h
      unfold packRow
      have hw : t.b.w = b0.w := by
        have := h.blk
        dsimp only at this
        rw [this]
      rw [hw]
      refine (ORel.foldRange (R := fun qx s (t : PackSt) => QInv b0 qy qx s t) (quads b0.w) _ _ h ?_).mono ?_
      · intro s t qx hqx h
        exact packQuad_rel hf hp hsg hqy hqx hfit h
      · intro s t h
        have hg : GInv b0 (qy + 1) 0 s.1 := ⟨h.g.w, h.g.h, h.g.ca, h.g.s0, h.g.k34, fun r c h3 => by
          have := h.g.s3 r c h3
          omega⟩
        refine ⟨hg, h.blk, h.rd, ⟨h.row.hi, fun q c hc => ?_⟩, ⟨fun _ _ => by simp, fun r hr => ?_⟩⟩
        · dsimp only
          rw [h.row.lo q c hc, if_neg (show ¬ q < 0 by omega)]
          by_cases hq : q < quads b0.w
          · rw [if_pos hq, Nat.succ_mul]
          · rw [if_neg hq]
            rw [lt_quads] at hq
            rw [h.g.out hf (by omega), h.g.out hf (by omega)]
        · dsimp only
          rw [Nat.zero_testBit]
          have : ∀ r, hot s.1 r 0 = false := fun r => h.g.out hf (by omega)
          simp [colOf, this]
  · intro s t h
    have hb : t.b = { b0 with smp := s.1.smp } := h.blk
    refine ORel.some ⟨h.g.w, h.g.h, ?_, ?_, ?_, h.g.s0⟩ <;> simp [hb]

theorem refinePacked_rel {b0 : RBlk} (hf : Fresh b0) (D : Nat → Option Nat) (lref p z : Nat)
    (hfit : quads b0.h * mstrOf b0.w + quads b0.w < sigmaLen) :
    ORel (fun b c => SameRef b0 b c) (refineScalar D lref p z b0) (refinePacked D lref p z b0) := by
  obtain ⟨sg, e, hsg⟩ := packSigma_eq hf hfit
  unfold refineScalar refinePacked
  rw [e]
  simp only [Option.bind_eq_bind, Option.bind_some]
  refine ORel.bind (sigpropPacked_rel hf hsg hfit) ?_
  intro b c h
  by_cases hz : 2 < z
  · rw [if_pos hz, if_pos hz]
    exact magrefPacked_rel hf hsg hfit h
  · rw [if_neg hz, if_neg hz]
    exact ORel.some h

end Verif.Ht
