import Verif.Ht.PackPos

/-! # Packed SigProp: the loop over positions against the scalar build, lemmas -/

namespace Verif.Ht

/-- The cell of a position of the group is new. -/
def newAt (qy qx new r c : Nat) : Bool :=
  decide (qy * 4 + 1 ≤ r ∧ r ≤ qy * 4 + 4 ∧ qx * 4 + 1 ≤ c ∧ c ≤ qx * 4 + 4) && new.testBit (4 * (c - 1 - qx * 4) + (r - 1 - qy * 4))

theorem newAt_pos (qy qx new : Nat) {k : Nat} (hk : k < 16) : newAt qy qx new (qy * 4 + k % 4 + 1) (qx * 4 + k / 4 + 1) = new.testBit k := by
  unfold newAt
  rw [decide_eq_true (by omega), Bool.true_and]
  congr 1
  omega

theorem newAt_or (qy qx a b r c : Nat) : newAt qy qx (a ||| b) r c = (newAt qy qx a r c || newAt qy qx b r c) := by
  unfold newAt
  rw [Nat.testBit_or, Bool.and_or_distrib_left]

theorem newAt_bit {qy qx k : Nat} (hk : k < 16) (r c : Nat) :
    newAt qy qx (2 ^ k) r c = decide (r = qy * 4 + k % 4 + 1 ∧ c = qx * 4 + k / 4 + 1) := by
  unfold newAt
  rw [Nat.testBit_two_pow, ← Bool.decide_and]
  exact decide_eq_decide.mpr (by omega)

theorem newAt_zero (qy qx r c : Nat) : newAt qy qx 0 r c = false := by simp [newAt]

/-- State of the scalar build at the start of a group. -/
structure GInv (b0 : RBlk) (qy qx : Nat) (b : RBlk) : Prop where
  w : b.w = b0.w
  h : b.h = b0.h
  ca : b.causal = b0.causal
  s0 : ∀ r c, (b.st r c).testBit 0 = (b0.st r c).testBit 0
  k34 : ∀ r c, (b.st r c).testBit 3 = true → (b.st r c).testBit 4 = true
  s3 : ∀ r c, (b.st r c).testBit 3 = true → (1 ≤ r ∧ r ≤ b0.h ∧ 1 ≤ c ∧ c ≤ b0.w) ∧
    (r ≤ qy * 4 ∨ r ≤ qy * 4 + 4 ∧ c ≤ qx * 4)

theorem GInv.out {b0 b : RBlk} (hf : Fresh b0) {qy qx : Nat} (h : GInv b0 qy qx b) {r c : Nat}
    (ho : ¬ (1 ≤ r ∧ r ≤ b0.h ∧ 1 ≤ c ∧ c ≤ b0.w)) : hot b r c = false := by
  unfold hot
  rw [h.s0, hf.out r c ho, Bool.false_or]
  by_contra hc
  exact ho (h.s3 r c (by simpa using hc)).1

theorem GInv.later {b0 b : RBlk} {qy qx : Nat} (h : GInv b0 qy qx b) {r c : Nat}
    (hl : ¬ (r ≤ qy * 4 ∨ r ≤ qy * 4 + 4 ∧ c ≤ qx * 4)) : hot b r c = (b0.st r c).testBit 0 := by
  unfold hot
  rw [h.s0]
  have : (b.st r c).testBit 3 = false := by
    by_contra hc
    exact hl (h.s3 r c (by simpa using hc)).2
  rw [this, Bool.or_false]

/-- The two builds in the loop over the positions: `a` is the block at the start of the group, `b` the scalar build's block,
`xs` the positions to come. -/
structure MInv (b0 a : RBlk) (p qy qx : Nat) (xs : List Nat) (b : RBlk) (mbr new : Nat) : Prop where
  w : b.w = b0.w
  h : b.h = b0.h
  ca : b.causal = b0.causal
  s0 : ∀ r c, (b.st r c).testBit 0 = (b0.st r c).testBit 0
  k34 : ∀ r c, (b.st r c).testBit 3 = true → (b.st r c).testBit 4 = true
  s3 : ∀ r c, (b.st r c).testBit 3 = ((a.st r c).testBit 3 || newAt qy qx new r c)
  nw : ∀ k, new.testBit k = true → k ∈ kScan (part b0.w qx) (part b0.h qy) ∧ ∀ j ∈ xs, k < j
  sub : ∀ k, mbr.testBit k = true → k ∈ xs
  mb : ∀ k ∈ xs, mbr.testBit k = (!(b0.st (qy * 4 + k % 4 + 1) (qx * 4 + k / 4 + 1)).testBit 0 && nbOf (hot b) b0.causal (qy * 4) (qx * 4) k)
  smp : ∀ i j, b.smp i j = if newAt qy qx new (i + 1) (j + 1) = true then a.smp i j ||| 3 <<< (p - 1) else a.smp i j

theorem MInv.hot {b0 a : RBlk} {p qy qx : Nat} {xs : List Nat} {b : RBlk} {mbr new : Nat} (ha : GInv b0 qy qx a)
    (h : MInv b0 a p qy qx xs b mbr new) (r c : Nat) : hot b r c = (hot a r c || newAt qy qx new r c) := by
  unfold Verif.Ht.hot
  rw [h.s0, ha.s0, h.s3, Bool.or_assoc]

theorem three_shift {p : Nat} (hp : p ≠ 0) : 1 <<< p ||| 1 <<< (p - 1) = 3 <<< (p - 1) := by
  obtain ⟨q, rfl⟩ : ∃ q, p = q + 1 := ⟨p - 1, by omega⟩
  rw [Nat.add_sub_cancel, show 1 <<< (q + 1) = 2 <<< q by rw [Nat.shiftLeft_succ]; simp [Nat.shiftLeft_eq],
    ← Nat.shiftLeft_or_distrib]
  rfl

/-- The scalar build's test, in terms of the nine cells. -/
theorem mbrAt_nb {b0 a : RBlk} (hf : Fresh b0) (ha : GInv b0 qy qx a) {p k : Nat} {xs : List Nat} {b : RBlk} {mbr new : Nat}
    (h : MInv b0 a p qy qx xs b mbr new) (hx : k ∈ xs) (hk : k ∈ kScan (part b0.w qx) (part b0.h qy)) :
    mbrAt b (qy * 4 + k % 4) (qx * 4 + k / 4) (qy * 4 + part b0.h qy) = some (mbr.testBit k).toNat := by
  have h4 := part_le b0.h qy
  have w4 := part_le b0.w qx
  have hk16 := kScan_lt h4 w4 hk
  have hkk := hk
  rw [mem_kScan h4] at hkk
  have hin := hkk
  rw [lt_part (by omega), lt_part (by omega)] at hin
  unfold mbrAt
  rw [RBlk.getSt_of (RBlk.inSt_pad (by rw [h.h]; exact hin.2) (by rw [h.w]; exact hin.1))]
  simp only [Option.bind_eq_bind, Option.bind_some, Nat.shiftRight_zero, and1_toNat]
  rw [h.mb k hx, h.s0]
  cases hs : (b0.st (qy * 4 + k % 4 + 1) (qx * 4 + k / 4 + 1)).testBit 0
  · rw [if_pos (show false.toNat = 0 from rfl), calcMbr_eq h.k34 (by rw [h.h]; exact hin.2) (by rw [h.w]; exact hin.1), Bool.not_false,
      Bool.true_and]
    congr 2
    have hc : Verif.Ht.hot b (qy * 4 + k % 4 + 1) (qx * 4 + k / 4 + 1) = false := by
      rw [h.hot ha, ha.later (by omega), hs, Bool.false_or, newAt_pos _ _ _ hk16]
      by_contra hc
      have := (h.nw k (by simpa using hc)).2 k hx
      omega
    have hlook : ∀ c, (looksDown b (qy * 4 + k % 4) (qy * 4 + part b0.h qy) && Verif.Ht.hot b (qy * 4 + k % 4 + 2) c) =
        ((!b0.causal || decide (k % 4 ≠ 3)) && Verif.Ht.hot b (qy * 4 + k % 4 + 2) c) := by
      intro c
      unfold looksDown
      rw [h.ca]
      by_cases he : part b0.h qy = 4
      · rw [he]
        congr 2
        exact decide_eq_decide.mpr (by omega)
      · by_cases hl : k % 4 + 1 = part b0.h qy
        · have : Verif.Ht.hot b (qy * 4 + k % 4 + 2) c = false := by
            have hh : b0.h < qy * 4 + k % 4 + 2 := by
              have e := (lt_part (n := b0.h) (q := qy) (r := k % 4 + 1) (by omega)).not
              omega
            rw [h.hot ha, ha.out hf (by omega), Bool.false_or]
            by_contra hc
            have hc : newAt qy qx new (qy * 4 + k % 4 + 2) c = true := by simpa using hc
            unfold newAt at hc
            rw [Bool.and_eq_true, decide_eq_true_eq] at hc
            have := (h.nw _ hc.2).1
            rw [mem_kScan h4] at this
            omega
          rw [this]; simp
        · rw [decide_eq_true (show qy * 4 + k % 4 ≠ qy * 4 + part b0.h qy - 1 by omega), decide_eq_true (show k % 4 ≠ 3 by omega)]
    unfold nbOf colOf
    rw [Bool.and_or_distrib_left, Bool.and_or_distrib_left, hlook, hlook, hlook, hc]
    simp only [Bool.or_false]
    ac_rfl
  · simp

theorem spPos_rel {b0 a : RBlk} (hf : Fresh b0) {qy qx : Nat} (ha : GInv b0 qy qx a) {D : Nat → Option Nat} {lref p : Nat} (hp : p ≠ 0)
    {cs pat : Nat} (hcs : ∀ k < 16, cs.testBit k = (b0.st (qy * 4 + k % 4 + 1) (qx * 4 + k / 4 + 1)).testBit 0)
    (hpat : ∀ k, pat.testBit k = decide (k ∈ kScan (part b0.w qx) (part b0.h qy))) :
    ∀ (xs : List Nat) (n : Nat) (b : RBlk) (rd : SpDec) (mbr new : Nat), MInv b0 a p qy qx xs b mbr new → xs.length < n →
      xs.Pairwise (· < ·) → (∀ k ∈ xs, k ∈ kScan (part b0.w qx) (part b0.h qy)) →
      (∀ j ∈ kScan (part b0.w qx) (part b0.h qy), j ∈ xs ∨ ∀ i ∈ xs, j < i) →
      ORel (fun s t : _ × SpDec => t.2 = s.2 ∧ MInv b0 a p qy qx [] s.1 0 t.1)
        (xs.foldlM (fun s k => spMagStep D lref p (qy * 4 + part b0.h qy) s (qy * 4 + k % 4, qx * 4 + k / 4)) (b, rd))
        (spPos D lref (not32 cs &&& pat) n mbr new rd)
  | [], n + 1, b, rd, mbr, new, h, _, _, _, _ => by
    have hz : mbr = 0 := eq_zero_of_testBits fun k => by
      by_contra hc
      have := h.sub k (by simpa using hc)
      simp at this
    subst hz
    exact ORel.some ⟨rfl, h⟩
  | k :: xs, n + 1, b, rd, mbr, new, h, hn, hpw, hall, hsuf => by
    have h4 := part_le b0.h qy
    have w4 := part_le b0.w qx
    rw [List.pairwise_cons] at hpw
    have hk := hall k (by simp)
    have hk16 := kScan_lt h4 w4 hk
    have hin := hk
    rw [mem_kScan h4, lt_part (by omega), lt_part (by omega)] at hin
    have hm := mbrAt_nb hf ha h (by simp) hk
    have hbh : qy * 4 + k % 4 < b.h := by rw [h.h]; exact hin.2
    have hbw : qx * 4 + k / 4 < b.w := by rw [h.w]; exact hin.1
    have hsuf' : ∀ j ∈ kScan (part b0.w qx) (part b0.h qy), j ∈ xs ∨ ∀ i ∈ xs, j < i := by
      intro j hj
      rcases hsuf j hj with h1 | h1
      · rw [List.mem_cons] at h1
        rcases h1 with rfl | h1
        · exact Or.inr hpw.1
        · exact Or.inl h1
      · exact Or.inr fun i hi => h1 i (by simp [hi])
    rw [List.foldlM_cons]
    by_cases hmk : mbr.testBit k = true
    · rw [hmk] at hm
      have hl : ∀ j < k, mbr.testBit j = false := by
        intro j hj
        by_contra hc
        have := h.sub j (by simpa using hc)
        rw [List.mem_cons] at this
        rcases this with rfl | this
        · omega
        · have := hpw.1 j this; omega
      rw [spMagStep_member hbh hbw hm, spPos, if_neg (ne_zero_of_testBit hmk)]
      dsimp only
      rw [ctz32_eq (by omega) hmk hl]
      show ORel _ (((rd.bit D lref).bind _).bind _) _
      rw [Option.bind_assoc]
      refine ORel.bind (R := fun u v => u = v ∧ (u.1 = 0 ∨ u.1 = 1)) ?_ ?_
      · cases hr : rd.bit D lref with
        | none => exact Or.inl ⟨rfl, rfl⟩
        | some r => exact ORel.some ⟨rfl, SpDec.bit_le hr⟩
      · rintro ⟨bit, rd'⟩ _ ⟨rfl, hbit⟩
        dsimp only at hbit ⊢
        rw [Option.bind_some]
        have hsm : shl32 1 k = 2 ^ k := by
          unfold shl32
          rw [Nat.one_shiftLeft, Nat.mod_eq_of_lt (Nat.pow_lt_pow_right (by decide) (by omega))]
        rw [hsm]
        have hbm : ∀ j < 32, ((2 ^ 32 - bit) % 2 ^ 32).testBit j = decide (bit = 1) := by
          intro j hj
          rcases hbit with rfl | rfl
          · simp
          · rw [show (2 ^ 32 - 1) % 2 ^ 32 = 2 ^ 32 - 1 from rfl, Nat.testBit_two_pow_sub_one]; simp [hj]
        have hnew : new ||| (2 ^ k &&& (2 ^ 32 - bit) % 2 ^ 32) = if bit = 1 then new ||| 2 ^ k else new := by
          apply Nat.eq_of_testBit_eq
          intro j
          by_cases hj : j < 32
          · rw [Nat.testBit_or, Nat.testBit_and, hbm j hj]
            rcases hbit with rfl | rfl
            · simp
            · rw [if_pos rfl, Nat.testBit_or]; simp
          · rw [Nat.testBit_or, Nat.testBit_and, Nat.testBit_two_pow, decide_eq_false (show ¬ k = j by omega), Bool.false_and, Bool.or_false]
            rcases hbit with rfl | rfl
            · simp
            · rw [if_pos rfl, Nat.testBit_or, Nat.testBit_two_pow, decide_eq_false (show ¬ k = j by omega), Bool.or_false]
        rw [hnew]
        set new' := if bit = 1 then new ||| 2 ^ k else new with hnew'
        have hn' : ∀ j, new'.testBit j = (new.testBit j || (decide (bit = 1) && decide (k = j))) := by
          intro j
          rw [hnew']
          rcases hbit with rfl | rfl
          · simp
          · rw [if_pos rfl, Nat.testBit_or, Nat.testBit_two_pow]; simp
        have hna : ∀ r c, newAt qy qx new' r c = (newAt qy qx new r c ||
            (decide (bit = 1) && decide (r = qy * 4 + k % 4 + 1 ∧ c = qx * 4 + k / 4 + 1))) := by
          intro r c
          rw [hnew']
          rcases hbit with rfl | rfl
          · simp
          · rw [if_pos rfl, newAt_or, newAt_bit hk16]; simp
        -- bits of the new `mbr`
        have hmb : ∀ j < 16, (mbr &&& not32 (2 ^ k) ||| (shl32 (rowMask (k &&& 3)) (k &&& not32 3) &&& (not32 cs &&& pat) &&& not32 new' &&&
            (2 ^ 32 - bit) % 2 ^ 32)).testBit j = ((mbr.testBit j && !decide (k = j)) ||
              (decide (k ≤ j ∧ j / 4 ≤ k / 4 + 1 ∧ j % 4 ≤ k % 4 + 1 ∧ k % 4 ≤ j % 4 + 1) &&
                (!cs.testBit j && decide (j ∈ kScan (part b0.w qx) (part b0.h qy))) && !new'.testBit j && decide (bit = 1))) := by
          intro j hj
          simp only [Nat.testBit_or, Nat.testBit_and, not32_testBit (show j < 32 by omega), Nat.testBit_two_pow, hbm j (by omega), hpat,
            rowMask_bits k hk16 j hj]
        have hmb16 : ∀ j, ¬ j < 16 → (mbr &&& not32 (2 ^ k) ||| (shl32 (rowMask (k &&& 3)) (k &&& not32 3) &&& (not32 cs &&& pat) &&& not32 new' &&&
            (2 ^ 32 - bit) % 2 ^ 32)).testBit j = false := by
          intro j hj
          have h1 : mbr.testBit j = false := by
            by_contra hc
            have := kScan_lt h4 w4 (hall j (h.sub j (by simpa using hc)))
            omega
          have h2 : pat.testBit j = false := by
            rw [hpat]
            exact decide_eq_false fun hc => by have := kScan_lt h4 w4 hc; omega
          simp only [Nat.testBit_or, Nat.testBit_and, h1, h2]
          simp
        generalize mbr &&& not32 (2 ^ k) ||| (shl32 (rowMask (k &&& 3)) (k &&& not32 3) &&& (not32 cs &&& pat) &&& not32 new' &&&
            (2 ^ 32 - bit) % 2 ^ 32) = mbr' at hmb hmb16
        have hst : ∀ r c i, ((magStep p b (qy * 4 + k % 4, qx * 4 + k / 4) bit).st r c).testBit i = ((b.st r c).testBit i ||
            (decide (r = qy * 4 + k % 4 + 1 ∧ c = qx * 4 + k / 4 + 1) && (4 ||| bit <<< 3 ||| 16).testBit i)) := by
          intro r c i
          exact testBit_upd2_or _ _ _ _ _ _ _
        have hb0 : (4 ||| bit <<< 3 ||| 16).testBit 0 = false := by rcases hbit with rfl | rfl <;> decide
        have hb3 : (4 ||| bit <<< 3 ||| 16).testBit 3 = decide (bit = 1) := by rcases hbit with rfl | rfl <;> decide
        have hb4 : (4 ||| bit <<< 3 ||| 16).testBit 4 = true := by rcases hbit with rfl | rfl <;> decide
        have hhot : Verif.Ht.hot (magStep p b (qy * 4 + k % 4, qx * 4 + k / 4) bit) = fun r c => Verif.Ht.hot b r c ||
            (decide (bit = 1) && decide (r = qy * 4 + k % 4 + 1 ∧ c = qx * 4 + k / 4 + 1)) := by
          funext r c
          unfold Verif.Ht.hot
          rw [hst, hst, hb0, hb3, Bool.and_false, Bool.or_false, Bool.or_assoc]
          congr 2
          rw [Bool.and_comm]
        refine spPos_rel hf ha hp hcs hpat xs n _ rd' mbr' new' ⟨h.w, h.h, h.ca, ?_, ?_, ?_, ?_, ?_, ?_, ?_⟩ (by simp at hn; omega) hpw.2
          (fun j hj => hall j (by simp [hj])) hsuf'
        · intro r c
          rw [hst, hb0, h.s0]; simp
        · intro r c
          rw [hst, hst, hb3, hb4]
          intro hh
          rw [Bool.or_eq_true] at hh ⊢
          rcases hh with hh | hh
          · exact Or.inl (h.k34 r c hh)
          · rw [Bool.and_eq_true] at hh ⊢
            exact Or.inr ⟨hh.1, rfl⟩
        · intro r c
          rw [hst, hb3, h.s3, hna, Bool.or_assoc]
          congr 2
          rw [Bool.and_comm]
        · intro j hj
          rw [hn', Bool.or_eq_true] at hj
          rcases hj with hj | hj
          · have := h.nw j hj
            exact ⟨this.1, fun i hi => this.2 i (by simp [hi])⟩
          · rw [Bool.and_eq_true, decide_eq_true_eq, decide_eq_true_eq] at hj
            rw [← hj.2]
            exact ⟨hk, hpw.1⟩
        · intro j hj
          have hj16 : j < 16 := by
            by_contra hc
            rw [hmb16 j hc] at hj
            simp at hj
          rw [hmb j hj16, Bool.or_eq_true] at hj
          rcases hj with hj | hj
          · rw [Bool.and_eq_true] at hj
            have h1 := h.sub j hj.1
            have h2 : ¬ k = j := by simpa using hj.2
            rw [List.mem_cons] at h1
            rcases h1 with h1 | h1
            · exact absurd h1.symm h2
            · exact h1
          · simp only [Bool.and_eq_true, decide_eq_true_eq, Bool.not_eq_true'] at hj
            obtain ⟨⟨⟨⟨h1, -⟩, -, h2⟩, h3⟩, h5⟩ := hj
            have h6 : j ≠ k := by
              rintro rfl
              rw [hn', h5] at h3
              simp at h3
            rcases hsuf j h2 with h7 | h7
            · rw [List.mem_cons] at h7
              exact h7.resolve_left h6
            · have := h7 k (by simp); omega
        · intro j hj
          have hkj := hpw.1 j hj
          have hjs := hall j (by simp [hj])
          have hj16 := kScan_lt h4 w4 hjs
          have hnj : new'.testBit j = false := by
            rw [hn', decide_eq_false (show ¬ k = j by omega), Bool.and_false, Bool.or_false]
            by_contra hc
            have := (h.nw j (by simpa using hc)).2 j (by simp [hj])
            omega
          rw [hmb j hj16, hnj, hcs j hj16, decide_eq_false (show ¬ k = j by omega), decide_eq_true hjs, h.mb j (by simp [hj]), hhot]
          rw [nbOf_or (Verif.Ht.hot b) (fun r c => decide (bit = 1) && decide (r = qy * 4 + k % 4 + 1 ∧ c = qx * 4 + k / 4 + 1))]
          rcases hbit with rfl | rfl
          · simp [nbOf, colOf]
          · simp only [decide_true, Bool.true_and]
            rw [nbOf_cell hkj]
            rw [show decide (k ≤ j ∧ j / 4 ≤ k / 4 + 1 ∧ j % 4 ≤ k % 4 + 1 ∧ k % 4 ≤ j % 4 + 1) =
              decide (j / 4 ≤ k / 4 + 1 ∧ j % 4 ≤ k % 4 + 1 ∧ k % 4 ≤ j % 4 + 1) from decide_eq_decide.mpr (by omega)]
            generalize decide (j / 4 ≤ k / 4 + 1 ∧ j % 4 ≤ k % 4 + 1 ∧ k % 4 ≤ j % 4 + 1) = u1
            generalize (b0.st (qy * 4 + j % 4 + 1) (qx * 4 + j / 4 + 1)).testBit 0 = u2
            generalize nbOf (Verif.Ht.hot b) b0.causal (qy * 4) (qx * 4) j = u3
            cases u1 <;> cases u2 <;> cases u3 <;> rfl
        · intro i j
          show upd2 b.smp (qy * 4 + k % 4) (qx * 4 + k / 4) _ i j = _
          by_cases hc : i = qy * 4 + k % 4 ∧ j = qx * 4 + k / 4
          · obtain ⟨rfl, rfl⟩ := hc
            have hz : newAt qy qx new (qy * 4 + k % 4 + 1) (qx * 4 + k / 4 + 1) = false := by
              rw [newAt_pos _ _ _ hk16]
              by_contra hc
              have := (h.nw k (by simpa using hc)).2 k (by simp)
              omega
            rw [upd2_self, hna, h.smp, hz]
            rcases hbit with rfl | rfl
            · simp
            · simp only [decide_true, Bool.true_and, Bool.false_or, Bool.false_eq_true, if_false, and_self, if_true]
              rw [three_shift hp]
          · rw [upd2_of_ne _ _ hc, hna, h.smp, decide_eq_false (show ¬ (i + 1 = qy * 4 + k % 4 + 1 ∧ j + 1 = qx * 4 + k / 4 + 1) by omega)]
            simp
    · have hmk' : mbr.testBit k = false := by simpa using hmk
      rw [hmk'] at hm
      rw [spMagStep_other hbh hbw hm]
      show ORel _ ((some _).bind _) _
      rw [Option.bind_some]
      have hst : ∀ r c i, (upd2 b.st (qy * 4 + k % 4 + 1) (qx * 4 + k / 4 + 1) (b.st (qy * 4 + k % 4 + 1) (qx * 4 + k / 4 + 1) ||| 16) r c).testBit i =
          ((b.st r c).testBit i || (decide (r = qy * 4 + k % 4 + 1 ∧ c = qx * 4 + k / 4 + 1) && (16 : Nat).testBit i)) := by
        intro r c i
        exact testBit_upd2_or _ _ _ _ _ _ _
      have hb0 : (16 : Nat).testBit 0 = false := by decide
      have hb3 : (16 : Nat).testBit 3 = false := by decide
      have hhot : Verif.Ht.hot { b with st := upd2 b.st (qy * 4 + k % 4 + 1) (qx * 4 + k / 4 + 1) (b.st (qy * 4 + k % 4 + 1) (qx * 4 + k / 4 + 1) ||| 16) } =
          Verif.Ht.hot b := by
        funext r c
        unfold Verif.Ht.hot
        dsimp only
        rw [hst, hst, hb0, hb3]; simp
      refine spPos_rel hf ha hp hcs hpat xs (n + 1) _ rd mbr new ⟨h.w, h.h, h.ca, ?_, ?_, ?_, ?_, ?_, ?_, h.smp⟩ (by simp at hn; omega) hpw.2
        (fun j hj => hall j (by simp [hj])) hsuf'
      · intro r c
        dsimp only
        rw [hst, hb0, h.s0]; simp
      · intro r c
        dsimp only
        rw [hst, hst, hb3]
        intro hh
        rw [Bool.and_false, Bool.or_false] at hh
        rw [h.k34 r c hh]; simp
      · intro r c
        dsimp only
        rw [hst, hb3, h.s3]; simp
      · intro j hj
        have := h.nw j hj
        exact ⟨this.1, fun i hi => this.2 i (by simp [hi])⟩
      · intro j hj
        have := h.sub j hj
        rw [List.mem_cons] at this
        rcases this with rfl | this
        · exact absurd hj hmk
        · exact this
      · intro j hj
        rw [h.mb j (by simp [hj]), hhot]

end Verif.Ht
