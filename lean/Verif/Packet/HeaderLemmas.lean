import Verif.Packet.TreeLemmas
/-
Lemmas for the round trip of whole packet headers.
-/
namespace Verif.Packet
open Prog

/-! ### Numbers -/

theorem readNFrom_spec (v n : Nat) (rest : List Bool) : ∀ c, c < 2 ^ 32 →
    (readNFrom c n).run (bitsOf v n ++ rest) = .ok ((c * 2 ^ n + v % 2 ^ n) % 2 ^ 32, rest) := by
  induction n with
  | zero => intro c hc; simp [readNFrom, bitsOf, Nat.mod_one]; omega
  | succ n ih =>
    intro c hc
    simp only [readNFrom, bitsOf, List.cons_append, bind_eq, Prog.getBit, bit_bind, ret_bind, run_bit]
    rw [ih _ (Nat.mod_lt _ (by norm_num))]
    congr 2
    have hb : (v >>> n &&& 1 == 1).toNat = v / 2 ^ n % 2 := by
      rw [Nat.and_one_is_mod, Nat.shiftRight_eq_div_pow]
      rcases Nat.mod_two_eq_zero_or_one (v / 2 ^ n) with h | h <;> simp [h]
    rw [hb]
    have hm : v % 2 ^ (n + 1) = v / 2 ^ n % 2 * 2 ^ n + v % 2 ^ n := by
      rw [Nat.pow_succ, Nat.mod_mul]; ring
    rw [hm]
    have : ((c * 2 + v / 2 ^ n % 2) % 2 ^ 32 * 2 ^ n + v % 2 ^ n) % 2 ^ 32 =
        ((c * 2 + v / 2 ^ n % 2) * 2 ^ n + v % 2 ^ n) % 2 ^ 32 := by
      rw [Nat.add_mod, Nat.mod_mul_mod, ← Nat.add_mod]
    rw [this]
    congr 1
    rw [Nat.pow_succ]; ring

theorem readN_spec (v n : Nat) (hv : v < 2 ^ n) (h32 : v < 2 ^ 32) (rest : List Bool) :
    (readN n).run (bitsOf v n ++ rest) = .ok (v, rest) := by
  unfold readN
  rw [readNFrom_spec v n rest 0 (by norm_num)]
  rw [Nat.zero_mul, Nat.zero_add, Nat.mod_eq_of_lt hv, Nat.mod_eq_of_lt h32]

theorem decPasses_spec (n : Nat) (h1 : 1 ≤ n) (h2 : n ≤ 164) (rest : List Bool) :
    decPasses.run (encPasses n ++ rest) = .ok (n, rest) := by
  unfold encPasses decPasses
  by_cases e1 : n = 1
  · subst e1; simp [Prog.getBit]
  rw [if_neg e1]
  by_cases e2 : n = 2
  · subst e2; simp [Prog.getBit, bitsOf]
  rw [if_neg e2]
  by_cases e3 : n < 6
  · rw [if_pos e3]
    have hr := readN_spec (n - 3) 2 (by omega) (by omega) rest
    have hb : bitsOf 0x3 2 = [true, true] := by decide
    simp only [hb, List.cons_append, List.nil_append, bind_eq, Prog.getBit, bit_bind, ret_bind, run_bit, if_true]
    rw [run_bind_ok hr, if_neg (by omega)]
    simp; omega
  rw [if_neg e3]
  have hx := readN_spec 3 2 (by omega) (by omega)
  have hx' : bitsOf 3 2 = [true, true] := by decide
  by_cases e4 : n < 37
  · rw [if_pos e4]
    have hr := readN_spec (n - 6) 5 (by omega) (by omega) rest
    have hb : bitsOf 0xF 4 = [true, true] ++ bitsOf 3 2 := by decide
    rw [hb]
    simp only [List.cons_append, List.nil_append, List.append_assoc, bind_eq, Prog.getBit, bit_bind, ret_bind,
      run_bit, if_true]
    rw [run_bind_ok (hx _), if_pos (by omega), run_bind_ok hr, if_neg (by omega)]
    simp; omega
  · rw [if_neg e4]
    have hr := readN_spec (n - 37) 7 (by omega) (by omega) rest
    have hy := readN_spec 31 5 (by omega) (by omega)
    have hb : bitsOf 0x1FF 9 = [true, true] ++ (bitsOf 3 2 ++ bitsOf 31 5) := by decide
    rw [hb]
    simp only [List.cons_append, List.nil_append, List.append_assoc, bind_eq, Prog.getBit, bit_bind, ret_bind,
      run_bit, if_true]
    rw [run_bind_ok (hx _), if_pos (by omega), run_bind_ok (hy _), if_pos (by omega), run_bind_ok hr]
    simp; omega

/-! ### Lblock -/

theorem growLblock_spec (bytes log lblock B : Nat) (hB : bytes < 2 ^ B) :
    ∃ k, growLblock bytes log lblock = (List.replicate k true, lblock + k) ∧
      bytes < 2 ^ (log + (lblock + k)) ∧ (lblock + k ≤ max lblock B) := by
  generalize hm : bytes - (log + lblock) = m
  induction m using Nat.strongRecOn generalizing lblock with
  | ind m ih =>
    rw [growLblock]
    by_cases h : 2 ^ (log + lblock) ≤ bytes
    · have hlt := @Nat.lt_two_pow_self (log + lblock)
      obtain ⟨k, h1, h2, h3⟩ := ih (bytes - (log + (lblock + 1))) (by omega) (lblock + 1) rfl
      have hb : log + lblock < B := by
        by_contra hc
        have : 2 ^ B ≤ 2 ^ (log + lblock) := Nat.pow_le_pow_right (by omega) (by omega)
        omega
      refine ⟨k + 1, ?_, ?_, by omega⟩
      · rw [if_pos h, h1]
        simp only [List.replicate_succ, Prod.mk.injEq, true_and]
        omega
      · rw [show log + (lblock + (k + 1)) = log + (lblock + 1 + k) by omega]; exact h2
    · exact ⟨0, by rw [if_neg h]; simp, by simpa using h, by simp⟩

theorem growAll_spec (passLen : List Nat) (B : Nat) (segs : List (Nat × Nat))
    (hB : ∀ s ∈ segs, segBytes passLen s < 2 ^ B) : ∀ lblock,
    ∃ k, growAll passLen segs lblock = (List.replicate k true, lblock + k) ∧
      (∀ s ∈ segs, segBytes passLen s < 2 ^ (floorLog s.2 0 + (lblock + k))) ∧ lblock + k ≤ max lblock B := by
  induction segs with
  | nil => intro l; exact ⟨0, by simp [growAll], by simp, by simp⟩
  | cons s segs ih =>
    intro l
    obtain ⟨k, h1, h2, h3⟩ := growLblock_spec (segBytes passLen s) (floorLog s.2 0) l B (hB s (by simp))
    obtain ⟨k2, h4, h5, h6⟩ := ih (fun s hs => hB s (by simp [hs])) (l + k)
    refine ⟨k + k2, ?_, ?_, by omega⟩
    · simp only [growAll, h1, h4, Prod.mk.injEq]
      exact ⟨by rw [List.replicate_append_replicate], by omega⟩
    · intro s' hs'
      rcases List.mem_cons.1 hs' with rfl | hs'
      · refine lt_of_lt_of_le h2 ?_
        exact Nat.pow_le_pow_right (by omega) (by omega)
      · rw [show l + (k + k2) = l + k + k2 by omega]
        exact h5 s' hs'

theorem decLblock_spec (k : Nat) (rest : List Bool) : ∀ fuel l, k < fuel → l + k < 256 →
    (decLblock fuel l).run (List.replicate k true ++ false :: rest) = .ok (l + k, rest) := by
  induction k with
  | zero =>
    intro fuel l hf _
    cases fuel with
    | zero => omega
    | succ fuel => simp [decLblock, Prog.getBit]
  | succ k ih =>
    intro fuel l hf hl
    cases fuel with
    | zero => omega
    | succ fuel =>
      simp only [decLblock, List.replicate_succ, List.cons_append, bind_eq, Prog.getBit, bit_bind, ret_bind, run_bit,
        if_true]
      rw [Nat.mod_eq_of_lt (by omega), ih fuel (l + 1) (by omega) (by omega)]
      congr 2; omega

/-! ### One block -/

/-- The code-blocks the HT encoder produces: coded data present iff there are passes, one to three passes, the
cleanup segment at least two bytes, lengths below 2^30. -/
structure EncBlock.Consistent (e : EncBlock) : Prop where
  len : e.length = 0 ↔ e.passes = 0
  passes : e.passes ≤ 3
  zbp : e.zbp < 256
  stored : e.passes ≤ e.passLen.length
  cleanup : e.passes ≠ 0 → 2 ≤ e.passLen.headD 0
  bounded : (e.passLen.take e.passes).sum < 2 ^ 30

theorem encSegs_1 : encSegs 0 1 = [(0, 1)] := by
  rw [encSegs, dif_neg (by omega)]; simp only [if_pos]; rw [encSegs, dif_pos (by omega)]
theorem encSegs_tail (i n : Nat) (hi : i ≠ 0) (hn : n ≠ 0) : encSegs i n = [(i, n)] := by
  rw [encSegs, dif_neg hn]; simp only [hi, if_false]; rw [encSegs, dif_pos (by omega)]
theorem encSegs_succ (n : Nat) (hn : n ≠ 0) : encSegs 0 (n + 1) = [(0, 1), (1, n)] := by
  rw [encSegs, dif_neg (by omega)]; simp only [if_true]
  rw [show n + 1 - 1 = n by omega, show 0 + 1 = 1 by omega, encSegs_tail 1 n (by omega) hn]
theorem floorLog_1 : floorLog 1 0 = 0 := by rw [floorLog]; simp
theorem floorLog_2 : floorLog 2 0 = 1 := by rw [floorLog]; simp; rw [floorLog]; simp
theorem passBound_1 (l : Nat) : passBound 1 2 l = (l, 2) := by rw [passBound]; simp

theorem addSegment_ok (b : DecBlock) (seg bytes : Nat) (h1 : 1 ≤ seg) (h2 : b.numPasses + seg ≤ 4)
    (h3 : b.passLen.length = b.numPasses) (h4 : b.cap = 4) :
    addSegment b seg bytes = .ret { b with
      numPasses := b.numPasses + seg
      passLen := (b.passLen ++ List.replicate seg 0).set (b.numPasses + seg - 1) bytes } := by
  unfold addSegment
  rw [if_neg (by omega), if_neg (by omega)]
  simp only [h4, h3]
  rw [if_pos (Or.inl h2), if_neg (by omega)]
  simp only [pure_eq]
  rw [show b.numPasses + seg - b.numPasses = seg by omega, ← h4]

/-- The pass lengths the parser stores: a refinement segment's length goes to its last pass. -/
def parsedLens (e : EncBlock) : List Nat :=
  if e.passes = 3 then [e.passLen.headD 0, 0, (e.passLen.drop 1).headD 0 + (e.passLen.drop 2).headD 0]
  else e.passLen.take e.passes

theorem take_sum_bounds (l : List Nat) (n i s : Nat) (h : i + s ≤ n) : ((l.drop i).take s).sum ≤ (l.take n).sum := by
  have hsub : ((l.drop i).take s).Sublist (l.take n) := by
    rw [List.take_drop]
    refine (List.drop_sublist _ _).trans ?_
    exact (List.take_sublist_take_left (by omega))
  exact hsub.sum_le_sum (by intro x _; exact Nat.zero_le x)

theorem decBody_spec (e : EncBlock) (he : e.Consistent) (hp : e.passes ≠ 0) (fuel : Nat) (hf : 256 ≤ fuel)
    (zbp start : Nat) (rest : List Bool) :
    ∃ l, (decBody fuel { included := true, phld := true, zbp := zbp, lblock := 3 } start).run (encBody e ++ rest) =
      .ok ({ included := true, phld := false, zbp := zbp, lblock := l, numPasses := e.passes,
             passLen := parsedLens e, cap := 4, layers := [(start, e.passes)] }, rest) := by
  have hsb : ∀ s ∈ encSegs 0 e.passes, segBytes e.passLen s < 2 ^ 30 := by
    intro s hs
    have hle : s.1 + s.2 ≤ e.passes := by
      have h3 := he.passes
      have : e.passes = 1 ∨ e.passes = 2 ∨ e.passes = 3 := by omega
      rcases this with h | h | h
      · rw [h, encSegs_1] at hs; simp at hs; subst hs; simp; omega
      · rw [h, encSegs_succ 1 (by omega)] at hs; simp at hs; rcases hs with rfl | rfl <;> simp <;> omega
      · rw [h, encSegs_succ 2 (by omega)] at hs; simp at hs; rcases hs with rfl | rfl <;> simp <;> omega
    exact lt_of_le_of_lt (take_sum_bounds e.passLen e.passes s.1 s.2 hle) he.bounded
  obtain ⟨k, hg, hfit, hk⟩ := growAll_spec e.passLen 30 _ hsb 3
  have hk' : 3 + k ≤ 30 := by omega
  unfold encBody decBody
  simp only [hg]
  generalize hl : 3 + k = l at *
  have hpass := decPasses_spec e.passes (by omega) (by have := he.passes; omega)
  have hlb := fun tl => decLblock_spec k tl fuel 3 (by omega) (by omega)
  rw [hl] at hlb
  simp only [List.append_assoc, bind_eq]
  rw [run_bind_ok (hpass _)]
  rw [List.singleton_append, run_bind_ok (hlb _)]
  simp only [if_true]
  refine ⟨l, ?_⟩
  have hpl : e.passes ≤ e.passLen.length := he.stored
  have hcl := he.cleanup hp
  obtain ⟨a, pl, hpl'⟩ : ∃ a pl, e.passLen = a :: pl := by
    cases h : e.passLen with
    | nil => rw [h] at hpl; simp at hpl; omega
    | cons a pl => exact ⟨a, pl, rfl⟩
  have hcl' : 2 ≤ a := by rw [hpl'] at hcl; simpa using hcl
  have hb30 : ∀ s ∈ encSegs 0 e.passes, segBytes e.passLen s < 2 ^ 32 := by
    intro s hs
    have := hsb s hs
    omega
  have hread : ∀ s ∈ encSegs 0 e.passes, ∀ tl,
      (readN (floorLog s.2 0 + l)).run (bitsOf (segBytes e.passLen s) (floorLog s.2 0 + l) ++ tl) =
        .ok (segBytes e.passLen s, tl) :=
    fun s hs tl => readN_spec _ _ (hfit s hs) (hb30 s hs) tl
  have hsa : segBytes e.passLen (0, 1) = a := by simp [segBytes, hpl']
  unfold decFirst
  have hcase : e.passes = 1 ∨ e.passes = 2 ∨ e.passes = 3 := by have := he.passes; omega
  rcases hcase with h | h | h
  · have hs : encSegs 0 e.passes = [(0, 1)] := by rw [h]; exact encSegs_1
    rw [hs] at hread ⊢
    have h0 := hread (0, 1) (by simp)
    rw [floorLog_1, Nat.zero_add, hsa] at h0
    simp only [List.flatMap_cons, List.flatMap_nil, List.append_nil, floorLog_1, Nat.zero_add, hsa, h]
    rw [if_neg (by omega)]
    simp only [Nat.reduceAdd, Nat.reduceSub, Nat.reduceMod, passBound_1, bind_eq]
    rw [Nat.mod_eq_of_lt (by omega), run_bind_ok (h0 _), if_pos (by omega), if_neg (by omega)]
    rw [addSegment_ok _ _ _ (by omega) (by simp) rfl rfl]
    simp only [ret_bind]
    rw [htLoop, dif_pos (by omega)]
    simp only [pure_eq, run_ret]
    have : parsedLens e = [a] := by simp [parsedLens, h, hpl']
    rw [this]
    rfl
  · have hs : encSegs 0 e.passes = [(0, 1), (1, 1)] := by rw [h]; exact encSegs_succ 1 (by omega)
    rw [hs] at hread ⊢
    have h0 := hread (0, 1) (by simp)
    have h1 := hread (1, 1) (by simp)
    obtain ⟨c, pl2, hpl2⟩ : ∃ c pl2, pl = c :: pl2 := by
      cases hq : pl with
      | nil => rw [hpl', hq, h] at hpl; simp at hpl
      | cons c pl2 => exact ⟨c, pl2, rfl⟩
    have hsc : segBytes e.passLen (1, 1) = c := by simp [segBytes, hpl', hpl2]
    rw [floorLog_1, Nat.zero_add, hsa] at h0
    rw [floorLog_1, Nat.zero_add, hsc] at h1
    simp only [List.flatMap_cons, List.flatMap_nil, List.append_nil, floorLog_1, Nat.zero_add, hsa, hsc, h,
      List.append_assoc]
    rw [if_neg (by omega)]
    simp only [Nat.reduceAdd, Nat.reduceSub, Nat.reduceMod, passBound_1, bind_eq]
    rw [Nat.mod_eq_of_lt (by omega), run_bind_ok (h0 _), if_pos (by omega), if_neg (by omega)]
    rw [addSegment_ok _ _ _ (by omega) (by simp) rfl rfl]
    simp only [ret_bind]
    rw [htLoop, dif_neg (by omega)]
    simp only [Nat.reduceAdd, Nat.reduceSub, Nat.reduceMod, gt_iff_lt, lt_self_iff_false, if_false, if_true,
      Bool.false_eq_true, false_and, Nat.add_sub_cancel]
    rw [Nat.mod_eq_of_lt (by omega), run_bind_ok (h1 _)]
    rw [addSegment_ok _ _ _ (by omega) (by simp) (by simp) rfl]
    simp only [ret_bind]
    rw [htLoop, dif_pos (by omega)]
    simp only [pure_eq, run_ret]
    have : parsedLens e = [a, c] := by simp [parsedLens, h, hpl', hpl2]
    rw [this]
    rfl
  · have hs : encSegs 0 e.passes = [(0, 1), (1, 2)] := by rw [h]; exact encSegs_succ 2 (by omega)
    rw [hs] at hread ⊢
    have h0 := hread (0, 1) (by simp)
    have h1 := hread (1, 2) (by simp)
    obtain ⟨c, d, pl2, hpl2⟩ : ∃ c d pl2, pl = c :: d :: pl2 := by
      cases hq : pl with
      | nil => rw [hpl', hq, h] at hpl; simp at hpl
      | cons c pl2 =>
        cases hq2 : pl2 with
        | nil => rw [hpl', hq, hq2, h] at hpl; simp at hpl
        | cons d pl3 => exact ⟨c, d, pl3, rfl⟩
    have hsc : segBytes e.passLen (1, 2) = c + d := by simp [segBytes, hpl', hpl2]
    rw [floorLog_1, Nat.zero_add, hsa] at h0
    rw [floorLog_2, hsc] at h1
    simp only [List.flatMap_cons, List.flatMap_nil, List.append_nil, floorLog_1, floorLog_2, Nat.zero_add, hsa, hsc, h,
      List.append_assoc]
    rw [if_neg (by omega)]
    simp only [Nat.reduceAdd, Nat.reduceSub, Nat.reduceMod, passBound_1, bind_eq]
    rw [Nat.mod_eq_of_lt (by omega), run_bind_ok (h0 _), if_pos (by omega), if_neg (by omega)]
    rw [addSegment_ok _ _ _ (by omega) (by simp) rfl rfl]
    simp only [ret_bind]
    rw [htLoop, dif_neg (by omega)]
    simp only [Nat.reduceAdd, Nat.reduceSub, Nat.reduceMod, gt_iff_lt, Nat.reduceLT, if_true,
      Bool.false_eq_true, false_and, if_false]
    rw [show l + 2 - 1 = 1 + l by omega, Nat.mod_eq_of_lt (by omega), run_bind_ok (h1 _)]
    rw [addSegment_ok _ _ _ (by omega) (by simp) (by simp) rfl]
    simp only [ret_bind]
    rw [htLoop, dif_pos (by omega)]
    simp only [pure_eq, run_ret]
    have : parsedLens e = [a, 0, c + d] := by simp [parsedLens, h, hpl', hpl2]
    rw [this]
    rfl

end Verif.Packet
