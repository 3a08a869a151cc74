import Verif.Packet.PacketLemmas
/-
Behaviour of the packet-header parser on arbitrary input, and marker freedom of written headers.
-/
namespace Verif.Packet
open Prog

/-! ### Written headers contain no marker -/

def StuffOk (last : Nat) : List Nat → Prop
  | [] => last ≠ 255
  | b :: l => b < 256 ∧ (last = 255 → b < 128) ∧ StuffOk b l

theorem pack_stuffOk (bs : List Bool) (last : Nat) : StuffOk last (pack last bs) := by
  generalize hL : bs.length = L
  induction L using Nat.strongRecOn generalizing bs last with
  | ind L ih =>
    rw [pack]
    have hv : ∀ l : List Bool, l.length ≤ (if last = 255 then 7 else 8) →
        packVal (if last = 255 then 7 else 8) l < 256 ∧
        (last = 255 → packVal (if last = 255 then 7 else 8) l < 128) := by
      intro l hl
      have := packVal_lt _ l hl
      by_cases h : last = 255
      · simp only [h, if_true] at this ⊢; omega
      · simp only [h, if_false] at this ⊢
        exact ⟨by omega, fun h' => h'.elim⟩
    by_cases h : bs.length ≤ if last = 255 then 7 else 8
    · rw [if_pos h]
      obtain ⟨h1, h2⟩ := hv bs h
      refine ⟨h1, h2, ?_⟩
      by_cases hf : packVal (if last = 255 then 7 else 8) bs = 255
      · rw [if_pos hf]; simp [StuffOk]
      · rw [if_neg hf]; exact hf
    · rw [if_neg h]
      obtain ⟨h1, h2⟩ := hv (bs.take (if last = 255 then 7 else 8)) (by simp)
      have := cap_pos last
      exact ⟨h1, h2, ih (bs.length - if last = 255 then 7 else 8) (by omega) _ _ (by simp)⟩

theorem stuffOk_spec (l : List Nat) : ∀ last, StuffOk last l →
    (∀ b ∈ l, b < 256) ∧ (∀ i, l[i]? = some 255 → ∃ b, l[i + 1]? = some b ∧ b < 128) := by
  induction l with
  | nil => intro _ _; simp
  | cons a l ih =>
    intro last h
    obtain ⟨h1, h2, h3⟩ := h
    obtain ⟨h4, h5⟩ := ih a h3
    refine ⟨?_, ?_⟩
    · intro b hb
      rcases List.mem_cons.1 hb with rfl | hb
      · exact h1
      · exact h4 b hb
    · intro i hi
      cases i with
      | zero =>
        simp at hi
        subst hi
        cases l with
        | nil => exact absurd rfl h3
        | cons b l => exact ⟨b, by simp, h3.2.1 rfl⟩
      | succ i => simpa using h5 i (by simpa using hi)

/-! ### The parser on arbitrary bits -/

/-- What must hold of a code-block between packets. -/
structure DecBlock.Ok (b : DecBlock) : Prop where
  cap : b.cap = 4 ∨ b.cap = 128
  len : b.passLen.length = b.numPasses
  fits : b.numPasses ≤ b.cap

/-- Outcomes allowed: an exception, a loop bound, or a block in order. -/
def Fine {α : Type} (P : α → Prop) : Except Fail α → Prop
  | .ok a => P a
  | .error e => e ≠ .oob

theorem fine_bind {α β : Type} {P : α → Prop} {Q : β → Prop} {p : Prog α} {f : α → Prog β}
    (hp : p.Always (Fine P)) (hf : ∀ a, P a → (f a).Always (Fine Q)) : (p.bind f).Always (Fine Q) :=
  always_bind hp hf (fun _ he => he)

theorem addSegment_fine (b : DecBlock) (hb : b.Ok) (seg bytes : Nat) (hs : 1 ≤ seg) :
    (addSegment b seg bytes).Always (Fine DecBlock.Ok) := by
  unfold addSegment
  by_cases h1 : seg > 128
  · rw [if_pos h1]; show Fail.throw ≠ Fail.oob; simp
  rw [if_neg h1]
  by_cases h2 : b.numPasses + seg > 128
  · rw [if_pos h2]; show Fail.throw ≠ Fail.oob; simp
  rw [if_neg h2]
  simp only
  generalize hc : (if b.numPasses + seg ≤ 4 ∨ b.cap ≠ 4 then b.cap else 128) = cap
  have hcap : (cap = 4 ∨ cap = 128) ∧ b.numPasses + seg ≤ cap := by
    have := hb.cap
    split_ifs at hc <;> omega
  have := hb.len
  rw [if_neg (by omega)]
  refine ⟨hcap.1, ?_, hcap.2⟩
  simp only [List.length_set, List.length_append, List.length_replicate]
  omega

theorem readNFrom_fine (n : Nat) : ∀ c, (readNFrom c n).Always (Fine fun _ => True) := by
  induction n with
  | zero => intro c; trivial
  | succ n ih => intro c b; exact ih _

theorem readN_fine (n : Nat) : (readN n).Always (Fine fun _ => True) := readNFrom_fine n 0

theorem htLoop_fine (new : Nat) : ∀ (two empty : Bool) (b : DecBlock), b.Ok →
    (htLoop new two empty b).Always (Fine DecBlock.Ok) := by
  induction new using Nat.strongRecOn with
  | ind new ih =>
    intro two empty b hb
    rw [htLoop]
    by_cases h0 : new = 0
    · rw [dif_pos h0]; exact hb
    rw [dif_neg h0]
    have hseg : 1 ≤ (if new > 1 then (if two then 2 else 1) else 1) := by
      split_ifs <;> omega
    generalize hsg : (if new > 1 then (if two then 2 else 1) else 1) = seg at hseg ⊢
    simp only
    refine fine_bind (readN_fine _) ?_
    intro x _
    cases two with
    | true =>
      simp only [if_true]
      by_cases hx : empty = true ∧ x ≠ 0
      · rw [if_pos hx]; show Fail.throw ≠ Fail.oob; simp
      · rw [if_neg hx]
        exact fine_bind (addSegment_fine b hb seg x hseg) (fun b' hb' => ih _ (by omega) _ _ b' hb')
    | false =>
      simp only [Bool.false_eq_true, if_false]
      by_cases hx : x = 1
      · rw [if_pos hx]; show Fail.throw ≠ Fail.oob; simp
      · rw [if_neg hx]
        exact fine_bind (addSegment_fine b hb seg x hseg) (fun b' hb' => ih _ (by omega) _ _ b' hb')

theorem extraBits_fine (n pb x : Nat) : (extraBits n pb x).Always (Fine fun _ => True) := by
  generalize hm : n + 1 - pb = m
  induction m using Nat.strongRecOn generalizing pb x with
  | ind m ih =>
    rw [extraBits]
    by_cases h : pb ≤ n ∧ 0 < pb
    · rw [dif_pos h]
      intro b
      exact ih _ (by omega) _ _ rfl
    · rw [dif_neg h]; trivial

theorem decFirst_fine (b : DecBlock) (hb : b.Ok) (new : Nat) (hn : 1 ≤ new) :
    (decFirst b new).Always (Fine DecBlock.Ok) := by
  unfold decFirst
  simp only
  generalize hsg : new - (b.numPasses + new - 1) % 3 = seg
  by_cases h1 : seg < 1
  · rw [if_pos h1]
    refine fine_bind (readN_fine _) ?_
    intro x _
    by_cases hx : x ≠ 0
    · rw [if_pos hx]; show Fail.throw ≠ Fail.oob; simp
    · rw [if_neg hx]; exact addSegment_fine b hb new x hn
  · rw [if_neg h1]
    refine fine_bind (readN_fine _) ?_
    intro x _
    by_cases hx : x ≠ 0
    · rw [if_pos hx]
      by_cases h2 : x < 2
      · rw [if_pos h2]; show Fail.throw ≠ Fail.oob; simp
      · rw [if_neg h2]
        refine fine_bind (addSegment_fine { b with phld := false } ⟨hb.cap, hb.len, hb.fits⟩ seg x (by omega)) ?_
        intro b' hb'
        exact htLoop_fine _ _ _ b' hb'
    · rw [if_neg hx]
      refine fine_bind (extraBits_fine _ _ _) ?_
      intro y _
      by_cases hy : y ≠ 0
      · rw [if_pos hy]; show Fail.throw ≠ Fail.oob; simp
      · rw [if_neg hy]; exact addSegment_fine b hb new y hn

theorem decNext_fine (b : DecBlock) (hb : b.Ok) (new : Nat) : (decNext b new).Always (Fine DecBlock.Ok) := by
  unfold decNext
  by_cases h1 : b.numPasses % 3 = 0
  · rw [if_pos h1]
    refine fine_bind (readN_fine _) ?_
    intro x _
    refine fine_bind (addSegment_fine b hb 1 x le_rfl) ?_
    intro b' hb'
    exact htLoop_fine _ _ _ b' hb'
  · rw [if_neg h1]
    refine fine_bind (readN_fine _) ?_
    intro x _
    refine fine_bind (addSegment_fine b hb _ x (by split_ifs <;> omega)) ?_
    intro b' hb'
    exact htLoop_fine _ _ _ b' hb'

theorem decPasses_fine : decPasses.Always (Fine fun n => 1 ≤ n) := by
  unfold decPasses
  intro b
  cases b with
  | false => show (1 : Nat) ≤ 1; omega
  | true =>
    intro b2
    cases b2 with
    | false => show (1 : Nat) ≤ 2; omega
    | true =>
      show Always (Fine fun n => 1 ≤ n) ((readN 2).bind _)
      refine fine_bind (readN_fine _) ?_
      intro x _
      by_cases hx : 3 + x ≥ 6
      · rw [if_pos hx]
        refine fine_bind (readN_fine _) ?_
        intro y _
        by_cases hy : 3 + x + y ≥ 37
        · rw [if_pos hy]
          refine fine_bind (readN_fine _) ?_
          intro z _
          show 1 ≤ 3 + x + y + z; omega
        · rw [if_neg hy]; show 1 ≤ 3 + x + y; omega
      · rw [if_neg hx]; show 1 ≤ 3 + x; omega

theorem decLblock_fine (fuel : Nat) : ∀ l, (decLblock fuel l).Always (Fine fun _ => True) := by
  induction fuel with
  | zero => intro l; show Fail.spin ≠ Fail.oob; simp
  | succ fuel ih =>
    intro l b
    cases b with
    | false => trivial
    | true => exact ih _

theorem countZeros_fine (fuel : Nat) : ∀ l, (countZeros fuel l).Always (Fine fun _ => True) := by
  induction fuel with
  | zero => intro l; show Fail.spin ≠ Fail.oob; simp
  | succ fuel ih =>
    intro l b
    cases b with
    | true => trivial
    | false => exact ih _

theorem decBody_fine (fuel : Nat) (b : DecBlock) (hb : b.Ok) (start : Nat) :
    (decBody fuel b start).Always (Fine DecBlock.Ok) := by
  unfold decBody
  refine fine_bind decPasses_fine ?_
  intro new hnew
  refine fine_bind (decLblock_fine fuel _) ?_
  intro l _
  simp only
  by_cases h : b.phld = true
  · rw [if_pos h]
    apply decFirst_fine
    · exact ⟨hb.cap, hb.len, hb.fits⟩
    · exact hnew
  · rw [if_neg h]
    apply decNext_fine
    exact ⟨hb.cap, hb.len, hb.fits⟩

theorem decInc_fine (ps : List (Option Nat)) (thr : Nat) (path : List Nat) : ∀ s f,
    (decInc ps thr s f path).Always (Fine fun _ => True) := by
  induction path with
  | nil => intro s f; trivial
  | cons n path ih =>
    intro s f
    refine fine_bind (P := fun _ => True) ?_ (fun r _ => ih _ _)
    unfold decIncNode
    by_cases h : s.st n = true
    · rw [if_pos h]; trivial
    · rw [if_neg h]
      simp only
      by_cases h2 : raised ps s n ≤ thr
      · rw [if_pos h2]; intro b; cases b <;> trivial
      · rw [if_neg h2]; trivial

theorem decZbp_fine (ps : List (Option Nat)) (fuel : Nat) (path : List Nat) : ∀ s,
    (decZbp ps fuel s path).Always (Fine fun _ => True) := by
  induction path with
  | nil => intro s; trivial
  | cons n path ih =>
    intro s
    refine fine_bind (P := fun _ => True) ?_ (fun r _ => ih _)
    unfold decZbpNode
    by_cases h : s.st n = true
    · rw [if_pos h]; trivial
    · rw [if_neg h]
      exact fine_bind (countZeros_fine fuel _) (fun c _ => trivial)

theorem decBlock_fine (ps : List (Option Nat)) (fuel layer : Nat) (t : DecTrees) (idx : Nat) (b : DecBlock)
    (hb : b.Ok) : (decBlock ps fuel layer t idx b).Always (Fine fun r => r.2.Ok) := by
  unfold decBlock
  simp only
  by_cases h : b.included = true
  · rw [if_pos h]
    intro bit
    cases bit with
    | false => exact ⟨hb.cap, hb.len, hb.fits⟩
    | true =>
      show Always (Fine fun r : DecTrees × DecBlock => r.2.Ok) ((decBody fuel b _).bind _)
      exact fine_bind (decBody_fine fuel b hb _) (fun b' hb' => hb')
  · rw [if_neg h]
    refine fine_bind (P := fun _ => True) ?_ ?_
    · by_cases hl : layer > 0
      · rw [if_pos hl]; exact decInc_fine _ _ _ _ _
      · rw [if_neg hl]; trivial
    · intro r0 _
      refine fine_bind (decInc_fine _ _ _ _ _) ?_
      intro r _
      by_cases hr : r.2 = true
      · rw [if_pos hr]
        refine fine_bind (decZbp_fine _ _ _ _) ?_
        intro z _
        refine fine_bind (P := DecBlock.Ok) ?_ (fun b' hb' => hb')
        apply decBody_fine
        exact ⟨hb.cap, hb.len, hb.fits⟩
      · rw [if_neg hr]; exact ⟨hb.cap, hb.len, hb.fits⟩

theorem decBlocks_fine (ps : List (Option Nat)) (fuel layer : Nat) (blocks : List DecBlock) :
    ∀ t idx, (∀ b ∈ blocks, b.Ok) →
    (decBlocks ps fuel layer t idx blocks).Always (Fine fun r => ∀ b ∈ r.2, b.Ok) := by
  induction blocks with
  | nil => intro t idx _ b hb; simp at hb
  | cons b blocks ih =>
    intro t idx h
    refine fine_bind (decBlock_fine ps fuel layer t idx b (h b (by simp))) ?_
    intro r hr
    refine fine_bind (ih _ _ (fun b hb => h b (by simp [hb]))) ?_
    intro r2 hr2 b' hb'
    rcases List.mem_cons.1 hb' with rfl | hb'
    · exact hr
    · exact hr2 b' hb'

theorem decBands_fine (fuel layer : Nat) (ds : List DecBand) (h : ∀ d ∈ ds, ∀ b ∈ d.blocks, b.Ok) :
    (decBands fuel layer ds).Always (Fine fun r => ∀ d ∈ r, ∀ b ∈ d.blocks, b.Ok) := by
  induction ds with
  | nil => intro d hd; simp at hd
  | cons d ds ih =>
    refine fine_bind (P := fun d' : DecBand => ∀ b ∈ d'.blocks, b.Ok) ?_ ?_
    · unfold decBand
      by_cases h0 : d.w * d.h = 0
      · rw [if_pos h0]; exact h d (by simp)
      · rw [if_neg h0]
        exact fine_bind (decBlocks_fine _ _ _ _ _ _ (h d (by simp))) (fun r hr => hr)
    · intro d' hd'
      refine fine_bind (ih (fun d hd => h d (by simp [hd]))) ?_
      intro r hr e he
      rcases List.mem_cons.1 he with rfl | he
      · exact hd'
      · exact hr e he

/-! ### Truncated headers -/

/-- Only zero bits are left. -/
def Drained (r : Reader) : Prop := r.src = [] ∧ r.tmp % 2 ^ r.bits = 0

theorem drained_getBit (r : Reader) (h : Drained r) : r.getBit.1 = false ∧ Drained r.getBit.2 := by
  obtain ⟨src, tmp, last, bits⟩ := r
  obtain ⟨h1, h2⟩ := h
  simp only at h1 h2
  subst h1
  unfold Reader.getBit Reader.getByte
  by_cases hb : bits = 0
  · simp only [hb, if_true]
    exact ⟨by simp, rfl, by simp⟩
  · obtain ⟨k, rfl⟩ : ∃ k, bits = k + 1 := ⟨bits - 1, by omega⟩
    simp only [Nat.add_one_ne_zero, if_false, Nat.add_sub_cancel]
    have e : tmp % 2 ^ (k + 1) = tmp % 2 ^ k + 2 ^ k * (tmp / 2 ^ k % 2) := by
      rw [Nat.pow_succ, Nat.mod_mul]
    have hp : 0 < 2 ^ k := by positivity
    have h3 : tmp % 2 ^ k = 0 := by omega
    have h4 : tmp / 2 ^ k % 2 = 0 := by
      have : 2 ^ k * (tmp / 2 ^ k % 2) = 0 := by omega
      rcases Nat.mul_eq_zero.1 this with h | h
      · omega
      · exact h
    refine ⟨?_, rfl, h3⟩
    rw [Nat.and_one_is_mod, Nat.shiftRight_eq_div_pow, h4]
    rfl

theorem countZeros_drained (fuel : Nat) : ∀ c r, Drained r → (countZeros fuel c).runReader r = .error .spin := by
  induction fuel with
  | zero => intro c r _; rfl
  | succ fuel ih =>
    intro c r h
    obtain ⟨h1, h2⟩ := drained_getBit r h
    simp only [countZeros, bind_eq, Prog.getBit, bit_bind, ret_bind, runReader, h1, Bool.false_eq_true, if_false]
    exact ih _ _ h2

end Verif.Packet
