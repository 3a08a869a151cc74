import Verif.Packet.Body
/-
Lemmas on packet bodies.
-/
namespace Verif.Packet
open Prog

/-! ### Pass counts of the parser -/

/-- Between packets: the array is in order and its passes are those of the layers read so far. -/
structure DecBlock.Counted (b : DecBlock) : Prop where
  ok : b.Ok
  sum : (b.layers.map (·.2)).sum = b.numPasses
  start : ∀ l0 n, b.layers.getLast? = some (l0, n) → n ≠ 0 → l0 + n = b.numPasses

/-- `b'` has `n` passes more than `b` and the same layers. -/
def Grown (b : DecBlock) (n : Nat) (b' : DecBlock) : Prop :=
  b'.Ok ∧ b'.numPasses = b.numPasses + n ∧ b'.layers = b.layers

theorem addSegment_grown (b : DecBlock) (hb : b.Ok) (seg bytes : Nat) (hs : 1 ≤ seg) :
    (addSegment b seg bytes).Always (Fine (Grown b seg)) := by
  unfold addSegment
  by_cases h1 : seg > 128
  · rw [if_pos h1]; show Fail.throw ≠ Fail.oob; simp
  rw [if_neg h1]
  by_cases h2 : b.numPasses + seg > 128
  · rw [if_pos h2]; show Fail.throw ≠ Fail.oob; simp
  rw [if_neg h2]
  simp only
  generalize hc : (if b.numPasses + seg ≤ 4 ∨ b.cap ≠ 4 then b.cap else 128) = cap
  have hcap : (cap = 4 ∨ cap = 128) ∧ b.numPasses + seg ≤ cap := by
    have := hb.cap
    split_ifs at hc <;> omega
  have := hb.len
  rw [if_neg (by omega)]
  refine ⟨⟨hcap.1, ?_, hcap.2⟩, rfl, rfl⟩
  simp only [List.length_set, List.length_append, List.length_replicate]
  omega

theorem Grown.trans {b b' b'' : DecBlock} {m n k : Nat} (h : Grown b m b') (h' : Grown b' n b'') (hk : m + n = k) :
    Grown b k b'' := ⟨h'.1, by rw [h'.2.1, h.2.1]; omega, by rw [h'.2.2, h.2.2]⟩

theorem always_mono {α : Type} {P Q : α → Prop} {p : Prog α} (hp : p.Always (Fine P)) (h : ∀ a, P a → Q a) :
    p.Always (Fine Q) := by
  have := fine_bind (f := fun a => .ret a) (Q := Q) hp (fun a ha => h a ha)
  have e : ∀ q : Prog α, q.bind (fun a => .ret a) = q := by
    intro q
    induction q with
    | ret a => rfl
    | fail e => rfl
    | bit k ih => simp only [bit_bind]; congr 1; funext b; exact ih b
  rwa [e] at this

theorem htLoop_grown (new : Nat) : ∀ (two empty : Bool) (b : DecBlock), b.Ok →
    (htLoop new two empty b).Always (Fine (Grown b new)) := by
  induction new using Nat.strongRecOn with
  | ind new ih =>
    intro two empty b hb
    rw [htLoop]
    by_cases h0 : new = 0
    · rw [dif_pos h0]; exact ⟨hb, by omega, rfl⟩
    rw [dif_neg h0]
    have hseg : 1 ≤ (if new > 1 then (if two then 2 else 1) else 1) ∧
        (if new > 1 then (if two then 2 else 1) else 1) ≤ new := by
      split_ifs <;> omega
    generalize hsg : (if new > 1 then (if two then 2 else 1) else 1) = seg at hseg ⊢
    simp only
    refine fine_bind (readN_fine _) ?_
    intro x _
    cases two with
    | true =>
      simp only [if_true]
      by_cases hx : empty = true ∧ x ≠ 0
      · rw [if_pos hx]; show Fail.throw ≠ Fail.oob; simp
      · rw [if_neg hx]
        exact fine_bind (addSegment_grown b hb seg x hseg.1)
          (fun b' hb' => always_mono (ih (new - seg) (by omega) _ _ b' hb'.1) fun b'' h => hb'.trans h (by omega))
    | false =>
      simp only [Bool.false_eq_true, if_false]
      by_cases hx : x = 1
      · rw [if_pos hx]; show Fail.throw ≠ Fail.oob; simp
      · rw [if_neg hx]
        exact fine_bind (addSegment_grown b hb seg x hseg.1)
          (fun b' hb' => always_mono (ih (new - seg) (by omega) _ _ b' hb'.1) fun b'' h => hb'.trans h (by omega))

theorem decFirst_grown (b : DecBlock) (hb : b.Ok) (new : Nat) (hn : 1 ≤ new) :
    (decFirst b new).Always (Fine (Grown b new)) := by
  unfold decFirst
  simp only
  generalize hsg : new - (b.numPasses + new - 1) % 3 = seg
  by_cases h1 : seg < 1
  · rw [if_pos h1]
    refine fine_bind (readN_fine _) ?_
    intro x _
    by_cases hx : x ≠ 0
    · rw [if_pos hx]; show Fail.throw ≠ Fail.oob; simp
    · rw [if_neg hx]; exact addSegment_grown b hb new x hn
  · rw [if_neg h1]
    refine fine_bind (readN_fine _) ?_
    intro x _
    by_cases hx : x ≠ 0
    · rw [if_pos hx]
      by_cases h2 : x < 2
      · rw [if_pos h2]; show Fail.throw ≠ Fail.oob; simp
      · rw [if_neg h2]
        refine fine_bind (addSegment_grown { b with phld := false } ⟨hb.cap, hb.len, hb.fits⟩ seg x (by omega)) ?_
        intro b' hb'
        refine always_mono (htLoop_grown _ _ _ b' hb'.1) fun b'' h => ?_
        have := hb'.trans h (k := new) (by omega)
        exact ⟨this.1, this.2.1, this.2.2⟩
    · rw [if_neg hx]
      refine fine_bind (extraBits_fine _ _ _) ?_
      intro y _
      by_cases hy : y ≠ 0
      · rw [if_pos hy]; show Fail.throw ≠ Fail.oob; simp
      · rw [if_neg hy]; exact addSegment_grown b hb new y hn

theorem decNext_grown (b : DecBlock) (hb : b.Ok) (new : Nat) (hn : 1 ≤ new) :
    (decNext b new).Always (Fine (Grown b new)) := by
  unfold decNext
  by_cases h1 : b.numPasses % 3 = 0
  · rw [if_pos h1]
    refine fine_bind (readN_fine _) ?_
    intro x _
    refine fine_bind (addSegment_grown b hb 1 x le_rfl) ?_
    intro b' hb'
    exact always_mono (htLoop_grown _ _ _ b' hb'.1) fun b'' h => hb'.trans h (by omega)
  · rw [if_neg h1]
    simp only
    have hseg : 1 ≤ (if new > 1 then 3 - b.numPasses % 3 else 1) ∧
        (if new > 1 then 3 - b.numPasses % 3 else 1) ≤ new := by split_ifs <;> omega
    generalize (if new > 1 then 3 - b.numPasses % 3 else 1) = seg at hseg ⊢
    refine fine_bind (readN_fine _) ?_
    intro x _
    refine fine_bind (addSegment_grown b hb _ x hseg.1) ?_
    intro b' hb'
    exact always_mono (htLoop_grown _ _ _ b' hb'.1) fun b'' h => hb'.trans h (by omega)

theorem decBody_counted (fuel : Nat) (b : DecBlock) (hb : b.Ok) (hs : (b.layers.map (·.2)).sum = b.numPasses) :
    (decBody fuel b ((b.layers.map (·.2)).sum % 256)).Always (Fine DecBlock.Counted) := by
  unfold decBody
  refine fine_bind decPasses_fine ?_
  intro new hnew
  refine fine_bind (decLblock_fine fuel _) ?_
  intro l _
  simp only
  have hfin : ∀ b' : DecBlock, Grown { b with lblock := l, layers := b.layers ++ [((b.layers.map (·.2)).sum % 256, new)] } new b' →
      b'.Counted := by
    intro b' h
    have h1 : b'.numPasses = b.numPasses + new := h.2.1
    have h2 : b'.layers = b.layers ++ [((b.layers.map (·.2)).sum % 256, new)] := h.2.2
    have h3 := h.1.fits
    have h4 := h.1.cap
    refine ⟨h.1, ?_, ?_⟩
    · rw [h2, h1]; simp [hs]
    · intro l0 n e _
      rw [h2] at e
      simp only [List.getLast?_append, List.getLast?_singleton, Option.some_or, Option.some.injEq, Prod.mk.injEq] at e
      rw [← e.1, ← e.2, h1, hs]
      omega
  by_cases h : b.phld = true
  · rw [if_pos h]
    refine always_mono (decFirst_grown _ ?_ new hnew) hfin
    exact ⟨hb.cap, hb.len, hb.fits⟩
  · rw [if_neg h]
    refine always_mono (decNext_grown _ ?_ new hnew) hfin
    exact ⟨hb.cap, hb.len, hb.fits⟩

theorem counted_skip {b : DecBlock} (hb : b.Ok) (hs : (b.layers.map (·.2)).sum = b.numPasses) (ph : Bool) (s : Nat) :
    DecBlock.Counted { b with phld := ph, layers := b.layers ++ [(s, 0)] } := by
  refine ⟨⟨hb.cap, hb.len, hb.fits⟩, by simp [hs], ?_⟩
  intro l0 n e hn
  simp only [List.getLast?_append, List.getLast?_singleton, Option.some_or, Option.some.injEq, Prod.mk.injEq] at e
  exact absurd e.2.symm hn

theorem decBlock_counted (ps : List (Option Nat)) (fuel layer : Nat) (t : DecTrees) (idx : Nat) (b : DecBlock)
    (hb : b.Ok) (hs : (b.layers.map (·.2)).sum = b.numPasses) :
    (decBlock ps fuel layer t idx b).Always (Fine fun r => r.2.Counted) := by
  unfold decBlock
  simp only
  by_cases h : b.included = true
  · rw [if_pos h]
    intro bit
    cases bit with
    | false => exact counted_skip hb hs b.phld _
    | true =>
      show Always (Fine fun r : DecTrees × DecBlock => r.2.Counted) ((decBody fuel b _).bind _)
      exact fine_bind (decBody_counted fuel b hb hs) (fun b' hb' => hb')
  · rw [if_neg h]
    refine fine_bind (P := fun _ => True) ?_ ?_
    · by_cases hl : layer > 0
      · rw [if_pos hl]; exact decInc_fine _ _ _ _ _
      · rw [if_neg hl]; trivial
    · intro r0 _
      refine fine_bind (decInc_fine _ _ _ _ _) ?_
      intro r _
      by_cases hr : r.2 = true
      · rw [if_pos hr]
        refine fine_bind (decZbp_fine _ _ _ _) ?_
        intro z _
        refine fine_bind (P := DecBlock.Counted) ?_ (fun b' hb' => hb')
        exact decBody_counted fuel { b with phld := true, included := true, zbp := z.value idx % 256, lblock := 3 }
          ⟨hb.cap, hb.len, hb.fits⟩ hs
      · rw [if_neg hr]; exact counted_skip hb hs true _

theorem decBlocks_counted (ps : List (Option Nat)) (fuel layer : Nat) (blocks : List DecBlock) :
    ∀ t idx, (∀ b ∈ blocks, b.Counted) →
    (decBlocks ps fuel layer t idx blocks).Always
      (Fine fun r => r.2.length = blocks.length ∧ ∀ b ∈ r.2, b.Counted) := by
  induction blocks with
  | nil => intro t idx _; exact ⟨rfl, by simp⟩
  | cons b blocks ih =>
    intro t idx h
    refine fine_bind (decBlock_counted ps fuel layer t idx b (h b (by simp)).ok (h b (by simp)).sum) ?_
    intro r hr
    refine fine_bind (ih _ _ (fun b hb => h b (by simp [hb]))) ?_
    intro r2 hr2
    refine ⟨by simp [hr2.1], ?_⟩
    intro b' hb'
    rcases List.mem_cons.1 hb' with rfl | hb'
    · exact hr
    · exact hr2.2 b' hb'

theorem decBands_counted (fuel layer : Nat) (ds : List DecBand) (h : ∀ d ∈ ds, ∀ b ∈ d.blocks, b.Counted) :
    (decBands fuel layer ds).Always (Fine fun r =>
      r.map (·.blocks.length) = ds.map (·.blocks.length) ∧ ∀ d ∈ r, ∀ b ∈ d.blocks, b.Counted) := by
  induction ds with
  | nil => exact ⟨rfl, by simp⟩
  | cons d ds ih =>
    refine fine_bind (P := fun d' : DecBand => d'.blocks.length = d.blocks.length ∧ ∀ b ∈ d'.blocks, b.Counted) ?_ ?_
    · unfold decBand
      by_cases h0 : d.w * d.h = 0
      · rw [if_pos h0]; exact ⟨rfl, h d (by simp)⟩
      · rw [if_neg h0]
        exact fine_bind (decBlocks_counted _ _ _ _ _ _ (h d (by simp))) (fun r hr => hr)
    · intro d' hd'
      refine fine_bind (ih (fun d hd => h d (by simp [hd]))) ?_
      intro r hr
      refine ⟨by simp [hd'.1, hr.1], ?_⟩
      intro e he
      rcases List.mem_cons.1 he with rfl | he
      · exact hd'.2
      · exact hr.2 e he

theorem checkEPH_not_oob (useEPH : Bool) (q : Reader) : checkEPH useEPH q ≠ .error .oob := by
  unfold checkEPH
  split_ifs <;> simp only [ne_eq]
  · split_ifs <;> simp
  · simp

theorem parsePacket_counted (fuel : Nat) (useEPH : Bool) (layer : Nat) (ds : List DecBand)
    (h : ∀ d ∈ ds, ∀ b ∈ d.blocks, b.Counted) (r : Reader) :
    parsePacket fuel useEPH layer ds r ≠ .error .oob ∧
    ∀ ds' r', parsePacket fuel useEPH layer ds r = .ok (ds', r') →
      ds'.map (·.blocks.length) = ds.map (·.blocks.length) ∧ ∀ d ∈ ds', ∀ b ∈ d.blocks, b.Counted := by
  have heph := checkEPH_not_oob useEPH
  unfold parsePacket
  have hf := always_runReader (decBands_counted fuel layer ds h) r.getBit.2
  cases hb : r.getBit.1 with
  | false =>
    simp only [hb, Bool.false_eq_true, if_false]
    cases hc : checkEPH useEPH { r.getBit.2 with bits := 0 } with
    | error e =>
      refine ⟨?_, fun _ _ h => by simp [Except.map] at h⟩
      intro h'
      simp only [Except.map, Except.error.injEq] at h'
      exact heph _ (by rw [hc, h'])
    | ok q =>
      refine ⟨by simp [Except.map], ?_⟩
      intro ds' r' h'
      simp only [Except.map, Except.ok.injEq, Prod.mk.injEq] at h'
      rw [← h'.1]; exact ⟨rfl, h⟩
  | true =>
    simp only [hb, if_true]
    cases hr : (decBands fuel layer ds).runReader r.getBit.2 with
    | error e =>
      rw [hr] at hf
      refine ⟨?_, fun _ _ h => by simp at h⟩
      intro h'
      simp only [Except.error.injEq] at h'
      exact hf h'
    | ok x =>
      rw [hr] at hf
      obtain ⟨ds1, r1⟩ := x
      simp only
      cases hc : checkEPH useEPH r1.finish with
      | error e =>
        refine ⟨?_, fun _ _ h => by simp [Except.map] at h⟩
        intro h'
        simp only [Except.map, Except.error.injEq] at h'
        exact heph _ (by rw [hc, h'])
      | ok q =>
        refine ⟨by simp [Except.map], ?_⟩
        intro ds' r' h'
        simp only [Except.map, Except.ok.injEq, Prod.mk.injEq] at h'
        rw [← h'.1]
        exact hf

/-! ### Attaching -/

/-- Between packets: a buffer of its own has room for `bufLimit` bytes and for what it holds. -/
def Attached.Ok : Attached → Prop
  | .owned bs cap => bufLimit ≤ cap ∧ bs.length ≤ cap
  | _ => True

theorem attach_spec (m : Attached) (hm : m.Ok) (n : Nat) (r : Reader) :
    ∃ m', attach m n r = .ok (m', { r with src := r.src.drop n }) ∧ m'.Ok ∧ m'.bytes = m.bytes ++ r.src.take n := by
  have e1 : r.src.take (min n r.src.length) = r.src.take n := by
    rw [Nat.min_comm, ← List.take_take]; simp
  have e2 : r.src.drop (min n r.src.length) = r.src.drop n := by
    rcases Nat.le_total n r.src.length with h | h
    · rw [Nat.min_eq_left h]
    · rw [Nat.min_eq_right h, List.drop_eq_nil_of_le h, List.drop_eq_nil_of_le (Nat.le_refl _)]
  have hz : min n r.src.length = 0 → r = { r with src := r.src.drop n } ∧ r.src.take n = [] := by
    intro h0
    rw [← e1, ← e2, h0]
    simp
  unfold attach
  simp only [e1, e2]
  cases m with
  | null =>
    simp only
    by_cases h0 : min n r.src.length = 0
    · rw [if_pos h0]
      obtain ⟨h1, h2⟩ := hz h0
      refine ⟨.owned [] bufLimit, by rw [← h1], ⟨le_rfl, by simp⟩, by rw [h2]; rfl⟩
    · rw [if_neg h0]
      exact ⟨_, rfl, trivial, by simp [Attached.bytes]⟩
  | borrowed bs =>
    simp only
    by_cases h0 : min n r.src.length = 0
    · rw [if_pos h0]
      obtain ⟨h1, h2⟩ := hz h0
      exact ⟨.borrowed bs, by rw [← h1], hm, by rw [h2]; simp⟩
    · rw [if_neg h0, if_neg (by omega)]
      refine ⟨_, rfl, ⟨by omega, ?_⟩, rfl⟩
      rw [List.length_append, List.length_take]; omega
  | owned bs c =>
    have hm' : bufLimit ≤ c ∧ bs.length ≤ c := hm
    simp only
    by_cases h0 : min n r.src.length = 0
    · rw [if_pos h0]
      obtain ⟨h1, h2⟩ := hz h0
      exact ⟨.owned bs c, by rw [← h1], hm, by rw [h2]; simp⟩
    · rw [if_neg h0, if_neg (by split_ifs <;> omega)]
      refine ⟨_, rfl, ⟨by split_ifs <;> omega, ?_⟩, rfl⟩
      rw [List.length_append, List.length_take]; split_ifs <;> omega

end Verif.Packet
