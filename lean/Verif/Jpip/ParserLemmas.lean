import Verif.Jpip.Parser
/-
Lemmas about the JPP-stream parsers: stability under appending bytes, split independence.
-/
namespace Verif.Jpip

theorem decodeHeader_some {src : List UInt8} {ctx ctx' : Ctx} {h : MsgHeader} {n : Nat}
    (hd : decodeHeader src ctx = (some (h, n), ctx')) :
    HeaderDecodes src ctx h n ∧ ctx' = { lastClass := h.classId, lastCs := h.csN } := by
  unfold decodeHeader at hd
  split at hd
  · simp at hd
  · rename_i h' pos hf
    simp only [Prod.mk.injEq, Option.some.injEq] at hd
    obtain ⟨⟨rfl, rfl⟩, rfl⟩ := hd
    exact ⟨(decodeHeaderFields_iff _ _ _ _).1 hf, rfl⟩

theorem decodeHeader_none {src : List UInt8} {ctx ctx' : Ctx}
    (hd : decodeHeader src ctx = (none, ctx')) :
    ctx' = ctx ∧ ∀ h n, ¬ HeaderDecodes src ctx h n := by
  unfold decodeHeader at hd
  split at hd
  · rename_i hf
    simp at hd
    exact ⟨hd.symm, fun h n hh => by rw [(decodeHeaderFields_iff _ _ _ _).2 hh] at hf; cases hf⟩
  · simp at hd

theorem decodeHeader_of {src : List UInt8} {ctx : Ctx} {h : MsgHeader} {n : Nat}
    (hd : HeaderDecodes src ctx h n) :
    decodeHeader src ctx = (some (h, n), { lastClass := h.classId, lastCs := h.csN }) := by
  unfold decodeHeader
  rw [(decodeHeaderFields_iff _ _ _ _).2 hd]

theorem decodeHeader_of_none {src : List UInt8} {ctx : Ctx}
    (hd : ∀ h n, ¬ HeaderDecodes src ctx h n) : decodeHeader src ctx = (none, ctx) := by
  unfold decodeHeader
  split
  · rfl
  · rename_i h n hf
    exact absurd ((decodeHeaderFields_iff _ _ _ _).1 hf) (hd h n)

theorem decodeHeader_append {src : List UInt8} {ctx ctx' : Ctx} {h : MsgHeader} {n : Nat}
    (hd : decodeHeader src ctx = (some (h, n), ctx')) (more : List UInt8) :
    decodeHeader (src ++ more) ctx = (some (h, n), ctx') := by
  obtain ⟨hh, rfl⟩ := decodeHeader_some hd
  have hb := hh.bounds
  exact decodeHeader_of (hb.2.2.2.2.2.2.2.2.2 _ (by rw [List.take_append_of_le_length (by omega)]))

theorem decodeHeader_none_append {src : List UInt8} {ctx ctx' : Ctx}
    (hd : decodeHeader src ctx = (none, ctx')) (hl : 60 ≤ src.length) (more : List UInt8) :
    decodeHeader (src ++ more) ctx = (none, ctx') := by
  obtain ⟨rfl, hn⟩ := decodeHeader_none hd
  apply decodeHeader_of_none
  intro h n hh
  have hb := hh.bounds
  refine hn h n (hb.2.2.2.2.2.2.2.2.2 _ ?_)
  rw [List.take_append_of_le_length (by omega)]

/-- A decoded message stays decoded when more bytes follow. -/
theorem tryDecodeOne_ok_append {src : List UInt8} {ctx ctx' : Ctx} {out out' : DataBinSet} {n : Nat}
    (h : tryDecodeOne src ctx out = (.ok n, ctx', out')) (more : List UInt8) :
    tryDecodeOne (src ++ more) ctx out = (.ok n, ctx', out') := by
  have hpos := tryDecodeOne_pos h
  unfold tryDecodeOne at h
  split at h
  · simp at h
  · rename_i b0 tl
    split at h
    · rename_i hb0
      split at h
      · simp at h
      · rename_i h2
        simp only at h
        split at h
        · split at h <;> simp at h
        · rename_i bl adv hv
          split at h
          · simp at h
          · rename_i hbl
            have hb := vbasDecode_bounds hv
            have hdrop : (b0 :: tl ++ more).drop 2 = (b0 :: tl).drop 2 ++ more := by
              rw [List.drop_append_of_le_length (by omega)]
            have hv' := vbasDecode_append hv more
            rw [← hdrop] at hv'
            have hget : (b0 :: tl ++ more).getD 1 0 = (b0 :: tl).getD 1 0 := by
              simp only [List.getD_eq_getElem?_getD]
              rw [List.getElem?_append_left (by omega)]
            rw [List.cons_append] at *
            unfold tryDecodeOne
            simp only
            rw [if_pos hb0, if_neg (by simp at h2 ⊢; omega), hv']
            simp only
            rw [if_neg (by simp at hbl ⊢; omega), hget]
            exact h
    · rename_i hb0
      split at h
      · split at h <;> simp at h
      · rename_i hdr hb ctx'' hd
        split at h
        · simp at h
        · rename_i hml
          have hd' := decodeHeader_append hd more
          have hbd := (decodeHeader_some hd).1.bounds
          have htk : ((b0 :: tl ++ more).drop hb).take hdr.msgLength = ((b0 :: tl).drop hb).take hdr.msgLength := by
            rw [List.drop_append_of_le_length (by omega), List.take_append_of_le_length (by simp at hml ⊢; omega)]
          rw [List.cons_append] at *
          unfold tryDecodeOne
          simp only
          rw [if_neg hb0, hd']
          simp only
          rw [if_neg (by simp at hml ⊢; omega), htk]
          exact h

theorem tryDecodeOne_malformed_append {src : List UInt8} {ctx ctx' : Ctx} {out out' : DataBinSet}
    (h : tryDecodeOne src ctx out = (.malformed, ctx', out')) (more : List UInt8) :
    tryDecodeOne (src ++ more) ctx out = (.malformed, ctx', out') := by
  unfold tryDecodeOne at h
  split at h
  · simp at h
  · rename_i b0 tl
    split at h
    · rename_i hb0
      split at h
      · simp at h
      · rename_i h2
        simp only at h
        split at h
        · rename_i hv
          split at h
          · simp at h
          · rename_i hlen
            have hdrop : (b0 :: tl ++ more).drop 2 = (b0 :: tl).drop 2 ++ more := by
              rw [List.drop_append_of_le_length (by omega)]
            have hv' := vbasDecode_none_append hv (by simp [kVbasMaxBytes] at hlen ⊢; omega) more
            rw [← hdrop] at hv'
            rw [List.cons_append] at *
            unfold tryDecodeOne
            simp only
            rw [if_pos hb0, if_neg (by simp at h2 ⊢; omega), hv']
            simp only
            rw [if_neg (by simp [kVbasMaxBytes] at hlen ⊢; omega)]
            exact h
        · split at h <;> simp at h
    · rename_i hb0
      split at h
      · rename_i ctx'' hd
        split at h
        · simp at h
        · rename_i hlen
          have hd' := decodeHeader_none_append hd (by simpa [kMessageHeaderMaxBytes, kVbasMaxBytes] using hlen) more
          rw [List.cons_append] at *
          unfold tryDecodeOne
          simp only
          rw [if_neg hb0, hd']
          simp only
          rw [if_neg (by simp at hlen ⊢; omega)]
          exact h
      · rename_i hdr hb ctx'' hd
        split at h
        · simp at h
        · rename_i hml
          have hd' := decodeHeader_append hd more
          have hbd := (decodeHeader_some hd).1.bounds
          have htk : ((b0 :: tl ++ more).drop hb).take hdr.msgLength = ((b0 :: tl).drop hb).take hdr.msgLength := by
            rw [List.drop_append_of_le_length (by omega), List.take_append_of_le_length (by simp at hml ⊢; omega)]
          rw [List.cons_append] at *
          unfold tryDecodeOne
          simp only
          rw [if_neg hb0, hd']
          simp only
          rw [if_neg (by simp at hml ⊢; omega), htk]
          exact h

theorem tryDecodeOne_needMore {src : List UInt8} {ctx ctx' : Ctx} {out out' : DataBinSet}
    (h : tryDecodeOne src ctx out = (.needMore, ctx', out')) : ctx' = ctx ∧ out' = out := by
  unfold tryDecodeOne at h
  split at h
  · simp at h; exact ⟨h.1.symm, h.2.symm⟩
  · split at h
    · split at h
      · simp at h; exact ⟨h.1.symm, h.2.symm⟩
      · simp only at h
        split at h
        · simp at h; exact ⟨h.2.1.symm, h.2.2.symm⟩
        · split at h
          · simp at h; exact ⟨h.1.symm, h.2.symm⟩
          · simp at h
    · split at h
      · rename_i hd
        have := (decodeHeader_none hd).1
        split at h
        · simp at h; exact ⟨by rw [← h.1, this], h.2.symm⟩
        · simp at h
      · split at h
        · simp at h; exact ⟨h.1.symm, h.2.symm⟩
        · split at h <;> simp at h

theorem messageLoop_nil (ctx : Ctx) (out : DataBinSet) : messageLoop [] ctx out = ⟨some false, ctx, out, []⟩ := by
  rw [messageLoop]; simp

theorem messageLoop_malformed {src : List UInt8} {ctx ctx' : Ctx} {out out' : DataBinSet}
    (h : tryDecodeOne src ctx out = (.malformed, ctx', out')) :
    messageLoop src ctx out = ⟨none, ctx', out', src⟩ := by
  have hne : src.isEmpty = false := by
    cases src
    · simp [tryDecodeOne] at h
    · rfl
  rw [messageLoop]
  simp only [hne, Bool.false_eq_true, if_false]
  split <;> simp_all

theorem messageLoop_needMore {src : List UInt8} {ctx ctx' : Ctx} {out out' : DataBinSet} (hne : src ≠ [])
    (h : tryDecodeOne src ctx out = (.needMore, ctx', out')) :
    messageLoop src ctx out = ⟨some true, ctx', out', src⟩ := by
  have hne : src.isEmpty = false := by
    cases src
    · simp at hne
    · rfl
  rw [messageLoop]
  simp only [hne, Bool.false_eq_true, if_false]
  split <;> simp_all

theorem messageLoop_ok {src : List UInt8} {ctx ctx' : Ctx} {out out' : DataBinSet} {n : Nat}
    (h : tryDecodeOne src ctx out = (.ok n, ctx', out')) :
    messageLoop src ctx out =
      if out'.eor.isSome then ⟨some false, ctx', out', src.drop n⟩ else messageLoop (src.drop n) ctx' out' := by
  have hne : src.isEmpty = false := by
    cases src
    · simp [tryDecodeOne] at h
    · rfl
  rw [messageLoop]
  simp only [hne, Bool.false_eq_true, if_false]
  split <;> simp_all

/-- Continuation lemma: running the loop on `a ++ b` is running it on `a` and then on what was left
over plus `b`. -/
theorem messageLoop_append (a b : List UInt8) (ctx : Ctx) (out : DataBinSet) (he : out.eor = none) :
    messageLoop (a ++ b) ctx out =
      match messageLoop a ctx out with
      | ⟨none, ctx', out', rest⟩ => ⟨none, ctx', out', rest ++ b⟩
      | ⟨some v, ctx', out', rest⟩ =>
        if out'.eor.isSome then ⟨some false, ctx', out', rest ++ b⟩
        else
          let _ := v
          messageLoop (rest ++ b) ctx' out' := by
  generalize hk : a.length = k
  induction k using Nat.strongRecOn generalizing a ctx out with
  | ind k ih =>
    by_cases ha : a = []
    · subst ha; rw [messageLoop_nil]; simp [he]
    · rcases hd : tryDecodeOne a ctx out with ⟨d, ctx', out'⟩
      cases d with
      | malformed =>
        rw [messageLoop_malformed hd, messageLoop_malformed (tryDecodeOne_malformed_append hd b)]
      | needMore =>
        obtain ⟨rfl, rfl⟩ := tryDecodeOne_needMore hd
        rw [messageLoop_needMore ha hd]
        simp [he]
      | ok n =>
        have hp := tryDecodeOne_pos hd
        rw [messageLoop_ok hd, messageLoop_ok (tryDecodeOne_ok_append hd b),
          List.drop_append_of_le_length hp.2]
        by_cases hx : out'.eor.isSome
        · simp [hx]
        · rw [if_neg hx, if_neg hx]
          exact ih (a.drop n).length (by simp; omega) (a.drop n) ctx' out' (by simpa using hx) rfl

/-- `some true` results leave a non-empty tail that needs more bytes. -/
theorem messageLoop_rest (a : List UInt8) (ctx : Ctx) (out : DataBinSet) :
    (messageLoop a ctx out).verdict = some false → (messageLoop a ctx out).out.eor = none →
      (messageLoop a ctx out).rest = [] := by
  generalize hk : a.length = k
  induction k using Nat.strongRecOn generalizing a ctx out with
  | ind k ih =>
    by_cases ha : a = []
    · subst ha; rw [messageLoop_nil]; simp
    · rcases hd : tryDecodeOne a ctx out with ⟨d, ctx', out'⟩
      cases d with
      | malformed => rw [messageLoop_malformed hd]; simp
      | needMore => rw [messageLoop_needMore ha hd]; simp
      | ok n =>
        have hp := tryDecodeOne_pos hd
        rw [messageLoop_ok hd]
        by_cases hx : out'.eor.isSome
        · rw [if_pos hx]; intro _ h; simp at h; rw [h] at hx; cases hx
        · rw [if_neg hx]
          exact ih (a.drop n).length (by simp; omega) (a.drop n) ctx' out' rfl

theorem messageLoop_true_rest (a : List UInt8) (ctx : Ctx) (out : DataBinSet) :
    (messageLoop a ctx out).verdict = some true →
      (messageLoop a ctx out).rest ≠ [] ∧
      tryDecodeOne (messageLoop a ctx out).rest (messageLoop a ctx out).ctx (messageLoop a ctx out).out
        = (.needMore, (messageLoop a ctx out).ctx, (messageLoop a ctx out).out) := by
  generalize hk : a.length = k
  induction k using Nat.strongRecOn generalizing a ctx out with
  | ind k ih =>
    by_cases ha : a = []
    · subst ha; rw [messageLoop_nil]; simp
    · rcases hd : tryDecodeOne a ctx out with ⟨d, ctx', out'⟩
      cases d with
      | malformed => rw [messageLoop_malformed hd]; simp
      | needMore =>
        rw [messageLoop_needMore ha hd]
        obtain ⟨rfl, rfl⟩ := tryDecodeOne_needMore hd
        exact fun _ => ⟨ha, hd⟩
      | ok n =>
        have hp := tryDecodeOne_pos hd
        rw [messageLoop_ok hd]
        by_cases hx : out'.eor.isSome
        · rw [if_pos hx]; intro h; simp at h
        · rw [if_neg hx]
          exact ih (a.drop n).length (by simp; omega) (a.drop n) ctx' out' rfl

/-- What a receive loop exposes to its user: verdict, context and bins; and the number of buffered bytes
unless the response has ended. -/
theorem receive_split (st : Streaming) (out : DataBinSet) (cs : List (List UInt8)) :
    (receive st out cs).1 = (receive st out [cs.flatten]).1 ∧
    (receive st out cs).2.2 = (receive st out [cs.flatten]).2.2 ∧
    (receive st out cs).2.1.ctx = (receive st out [cs.flatten]).2.1.ctx ∧
    ((receive st out cs).2.2.eor = none →
      (receive st out cs).2.1.pending = (receive st out [cs.flatten]).2.1.pending) := by
  induction cs generalizing st out with
  | nil =>
    by_cases he : out.eor.isSome
    · simp [receive, he]
    · simp [receive, he, Streaming.feed]
  | cons c cs ih =>
    by_cases he : out.eor.isSome
    · simp [receive, he]
    · have he' : out.eor = none := by simpa using he
      by_cases hc : c = []
      · subst hc
        have : receive st out ([] :: cs) = receive st out cs := by
          rw [receive]; rw [if_neg he]; simp [Streaming.feed]
        rw [this]
        simpa using ih st out
      · have hcl : c.length ≠ 0 := by simpa using hc
        have happ := messageLoop_append (st.pending ++ c) cs.flatten st.ctx out he'
        rw [receive, if_neg he]
        have hfl : ((c :: cs).flatten).length ≠ 0 := by simp; intro h; simp [h] at hc
        have hone : ∀ s o (x : List UInt8), o.eor.isSome = false → receive s o [x] = s.feed x o := by
          intro s o x ho
          rw [receive, if_neg (by simp [ho])]
          rcases hfe : s.feed x o with ⟨v, s', o'⟩
          cases v <;> simp [receive]
        rw [hone st out _ (by simp [he'])]
        have hF : st.feed (c :: cs).flatten out =
            (match (messageLoop (st.pending ++ c ++ cs.flatten) st.ctx out).verdict with
            | none => (false, { pending := [], ctx := (messageLoop (st.pending ++ c ++ cs.flatten) st.ctx out).ctx }, (messageLoop (st.pending ++ c ++ cs.flatten) st.ctx out).out)
            | some _ => (true, { pending := (messageLoop (st.pending ++ c ++ cs.flatten) st.ctx out).rest, ctx := (messageLoop (st.pending ++ c ++ cs.flatten) st.ctx out).ctx }, (messageLoop (st.pending ++ c ++ cs.flatten) st.ctx out).out)) := by
          unfold Streaming.feed
          rw [if_neg hfl]
          simp only [List.flatten_cons, List.append_assoc]
          generalize messageLoop (st.pending ++ (c ++ cs.flatten)) st.ctx out = r
          obtain ⟨v, r1, r2, r3⟩ := r
          cases v <;> rfl
        rw [hF, happ]
        unfold Streaming.feed
        rw [if_neg hcl]
        simp only
        rcases hL : messageLoop (st.pending ++ c) st.ctx out with ⟨v, ctx', out', rest⟩
        cases v with
        | none => simp
        | some v =>
          simp only
          by_cases hx : out'.eor.isSome
          · have : receive { pending := rest, ctx := ctx' } out' cs = (true, { pending := rest, ctx := ctx' }, out') := by
              cases cs <;> simp [receive, hx]
            rw [this]
            rw [if_pos hx]
            simp
            intro h; simp [h] at hx
          · rw [if_neg hx]
            have hx' : out'.eor = none := by simpa using hx
            have := ih { pending := rest, ctx := ctx' } out'
            rw [hone _ _ _ (by simp [hx'])] at this
            by_cases hz : cs.flatten.length = 0
            · have hz' : cs.flatten = [] := List.length_eq_zero_iff.1 hz
              rw [hz'] at this ⊢
              unfold Streaming.feed at this
              simp only [List.length_nil, if_true] at this
              rw [List.append_nil]
              cases v with
              | false =>
                have hr : rest = [] := by
                  have := messageLoop_rest (st.pending ++ c) st.ctx out
                  rw [hL] at this
                  exact this rfl hx'
                subst hr
                rw [messageLoop_nil]
                exact this
              | true =>
                have := messageLoop_true_rest (st.pending ++ c) st.ctx out
                rw [hL] at this
                obtain ⟨h1, h2⟩ := this rfl
                rw [messageLoop_needMore h1 h2]
                assumption
            · unfold Streaming.feed at this
              rw [if_neg hz] at this
              exact this

/-- A loop that stopped for lack of bytes has not seen an end-of-response. -/
theorem messageLoop_true_noeor (a : List UInt8) (ctx : Ctx) (out : DataBinSet) (he : out.eor = none) :
    (messageLoop a ctx out).verdict = some true → (messageLoop a ctx out).out.eor = none := by
  generalize hk : a.length = k
  induction k using Nat.strongRecOn generalizing a ctx out with
  | ind k ih =>
    by_cases ha : a = []
    · subst ha; rw [messageLoop_nil]; simp
    · rcases hd : tryDecodeOne a ctx out with ⟨d, ctx', out'⟩
      cases d with
      | malformed => rw [messageLoop_malformed hd]; simp
      | needMore =>
        rw [messageLoop_needMore ha hd]
        obtain ⟨-, rfl⟩ := tryDecodeOne_needMore hd
        exact fun _ => he
      | ok n =>
        rw [messageLoop_ok hd]
        have hp := tryDecodeOne_pos hd
        split
        · simp
        · rename_i h
          exact ih (a.drop n).length (by simp; omega) _ _ _ (by simpa using h) rfl

end Verif.Jpip
