import Verif.Jpip.Emitter
/-
Lemmas for the emitter: what one `append_message` call writes, and how the parser reads it back.
-/
namespace Verif.Jpip

theorem wire_fields' (h : MsgHeader) :
    h.wire.classId = h.classId ∧ h.wire.inClassId = h.inClassId ∧
    h.wire.msgOffset = h.msgOffset ∧ h.wire.msgLength = h.msgLength ∧ h.wire.isLast = h.isLast := by
  unfold MsgHeader.wire; split <;> simp

/-- One encoded message is decoded as one accepted append. -/
theorem tryDecodeOne_message (h : MsgHeader) (hr : h.InRange) (ctx : Ctx) (s : DataBinSet)
    (payload rest : List UInt8) (hl : h.msgLength = payload.length) {e : Entry}
    (he : (s.bins h.classId h.inClassId).getD {} = e) (hnl : e.isLast = false)
    (ho : h.msgOffset = e.bytes.length) :
    tryDecodeOne ((encodeHeader h ctx).1 ++ payload ++ rest) ctx s =
      (.ok ((encodeHeader h ctx).1.length + payload.length), (encodeHeader h ctx).2,
        s.set h.classId h.inClassId ⟨e.bytes ++ payload, h.isLast⟩) := by
  obtain ⟨w1, w2, w3, w4, w5⟩ := wire_fields' h
  have hrt := encodeHeader_roundtrip h hr ctx (payload ++ rest)
  obtain ⟨b, bs, hb, hb0⟩ := encodeHeader_head h hr ctx
  rw [List.append_assoc]
  generalize hsrc : (encodeHeader h ctx).1 ++ (payload ++ rest) = src at *
  have hcons : ∃ tl, src = b :: tl := ⟨bs ++ (payload ++ rest), by rw [← hsrc, hb]; rfl⟩
  obtain ⟨tl, htl⟩ := hcons
  have hlen : src.length = (encodeHeader h ctx).1.length + (payload.length + rest.length) := by
    rw [← hsrc]; simp
  have hdrop : (src.drop (encodeHeader h ctx).1.length).take payload.length = payload := by
    rw [← hsrc]; simp
  unfold tryDecodeOne
  rw [htl]
  simp only [hb0, if_false]
  rw [← htl, hrt]
  simp only [w4, hl]
  rw [if_neg (by omega), hdrop, w1, w2, w3, w5]
  have happ : s.append h.classId h.inClassId h.msgOffset payload h.isLast =
      (true, s.set h.classId h.inClassId ⟨e.bytes ++ payload, h.isLast⟩) := by
    unfold DataBinSet.append
    simp only [he]
    rw [if_neg (by simp [hnl]), if_neg (by simp [ho])]
    cases hlast : h.isLast
    · simp [hnl]
    · simp
  rw [happ]

theorem set_set (s : DataBinSet) (c i : Nat) (e e' : Entry) : (s.set c i e).set c i e' = s.set c i e' := by
  unfold DataBinSet.set
  congr 1
  funext c' i'
  simp only
  split <;> rfl

theorem set_bins_self (s : DataBinSet) (c i : Nat) (e : Entry) : (s.set c i e).bins c i = some e := by
  simp [DataBinSet.set]

theorem set_bins_ne (s : DataBinSet) (c i : Nat) (e : Entry) (c' i' : Nat) (h : ¬ (c' = c ∧ i' = i)) :
    (s.set c i e).bins c' i' = s.bins c' i' := by
  simp [DataBinSet.set, h]

theorem set_eor (s : DataBinSet) (c i : Nat) (e : Entry) : (s.set c i e).eor = s.eor := rfl

/-- The header fields the emitter leaves to its caller are in range. -/
def BinHdrOk (hdr : MsgHeader) : Prop :=
  hdr.classId < 2 ^ 8 ∧ hdr.csN < 2 ^ 16 ∧ hdr.inClassId < 2 ^ 64 ∧ hdr.aux < 2 ^ 64

structure AppendSpec (hdr : MsgHeader) (budget : Nat) (rem : List UInt8) (offset written : Nat) (ctx : Ctx)
    (r : EmitResult) : Prop where
  len_le : r.bytes.length ≤ budget - written
  sent_le : r.sent ≤ rem.length
  complete_sent : r.complete = true → r.sent = rem.length ∧ r.bytes ≠ []
  blocked_iff : r.blocked = !r.complete
  blocked_full : r.blocked = true → budget < written + r.bytes.length + 61
  empty : r.bytes = [] → r.ctx = ctx ∧ r.sent = 0
  full_complete : r.sent = rem.length → rem ≠ [] → r.complete = true
  progress : r.bytes ≠ [] → r.complete = true ∨ 0 < r.sent
  parses : ∀ (s : DataBinSet) (pre rest : List UInt8),
    (s.bins hdr.classId hdr.inClassId).getD {} = ⟨pre, false⟩ → pre.length = offset → s.eor = none →
    messageLoop (r.bytes ++ rest) ctx s = messageLoop rest r.ctx
      (if r.bytes = [] then s else s.set hdr.classId hdr.inClassId ⟨pre ++ rem.take r.sent, r.complete⟩)

theorem appendLoop_spec (hdr : MsgHeader) (hh : BinHdrOk hdr) (budget : Nat) (rem : List UInt8)
    (offset written : Nat) (ctx : Ctx) (hlen : offset + rem.length < 2 ^ 64) :
    AppendSpec hdr budget rem offset written ctx (appendLoop hdr budget rem offset written ctx) := by
  generalize hk : rem.length = k
  induction k using Nat.strongRecOn generalizing rem offset written ctx with
  | ind k ih =>
    have hav : (if budget > written then budget - written else 0) = budget - written := by
      split <;> omega
    have hk60 : kMessageHeaderMaxBytes = 60 := rfl
    have hblk : budget - written ≤ 60 → AppendSpec hdr budget rem offset written ctx ⟨[], ctx, 0, false, true⟩ := by
      intro hsmall
      refine ⟨by simp, by simp, by simp, rfl, fun _ => by simp; omega, fun _ => ⟨rfl, rfl⟩, ?_, by simp, ?_⟩
      · intro h1 h2
        simp only at h1
        exact absurd (List.length_eq_zero_iff.1 h1.symm) h2
      · intro s pre rest h1 h2 h3; simp
    rw [appendLoop]
    simp only [hav, hk60]
    by_cases h60 : budget - written ≤ 60
    · rw [if_pos h60]; exact hblk h60
    · rw [if_neg h60]
      generalize htl : min (min rem.length kMaxMessagePayload) (budget - written - 60) = thisLen
      have h987 : kMaxMessagePayload = 987 := rfl
      rw [h987] at htl
      have hb : ¬ (rem.length > 0 ∧ thisLen = 0) := by omega
      rw [dif_neg hb]
      let h : MsgHeader := ⟨hdr.classId, hdr.csN, hdr.inClassId, offset, thisLen, hdr.aux, decide (thisLen = rem.length)⟩
      have hr : h.InRange := by
        obtain ⟨a1, a2, a3, a4⟩ := hh
        exact ⟨a1, a2, a3, by show offset < _; omega, by show thisLen < _; omega, a4⟩
      have hhl := encodeHeader_length h hr ctx
      obtain ⟨b0, bs0, hbs, -⟩ := encodeHeader_head h hr ctx
      have hne : (encodeHeader h ctx).1 ≠ [] := by rw [hbs]; simp
      have htake : (rem.take thisLen).length = thisLen := by simp; omega
      have hmsg : ∀ (s : DataBinSet) (pre rest : List UInt8),
          (s.bins hdr.classId hdr.inClassId).getD {} = ⟨pre, false⟩ → pre.length = offset → s.eor = none →
          messageLoop ((encodeHeader h ctx).1 ++ rem.take thisLen ++ rest) ctx s =
          messageLoop rest (encodeHeader h ctx).2
            (s.set hdr.classId hdr.inClassId ⟨pre ++ rem.take thisLen, decide (thisLen = rem.length)⟩) := by
        intro s pre rest h1 h2 h3
        have ht := tryDecodeOne_message h hr ctx s (rem.take thisLen) rest htake.symm h1 rfl h2.symm
        rw [messageLoop_ok ht]
        have : (s.set h.classId h.inClassId ⟨pre ++ rem.take thisLen, h.isLast⟩).eor.isSome = false := by
          rw [set_eor, h3]; rfl
        simp only [this, Bool.false_eq_true, if_false]
        rw [List.append_assoc, ← List.drop_drop, List.drop_left, List.drop_left]
      by_cases hl : thisLen = rem.length
      · rw [dif_pos hl]
        refine ⟨?_, ?_, ?_, rfl, by simp, ?_, by simp, by simp, ?_⟩
        · show ((encodeHeader h ctx).1 ++ rem.take thisLen).length ≤ _
          rw [List.length_append, htake]; omega
        · simp [hl]
        · intro _; exact ⟨hl, by show (encodeHeader h ctx).1 ++ _ ≠ []; simp [hne]⟩
        · intro hx
          have : (encodeHeader h ctx).1 ++ rem.take thisLen = [] := hx
          simp [hne] at this
        · intro s pre rest h1 h2 h3
          have := hmsg s pre rest h1 h2 h3
          show messageLoop ((encodeHeader h ctx).1 ++ rem.take thisLen ++ rest) ctx s = _
          rw [this, if_neg (by show ¬ (encodeHeader h ctx).1 ++ _ = []; simp [hne])]
          show messageLoop rest (encodeHeader h ctx).2
              (s.set hdr.classId hdr.inClassId ⟨pre ++ rem.take thisLen, decide (thisLen = rem.length)⟩) =
            messageLoop rest (encodeHeader h ctx).2
              (s.set hdr.classId hdr.inClassId ⟨pre ++ rem.take thisLen, true⟩)
          rw [decide_eq_true hl]
      · rw [dif_neg hl]
        have ih' := ih (rem.drop thisLen).length (by simp; omega) (rem.drop thisLen) (offset + thisLen)
          (written + ((encodeHeader h ctx).1.length + thisLen)) (encodeHeader h ctx).2
          (by simp; omega) rfl
        generalize hres : appendLoop hdr budget (rem.drop thisLen) (offset + thisLen)
          (written + ((encodeHeader h ctx).1.length + thisLen)) (encodeHeader h ctx).2 = r at ih'
        have hgoal : AppendSpec hdr budget rem offset written ctx
            ⟨(encodeHeader h ctx).1 ++ rem.take thisLen ++ r.bytes, r.ctx, thisLen + r.sent, r.complete, r.blocked⟩ := by
          have hdl : (rem.drop thisLen).length = rem.length - thisLen := by simp
          have i1 := ih'.len_le
          have i2 := ih'.sent_le
          have i5 := ih'.blocked_full
          rw [hdl] at i2
          refine ⟨?_, ?_, ?_, ih'.blocked_iff, ?_, ?_, ?_, ?_, ?_⟩
          · simp only [List.length_append, htake]; omega
          · show thisLen + r.sent ≤ _; omega
          · intro hc
            have := (ih'.complete_sent hc).1
            refine ⟨?_, by simp [hne]⟩
            show thisLen + r.sent = _
            omega
          · intro hbk
            have := i5 hbk
            simp only [List.length_append, htake]; omega
          · intro hx; simp [hne] at hx
          · intro h1 h2
            apply ih'.full_complete
            · rw [hdl]; simp only at h1; omega
            · intro hnil
              have := congrArg List.length hnil
              rw [hdl] at this; simp at this; omega
          · intro _; right; show 0 < thisLen + r.sent; omega
          · intro s pre rest h1 h2 h3
            have hm := hmsg s pre (r.bytes ++ rest) h1 h2 h3
            show messageLoop ((encodeHeader h ctx).1 ++ rem.take thisLen ++ r.bytes ++ rest) ctx s = _
            rw [List.append_assoc ((encodeHeader h ctx).1 ++ rem.take thisLen), hm, decide_eq_false hl]
            have := ih'.parses (s.set hdr.classId hdr.inClassId ⟨pre ++ rem.take thisLen, false⟩)
              (pre ++ rem.take thisLen) rest (by rw [set_bins_self]; rfl)
              (by rw [List.length_append, htake, h2]) (by rw [set_eor]; exact h3)
            rw [this]
            have hnn : ¬ ((encodeHeader h ctx).1 ++ rem.take thisLen ++ r.bytes = []) := by simp [hne]
            show _ = messageLoop rest r.ctx
              (if (encodeHeader h ctx).1 ++ rem.take thisLen ++ r.bytes = [] then s
               else s.set hdr.classId hdr.inClassId ⟨pre ++ rem.take (thisLen + r.sent), r.complete⟩)
            rw [if_neg hnn, set_set]
            by_cases hb : r.bytes = []
            · have e := (ih'.empty hb).2
              have hnc : r.complete = false := by
                cases hc : r.complete
                · rfl
                · exact absurd hb (ih'.complete_sent hc).2
              rw [if_pos hb, e, hnc, Nat.add_zero]
            · rw [if_neg hb, List.append_assoc, List.take_add]
        exact hgoal

end Verif.Jpip
