import Verif.Jpip.EmitterLemmas
/-
What one server response does to the client's store and to the server's cache model.
-/
namespace Verif.Jpip

/-- What the client holds for a bin: the entry, or an empty incomplete one. -/
def DataBinSet.entry (s : DataBinSet) (c i : Nat) : Entry := (s.bins c i).getD {}

theorem entry_get (s : DataBinSet) (c i : Nat) : s.get c i = (s.entry c i).bytes := by
  unfold DataBinSet.get DataBinSet.entry; cases s.bins c i <;> rfl

theorem entry_complete (s : DataBinSet) (c i : Nat) : s.isComplete c i = (s.entry c i).isLast := by
  unfold DataBinSet.isComplete DataBinSet.entry; cases s.bins c i <;> rfl

theorem entry_set_self (s : DataBinSet) (c i : Nat) (e : Entry) : (s.set c i e).entry c i = e := by
  unfold DataBinSet.entry; rw [set_bins_self]; rfl

theorem entry_set_ne (s : DataBinSet) (c i : Nat) (e : Entry) (c' i' : Nat) (h : ¬ (c' = c ∧ i' = i)) :
    (s.set c i e).entry c' i' = s.entry c' i' := by
  unfold DataBinSet.entry; rw [set_bins_ne _ _ _ _ _ _ h]

theorem commit_append (m : CacheModel) (xs : List (Nat × Nat × Nat × Bool)) (c i n : Nat) (b : Bool) :
    m.commit (xs ++ [(c, i, n, b)]) =
      if b then (m.commit xs).mark c i else (m.commit xs).markPartial c i n := by
  induction xs generalizing m with
  | nil => simp [CacheModel.commit]
  | cons x xs ih =>
    obtain ⟨a1, a2, a3, a4⟩ := x
    simp only [List.cons_append, CacheModel.commit]
    exact ih _

/-- What the client must hold for a bin the server is about to (re)send. -/
def Ready (content : Nat → Nat → Option (List UInt8)) (S : DataBinSet) (M : CacheModel) (c i : Nat) : Prop :=
  M.has c i = false → ∀ payload, content c i = some payload →
    (S.entry c i).isLast = false ∧ (S.entry c i).bytes <+: payload ∧
    M.receivedBytes c i = (S.entry c i).bytes.length

/-- The effect of a response on one bin that it delivered something of. -/
structure Delivered (content : Nat → Nat → Option (List UInt8)) (S0 S1 : DataBinSet) (M0 M1 : CacheModel)
    (c i : Nat) : Prop where
  notHeld : M0.has c i = false
  effect : ∃ payload n, content c i = some payload ∧ (S0.entry c i).bytes.length ≤ n ∧ n ≤ payload.length ∧
    (S1.entry c i).bytes = payload.take n ∧
    ((S1.entry c i).isLast = true → n = payload.length) ∧
    ((S1.entry c i).isLast = true ∨ (S0.entry c i).bytes.length < n) ∧
    M1.has c i = (S1.entry c i).isLast ∧
    ((S1.entry c i).isLast = false → M1.receivedBytes c i = n)

/-- The effect of a response on one bin that it delivered nothing of. -/
def Untouched (S0 S1 : DataBinSet) (M0 M1 : CacheModel) (c i : Nat) : Prop :=
  S1.entry c i = S0.entry c i ∧ M1.has c i = M0.has c i ∧ M1.receivedBytes c i = M0.receivedBytes c i

/-- Loop invariant of `emitBins`, for the bins `done` already considered. -/
structure RespInv (content : Nat → Nat → Option (List UInt8)) (S0 : DataBinSet) (M : CacheModel)
    (maxBytes : Nat) (done : List (Nat × Nat)) (st : RespState) (S1 : DataBinSet) : Prop where
  parses : ∀ rest, messageLoop (st.body ++ rest) {} S0 = messageLoop rest st.ctx S1
  eor : S1.eor = none
  fits : st.body.length ≤ maxBytes
  bins : ∀ c i, KeyOk c i → Untouched S0 S1 M (M.commit st.sentBins) c i ∨
    ((c, i) ∈ done ∧ Delivered content S0 S1 M (M.commit st.sentBins) c i)
  finished : st.truncated = false → ∀ k ∈ done, M.has k.1 k.2 = true ∨ content k.1 k.2 = none ∨
    (S1.entry k.1 k.2).isLast = true
  progress : st.body ≠ [] → ∃ k ∈ done, Delivered content S0 S1 M (M.commit st.sentBins) k.1 k.2
  blocked : st.truncated = true → maxBytes < st.body.length + 61

theorem emitBins_spec (content : Nat → Nat → Option (List UInt8)) (S0 : DataBinSet) (M : CacheModel)
    (maxBytes : Nat) (hlen : ∀ c i p, content c i = some p → p.length < 2 ^ 64)
    (keys : List (Nat × Nat)) (hk : ∀ k ∈ keys, KeyOk k.1 k.2 ∧ Ready content S0 M k.1 k.2)
    (done : List (Nat × Nat)) (hd : ∀ k ∈ done, KeyOk k.1 k.2)
    (hnd : (done ++ keys).Nodup) (st : RespState) (S1 : DataBinSet) (ht : st.truncated = false)
    (hI : RespInv content S0 M maxBytes done st S1) :
    ∃ S2, RespInv content S0 M maxBytes (done ++ keys) (emitBins content M maxBytes keys st) S2 := by
  induction keys generalizing done st S1 with
  | nil => exact ⟨S1, by simpa [emitBins] using hI⟩
  | cons k keys ih =>
    obtain ⟨c, i⟩ := k
    obtain ⟨hko, hrd⟩ := hk (c, i) (by simp)
    have hk' : ∀ k ∈ keys, KeyOk k.1 k.2 ∧ Ready content S0 M k.1 k.2 := fun k h => hk k (by simp [h])
    have hnd' : (done ++ [(c, i)] ++ keys).Nodup := by simpa using hnd
    have hd' : ∀ k ∈ done ++ [(c, i)], KeyOk k.1 k.2 := by
      intro k h
      simp only [List.mem_append, List.mem_singleton] at h
      rcases h with h | rfl
      · exact hd k h
      · exact hko
    have hnot : (c, i) ∉ done := by
      intro h
      rw [List.nodup_append] at hnd
      exact hnd.2.2 _ h _ (by simp) rfl
    -- a step that changes nothing
    have hskip : (M.has c i = true ∨ content c i = none) →
        RespInv content S0 M maxBytes (done ++ [(c, i)]) st S1 := by
      intro hs
      refine ⟨hI.parses, hI.eor, hI.fits, ?_, ?_, ?_, hI.blocked⟩
      · intro c' i' hk
        rcases hI.bins c' i' hk with h | ⟨h1, h2⟩
        · exact Or.inl h
        · exact Or.inr ⟨by simp [h1], h2⟩
      · intro h k hkk
        simp only [List.mem_append, List.mem_singleton] at hkk
        rcases hkk with hkk | rfl
        · exact hI.finished h k hkk
        · rcases hs with hs | hs
          · exact Or.inl hs
          · exact Or.inr (Or.inl hs)
      · intro h
        obtain ⟨k, h1, h2⟩ := hI.progress h
        exact ⟨k, by simp [h1], h2⟩
    rw [show done ++ (c, i) :: keys = done ++ [(c, i)] ++ keys by simp]
    by_cases hhas : M.has c i = true
    · have : emitBin content M maxBytes st c i = (st, true) := by simp [emitBin, hhas]
      rw [emitBins, this]
      exact ih hk' (done ++ [(c, i)]) hd' hnd' st S1 ht (hskip (Or.inl hhas))
    · have hhas : M.has c i = false := by simpa using hhas
      cases hc : content c i with
      | none =>
        have : emitBin content M maxBytes st c i = (st, true) := by simp [emitBin, hhas, hc]
        rw [emitBins, this]
        exact ih hk' (done ++ [(c, i)]) hd' hnd' st S1 ht (hskip (Or.inr hc))
      | some payload =>
        have hrd' : Ready content S0 M c i := hrd
        obtain ⟨hr1, hr2, hr3⟩ := hrd' hhas payload hc
        have hpl := hlen c i payload hc
        have hle := hr2.length_le
        have hbud : (if maxBytes > st.body.length then maxBytes - st.body.length else 0) =
            maxBytes - st.body.length := by split <;> omega
        -- the bin is untouched so far
        have hun : Untouched S0 S1 M (M.commit st.sentBins) c i := by
          rcases hI.bins c i hko with h | ⟨h1, -⟩
          · exact h
          · exact absurd h1 hnot
        generalize hres : appendMessage { classId := c, csN := 0, inClassId := i } payload st.ctx
          (M.receivedBytes c i) (maxBytes - st.body.length) = r
        have hspec : AppendSpec { classId := c, csN := 0, inClassId := i } (maxBytes - st.body.length)
            (payload.drop (M.receivedBytes c i)) (M.receivedBytes c i) 0 st.ctx r := by
          rw [← hres]
          unfold appendMessage
          have : min (M.receivedBytes c i) payload.length = M.receivedBytes c i := by omega
          simp only [this]
          apply appendLoop_spec
          · refine ⟨hko.1, ?_, ?_, ?_⟩
            · show 0 < _; omega
            · show i < _; have := hko.2; omega
            · show 0 < _; omega
          · simp; omega
        have hemit : emitBin content M maxBytes st c i =
            (let st1 : RespState := if r.bytes.isEmpty then st
              else { st with ctx := r.ctx, body := st.body ++ r.bytes,
                             sentBins := st.sentBins ++ [(c, i, M.receivedBytes c i + r.sent, r.complete)] }
             if r.blocked then ({ st1 with truncated := true }, false) else (st1, true)) := by
          unfold emitBin
          simp only [hhas, Bool.false_eq_true, if_false, hc, hbud, hres]
        have hpar := hspec.parses S1 (S1.entry c i).bytes
        have hent : (S1.bins c i).getD {} = ⟨(S1.entry c i).bytes, false⟩ := by
          show S1.entry c i = _
          rw [hun.1]
          generalize S0.entry c i = e at hr1
          obtain ⟨b, l⟩ := e
          simp only at hr1
          rw [hr1]
        have hsl : (S1.entry c i).bytes.length = M.receivedBytes c i := by rw [hun.1, hr3]
        have hdl : (payload.drop (M.receivedBytes c i)).length = payload.length - M.receivedBytes c i := by simp
        have hs1 := hspec.sent_le
        rw [hdl] at hs1
        have hfit := hI.fits
        by_cases hb : r.bytes = []
        · -- nothing fitted
          have hnc : r.complete = false := by
            cases hcc : r.complete
            · rfl
            · exact absurd hb (hspec.complete_sent hcc).2
          have hbk : r.blocked = true := by rw [hspec.blocked_iff, hnc]; rfl
          have hE : emitBin content M maxBytes st c i = ({ st with truncated := true }, false) := by
            rw [hemit]; simp [hb, hbk]
          rw [emitBins, hE]
          refine ⟨S1, hI.parses, hI.eor, hI.fits, ?_, by simp, ?_, ?_⟩
          · intro c' i' hk
            rcases hI.bins c' i' hk with h | ⟨h1, h2⟩
            · exact Or.inl h
            · exact Or.inr ⟨by simp [h1], h2⟩
          · intro h
            obtain ⟨k, h1, h2⟩ := hI.progress h
            exact ⟨k, by simp only [List.mem_append]; tauto, h2⟩
          · intro _
            have := hspec.blocked_full hbk
            rw [hb] at this
            simp only [List.length_nil] at this
            show maxBytes < st.body.length + 61
            omega
        · -- something was written
          have hcom : M.commit (st.sentBins ++ [(c, i, M.receivedBytes c i + r.sent, r.complete)]) =
              if r.complete then (M.commit st.sentBins).mark c i
              else (M.commit st.sentBins).markPartial c i (M.receivedBytes c i + r.sent) := commit_append _ _ _ _ _ _
          generalize hM1 : M.commit (st.sentBins ++ [(c, i, M.receivedBytes c i + r.sent, r.complete)]) = M1 at hcom
          generalize hS2 : S1.set c i ⟨(S1.entry c i).bytes ++ (payload.drop (M.receivedBytes c i)).take r.sent,
            r.complete⟩ = S2
          have hother : ∀ c' i', KeyOk c' i' → ¬ (c' = c ∧ i' = i) →
              S2.entry c' i' = S1.entry c' i' ∧ M1.has c' i' = (M.commit st.sentBins).has c' i' ∧
              M1.receivedBytes c' i' = (M.commit st.sentBins).receivedBytes c' i' := by
            intro c' i' hk hne
            have hne' : ¬ (c = c' ∧ i = i') := fun h => hne ⟨h.1.symm, h.2.symm⟩
            refine ⟨by rw [← hS2, entry_set_ne _ _ _ _ _ _ hne], ?_⟩
            rw [hcom]
            split
            · have := mark_obs (M.commit st.sentBins) hko hk
              rw [this.1, this.2, decide_eq_false hne']; simp
            · have := markPartial_obs (M.commit st.sentBins) (M.receivedBytes c i + r.sent) hko hk
              rw [this.1, this.2, if_neg (fun h => hne' ⟨h.1, h.2.1⟩)]
              exact ⟨rfl, rfl⟩
          have hpre : (S0.entry c i).bytes = payload.take (M.receivedBytes c i) := by
            rw [hr3]; exact (List.prefix_iff_eq_take.1 hr2)
          have hself : Delivered content S0 S2 M M1 c i := by
            have he : S2.entry c i = ⟨payload.take (M.receivedBytes c i + r.sent), r.complete⟩ := by
              rw [← hS2, entry_set_self, hun.1, hpre, List.take_add]
            refine ⟨hhas, payload, M.receivedBytes c i + r.sent, hc, by omega, by omega, by rw [he], ?_, ?_, ?_, ?_⟩
            · rw [he]; intro h
              have := (hspec.complete_sent h).1
              rw [hdl] at this
              omega
            · rw [he]
              rcases hspec.progress hb with h | h
              · exact Or.inl h
              · right; omega
            · rw [he, hcom]
              cases hcc : r.complete
              · simp only [Bool.false_eq_true, if_false]
                rw [(markPartial_obs (M.commit st.sentBins) _ hko hko).1, hun.2.1, hhas]
              · simp only [if_true]
                rw [(mark_obs (M.commit st.sentBins) hko hko).1]; simp
            · rw [he, hcom]
              intro hcc
              simp only at hcc
              simp only [hcc, Bool.false_eq_true, if_false]
              rw [(markPartial_obs (M.commit st.sentBins) _ hko hko).2, if_pos ⟨rfl, rfl, by rw [hun.2.1, hhas]⟩,
                hun.2.2]
              omega
          have hinv : ∀ (tr : Bool), (tr = r.blocked) → RespInv content S0 M maxBytes (done ++ [(c, i)])
              { st with ctx := r.ctx, body := st.body ++ r.bytes,
                        sentBins := st.sentBins ++ [(c, i, M.receivedBytes c i + r.sent, r.complete)],
                        truncated := tr } S2 := by
            intro tr htr
            have hll := hspec.len_le
            refine ⟨?_, by rw [← hS2, set_eor]; exact hI.eor, ?_, ?_, ?_, ?_, ?_⟩
            · intro rest
              simp only
              rw [List.append_assoc, hI.parses, hpar rest hent hsl hI.eor, if_neg hb, ← hS2]
            · show (st.body ++ r.bytes).length ≤ _
              rw [List.length_append]; omega
            · intro c' i' hk
              simp only [hM1]
              by_cases hne : c' = c ∧ i' = i
              · obtain ⟨rfl, rfl⟩ := hne
                exact Or.inr ⟨by simp, hself⟩
              · obtain ⟨o1, o2, o3⟩ := hother c' i' hk hne
                rcases hI.bins c' i' hk with h | ⟨h1, h2⟩
                · exact Or.inl ⟨o1.trans h.1, o2.trans h.2.1, o3.trans h.2.2⟩
                · refine Or.inr ⟨by simp [h1], h2.notHeld, ?_⟩
                  rw [o1, o2, o3]
                  exact h2.effect
            · intro hf k hkk
              simp only at hf
              simp only [List.mem_append, List.mem_singleton] at hkk
              rcases hkk with hkk | rfl
              · have := hI.finished ht k hkk
                rwa [(hother k.1 k.2 (hd k hkk) (fun h => hnot (by rw [← h.1, ← h.2]; exact hkk))).1]
              · right; right
                have : r.complete = true := by
                  rw [htr, hspec.blocked_iff] at hf; simpa using hf
                rw [← hS2, entry_set_self]
                exact this
            · intro _
              simp only [hM1]
              exact ⟨(c, i), by simp, hself⟩
            · intro htt
              simp only at htt
              have := hspec.blocked_full (by rw [← htr]; exact htt)
              show maxBytes < (st.body ++ r.bytes).length + 61
              rw [List.length_append]; omega
          have hbe : r.bytes.isEmpty = false := by simp [hb]
          by_cases hbk : r.blocked = true
          · have hE : emitBin content M maxBytes st c i =
              ({ ctx := r.ctx, body := st.body ++ r.bytes,
                 sentBins := st.sentBins ++ [(c, i, M.receivedBytes c i + r.sent, r.complete)],
                 truncated := true }, false) := by
              rw [hemit]; simp only [hbe, hbk, Bool.false_eq_true, if_false, if_true]
            rw [emitBins, hE]
            have h := hinv true hbk.symm
            refine ⟨S2, h.parses, h.eor, h.fits, ?_, by simp, ?_, h.blocked⟩
            · intro c' i' hk
              rcases h.bins c' i' hk with h | ⟨h1, h2⟩
              · exact Or.inl h
              · exact Or.inr ⟨by simp only [List.mem_append] at h1 ⊢; tauto, h2⟩
            · intro hx
              obtain ⟨k, h1, h2⟩ := h.progress hx
              exact ⟨k, by simp only [List.mem_append] at h1 ⊢; tauto, h2⟩
          · have hbk : r.blocked = false := by simpa using hbk
            have hE : emitBin content M maxBytes st c i =
              ({ ctx := r.ctx, body := st.body ++ r.bytes,
                 sentBins := st.sentBins ++ [(c, i, M.receivedBytes c i + r.sent, r.complete)],
                 truncated := false }, true) := by
              rw [hemit]; simp only [hbe, hbk, Bool.false_eq_true, if_false, ht]
            rw [emitBins, hE]
            exact ih hk' (done ++ [(c, i)]) hd' hnd' _ S2 rfl (hinv false hbk.symm)

/-- Parsing the end-of-response message. -/
theorem messageLoop_eor (reason : Nat) (hr : reason < 256) (ctx : Ctx) (s : DataBinSet) (rest : List UInt8) :
    messageLoop (emitEor reason ++ rest) ctx s = ⟨some false, ctx, s.setEor reason, rest⟩ := by
  have ht : tryDecodeOne (emitEor reason ++ rest) ctx s = (.ok 3, ctx, s.setEor reason) := by
    have hv : vbasDecode (0 :: rest) = some (0, 1) := by
      simp [vbasDecode, vbasDecodeLoop, kVbasMaxBytes]
    unfold emitEor tryDecodeOne
    simp only [List.cons_append, List.nil_append, if_true, List.length_cons]
    rw [if_neg (by omega)]
    simp only [List.drop_succ_cons, List.drop_zero, hv]
    rw [if_neg (by omega)]
    simp [List.getD_cons_succ, Nat.mod_eq_of_lt hr]
  rw [messageLoop_ok ht, if_pos (by rfl)]
  simp [emitEor]

end Verif.Jpip
