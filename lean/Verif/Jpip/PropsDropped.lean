import Verif.Jpip.Dropped
import Verif.Jpip.PropsSession

/-!
# C86: a dropped connection

The specification is that of C08: `InSync img client server` (the server's model of the channel agrees with what the client holds, and that is a part of the image).
-/

namespace Verif.Jpip

/-! ### Lemmas -/

theorem has_mark_mono {m : CacheModel} {c i c' i' : Nat} (h : m.has c i = true) : (m.mark c' i').has c i = true := by
  unfold CacheModel.has at h ⊢
  unfold CacheModel.mark CacheModel.put
  simp only
  by_cases e : cacheKey c i = cacheKey c' i'
  · rw [if_pos e]
  · rw [if_neg e]
    exact h

theorem has_markPartial_mono {m : CacheModel} {c i c' i' b : Nat} (h : m.has c i = true) : (m.markPartial c' i' b).has c i = true := by
  unfold CacheModel.has at h ⊢
  unfold CacheModel.markPartial CacheModel.put
  simp only
  by_cases e : cacheKey c i = cacheKey c' i'
  · rw [e] at h ⊢
    cases hb : m.bins (cacheKey c' i') with
    | none => rw [hb] at h; simp at h
    | some x =>
      rw [hb] at h
      simp only at h
      simp [h]
  · split_ifs <;> simp only [if_neg e] <;> exact h

theorem has_commit_mono {c i : Nat} (l : List (Nat × Nat × Nat × Bool)) : ∀ {m : CacheModel}, m.has c i = true → (m.commit l).has c i = true := by
  induction l with
  | nil => intro m h; exact h
  | cons x l ih =>
    intro m h
    obtain ⟨c', i', n, b⟩ := x
    rw [CacheModel.commit]
    split_ifs
    · exact ih (has_mark_mono h)
    · exact ih (has_markPartial_mono h)

/-- What the server believes to be held is as if not asked for. -/
theorem emitBins_skip {img : Image} {M : CacheModel} {k : Nat × Nat} (h : M.has k.1 k.2 = true) (maxBytes : Nat) (keys : List (Nat × Nat)) :
    ∀ st, emitBins img M maxBytes keys st = emitBins img M maxBytes (keys.filter (· ≠ k)) st := by
  induction keys with
  | nil => intro st; rfl
  | cons x keys ih =>
    intro st
    obtain ⟨c, i⟩ := x
    by_cases e : (c, i) = k
    · subst e
      rw [List.filter_cons_of_neg (by simp), emitBins]
      have : emitBin img M maxBytes st c i = (st, true) := by
        unfold emitBin
        rw [if_pos h]
      rw [this]
      exact ih st
    · rw [List.filter_cons_of_pos (by simpa using e), emitBins, emitBins]
      split
      · exact ih _
      · rfl

/-- A response cut off by its sink is a response to fewer bins. -/
theorem emitSink_prefix (img : Image) (M : CacheModel) (maxBytes : Nat) (keys : List (Nat × Nat)) : ∀ room st, st.truncated = false →
    ((emitSink img M maxBytes keys room st).2 = false → (emitSink img M maxBytes keys room st).1 = emitBins img M maxBytes keys st) ∧
      ((emitSink img M maxBytes keys room st).2 = true → ∃ j, j < keys.length ∧ (emitSink img M maxBytes keys room st).1 = emitBins img M maxBytes (keys.take j) st ∧
        (emitSink img M maxBytes keys room st).1.truncated = false) := by
  induction keys with
  | nil => intro room st _; exact ⟨fun _ => rfl, fun h => by simp [emitSink] at h⟩
  | cons x keys ih =>
    intro room st hst
    obtain ⟨c, i⟩ := x
    have htr : (emitBin img M maxBytes st c i).2 = true → (emitBin img M maxBytes st c i).1.truncated = false := by
      unfold emitBin
      by_cases hh : M.has c i = true
      · rw [if_pos hh]
        exact fun _ => hst
      · rw [if_neg hh]
        cases img c i with
        | none => exact fun _ => hst
        | some payload =>
          simp only
          generalize appendMessage _ _ _ _ _ = r
          cases r.blocked <;> cases r.bytes.isEmpty <;> simp [hst]
    have hgo : ∀ room, (emitBin img M maxBytes st c i).2 = true →
        ((emitSink img M maxBytes keys room (emitBin img M maxBytes st c i).1).2 = false →
            (emitSink img M maxBytes keys room (emitBin img M maxBytes st c i).1).1 = emitBins img M maxBytes ((c, i) :: keys) st) ∧
          ((emitSink img M maxBytes keys room (emitBin img M maxBytes st c i).1).2 = true → ∃ j, j < ((c, i) :: keys).length ∧
            (emitSink img M maxBytes keys room (emitBin img M maxBytes st c i).1).1 = emitBins img M maxBytes (((c, i) :: keys).take j) st ∧
            (emitSink img M maxBytes keys room (emitBin img M maxBytes st c i).1).1.truncated = false) := by
      intro room h
      obtain ⟨h1, h2⟩ := ih room _ (htr h)
      have hb : ∀ ks, emitBins img M maxBytes ((c, i) :: ks) st = emitBins img M maxBytes ks (emitBin img M maxBytes st c i).1 := by
        intro ks
        rw [emitBins]
        generalize emitBin img M maxBytes st c i = r at h
        obtain ⟨r1, r2⟩ := r
        simp only at h
        subst h
        rfl
      refine ⟨fun ha => by rw [h1 ha, hb], fun ha => ?_⟩
      obtain ⟨j, hj, e, ht⟩ := h2 ha
      exact ⟨j + 1, by simp only [List.length_cons]; omega, by rw [e, List.take_succ_cons, hb], ht⟩
    have hstop : (emitBin img M maxBytes st c i).2 ≠ true → emitBins img M maxBytes ((c, i) :: keys) st = (emitBin img M maxBytes st c i).1 := by
      intro h
      rw [emitBins]
      generalize emitBin img M maxBytes st c i = r at h
      obtain ⟨r1, r2⟩ := r
      simp only [ne_eq, Bool.not_eq_true] at h
      subst h
      rfl
    rw [emitSink]
    split_ifs with h1 h2 h3 h4
    · exact hgo room h2
    · exact ⟨fun _ => (hstop h2).symm, fun h => by simp at h⟩
    · exact ⟨fun h => by simp at h, fun _ => ⟨0, by simp, by simp [emitBins], hst⟩⟩
    · exact hgo (room - 1) h4
    · exact ⟨fun _ => (hstop h4).symm, fun h => by simp at h⟩

/-- What the client has of a response without its end. -/
theorem partial_parse (img : Image) (himg : GoodImage img) (S : DataBinSet) (M : CacheModel) (hS : InSync img S M) (maxBytes : Nat) (keys : List (Nat × Nat)) (hk : GoodRequest keys) :
    ∃ S1, parseJppStream (emitBins img M maxBytes keys {}).body (({} : DataBinSet).mergeFrom S) = (true, S1) ∧
      (sessionRound img S M maxBytes keys).2.1 = S1.setEor (if (emitBins img M maxBytes keys {}).truncated then kEorByteLimit else kEorWindowDone) := by
  have he0 : ∀ c i, ({ S with eor := none } : DataBinSet).entry c i = S.entry c i := fun _ _ => rfl
  have hready : ∀ k ∈ keys, KeyOk k.1 k.2 ∧ Ready img { S with eor := none } M k.1 k.2 := by
    intro k hkk
    have hko := hk.2 k hkk
    refine ⟨hko, fun hh p hp => ⟨?_, ?_, ?_⟩⟩
    · rw [he0, ← entry_complete, hS.complete _ _ hko, hh]
    · rw [he0, ← entry_get]; exact hS.pre _ _ _ hko hp
    · rw [he0, ← entry_get]; exact hS.count _ _ hko hh
  obtain ⟨S1, hI⟩ := emitBins_spec img { S with eor := none } M maxBytes himg keys hready [] (by simp) (by simpa using hk.1) {} { S with eor := none } rfl
    (respInv_init img _ M maxBytes rfl)
  generalize hst : emitBins img M maxBytes keys {} = st at hI
  refine ⟨S1, ?_, ?_⟩
  · have := hI.parses []
    have e0 : messageLoop [] st.ctx S1 = ⟨some false, st.ctx, S1, []⟩ := by rw [messageLoop, if_pos (by rfl)]
    rw [List.append_nil, e0] at this
    unfold parseJppStream
    rw [mergeFrom_fresh]
    simp only [this, decide_true]
  · have hres : buildResponse img M maxBytes keys = (st.body ++ emitEor (if st.truncated then kEorByteLimit else kEorWindowDone), st.sentBins) := by
      unfold buildResponse; simp only [hst]
    generalize hrs : (if st.truncated then kEorByteLimit else kEorWindowDone) = reason at hres
    have hrlt : reason < 256 := by rw [← hrs]; split <;> simp [kEorByteLimit, kEorWindowDone]
    unfold sessionRound
    simp only [hres, mergeFrom_fresh]
    unfold parseJppStream
    have := hI.parses (emitEor reason)
    rw [show emitEor reason = emitEor reason ++ [] by simp, messageLoop_eor reason hrlt] at this
    rw [List.append_nil] at this
    simp only [this]

/-! ### Chunks -/

/-- **C86.** Chunked responses: if sending a message fails and what was sent before arrives, client and server still agree, and the server remembers exactly what was delivered, so that
C08 holds for everything that follows.  If no message fails, the response is that of C08. -/
theorem C86_chunked_drop (img : Image) (himg : GoodImage img) (S : DataBinSet) (M : CacheModel) (hS : InSync img S M) (maxBytes : Nat) (keys : List (Nat × Nat)) (hk : GoodRequest keys)
    (room : Nat) :
    ((emitSink img M maxBytes keys room {}).2 = true →
      (parseJppStream (emitSink img M maxBytes keys room {}).1.body (({} : DataBinSet).mergeFrom S)).1 = true ∧
        InSync img (parseJppStream (emitSink img M maxBytes keys room {}).1.body (({} : DataBinSet).mergeFrom S)).2 (chunkedCommit img M maxBytes keys room)) ∧
      ((emitSink img M maxBytes keys room {}).2 = false →
        chunkedCommit img M maxBytes keys room = (sessionRound img S M maxBytes keys).2.2 ∧ (emitSink img M maxBytes keys room {}).1 = emitBins img M maxBytes keys {}) := by
  obtain ⟨h1, h2⟩ := emitSink_prefix img M maxBytes keys room {} rfl
  refine ⟨fun ha => ?_, fun ha => ⟨?_, h1 ha⟩⟩
  · obtain ⟨j, -, e, -⟩ := h2 ha
    have hk' : GoodRequest (keys.take j) := ⟨hk.1.sublist (List.take_sublist _ _), fun k hkk => hk.2 k (List.mem_of_mem_take hkk)⟩
    obtain ⟨S1, p1, p2⟩ := partial_parse img himg S M hS maxBytes (keys.take j) hk'
    have hr := (C08_round img himg S M hS maxBytes (keys.take j) hk').sync
    rw [p2] at hr
    unfold chunkedCommit
    rw [e, p1]
    exact ⟨rfl, ⟨hr.complete, hr.held, hr.pre, hr.count⟩⟩
  · unfold chunkedCommit sessionRound buildResponse
    rw [h1 ha]

/-! ### One buffer -/

/-- **C86.** What a channel once counts as held is never sent on it again, whatever is asked for: every later response is the response to the request without it. -/
theorem C86_never_again (img : Image) (M : CacheModel) (k : Nat × Nat) (h : M.has k.1 k.2 = true) (rounds : List (Nat × List (Nat × Nat))) (maxBytes : Nat) (keys : List (Nat × Nat)) :
    buildResponse img (rounds.foldl (fun M r => bufferedCommit img M r.1 r.2) M) maxBytes keys =
      buildResponse img (rounds.foldl (fun M r => bufferedCommit img M r.1 r.2) M) maxBytes (keys.filter (· ≠ k)) := by
  induction rounds generalizing M with
  | nil =>
    simp only [List.foldl_nil]
    unfold buildResponse
    rw [emitBins_skip h]
  | cons r rounds ih =>
    rw [List.foldl_cons]
    exact ih _ (has_commit_mono _ h)

/-- **C86.** The claim is false for responses in one buffer: the bins are committed although nothing may have been sent.  Whenever a response has all of its window (`WindowDone`) and the
connection is dropped before any of it arrives, no bin of the window is ever sent again on the channel, although the client has none of it. -/
theorem C86_buffered_drop (img : Image) (himg : GoodImage img) (S : DataBinSet) (M : CacheModel) (hS : InSync img S M) (maxBytes : Nat) (keys : List (Nat × Nat)) (hk : GoodRequest keys)
    (hdone : (emitBins img M maxBytes keys {}).truncated = false) (k : Nat × Nat) (hkk : k ∈ keys) (p : List UInt8) (hp : img k.1 k.2 = some p)
    (rounds : List (Nat × List (Nat × Nat))) (maxBytes' : Nat) (keys' : List (Nat × Nat)) :
    buildResponse img (rounds.foldl (fun M r => bufferedCommit img M r.1 r.2) (bufferedCommit img M maxBytes keys)) maxBytes' keys' =
      buildResponse img (rounds.foldl (fun M r => bufferedCommit img M r.1 r.2) (bufferedCommit img M maxBytes keys)) maxBytes' (keys'.filter (· ≠ k)) := by
  refine C86_never_again img _ k ?_ rounds maxBytes' keys'
  have hr := C08_round img himg S M hS maxBytes keys hk
  obtain ⟨S1, -, p2⟩ := partial_parse img himg S M hS maxBytes keys hk
  rw [hdone] at p2
  have h2 : (sessionRound img S M maxBytes keys).2.1.eor = some 2 := by rw [p2]; rfl
  have hc := (hr.done h2 k hkk p hp).1
  rw [hr.sync.complete _ _ (hk.2 k hkk)] at hc
  exact hc

/-! ### The hypotheses are met -/

theorem fresh_sync (img : Image) : InSync img {} {} :=
  ⟨fun _ _ _ => rfl, fun _ _ _ h => by simp [DataBinSet.isComplete] at h, fun _ _ _ _ _ => List.nil_prefix, fun _ _ _ _ => rfl⟩

/-- A sink that fails at the third message: two bins are remembered, the third one is sent again next time; and a response in one buffer that is complete. -/
example : (emitSink demoImage {} 5000 demoWindow 2 {}).2 = true ∧ (emitSink demoImage {} 5000 demoWindow 2 {}).1.sentBins = [(6, 0, 5, true), (2, 0, 70, true)] ∧
    (buildResponse demoImage (chunkedCommit demoImage {} 5000 demoWindow 2) 5000 demoWindow).2 = [(0, 0, 0, true), (0, 1, 1500, true)] ∧
    (emitBins demoImage {} 5000 demoWindow {}).truncated = false ∧ (6, 0) ∈ demoWindow ∧ (demoImage 6 0).isSome := by decide +kernel

/-- After a lost response the same request is answered with nothing but the end. -/
example : buildResponse demoImage (bufferedCommit demoImage {} 5000 demoWindow) 5000 demoWindow = ([0, 2, 0], []) := by decide +kernel

end Verif.Jpip
