import Verif.Jpip.ResponseLemmas
import Mathlib.Algebra.Order.BigOperators.Group.List
/-
C07, C08: the message emitter and whole JPIP sessions.
-/
namespace Verif.Jpip

/-! ### C07: one emitted bin -/

/-- **C07.** Emitting a bin of any content from any resume offset under any budget: the output is never longer
than the budget; a client holding exactly the first `skip` bytes of the bin, parsing the output (with anything
after it), ends up holding exactly the first `skip + sent` bytes; the bin is flagged complete exactly when
`complete` is reported, which implies everything was sent; and the only way not to complete is that the
remaining budget is smaller than one header (60 bytes) plus one byte. -/
theorem C07_emit_budget_and_range (c i : Nat) (hc : c < 2 ^ 8) (hi : i < 2 ^ 64) (payload : List UInt8)
    (hp : payload.length < 2 ^ 64) (ctx : Ctx) (skip budget : Nat) (hs : skip ≤ payload.length) :
    let r := appendMessage { classId := c, csN := 0, inClassId := i } payload ctx skip budget
    r.bytes.length ≤ budget ∧
    skip + r.sent ≤ payload.length ∧
    (r.complete = true → skip + r.sent = payload.length) ∧
    (skip < payload.length → (r.complete = true ↔ skip + r.sent = payload.length)) ∧
    (r.complete = false ↔ r.blocked = true) ∧
    (r.complete = false → budget < r.bytes.length + 61) ∧
    (∀ (s : DataBinSet) (rest : List UInt8), s.eor = none → s.get c i = payload.take skip →
      s.isComplete c i = false →
      ∃ s', messageLoop (r.bytes ++ rest) ctx s = messageLoop rest r.ctx s' ∧ s'.eor = none ∧
        s'.get c i = payload.take (skip + r.sent) ∧ s'.isComplete c i = r.complete ∧
        ∀ c' i', ¬ (c' = c ∧ i' = i) → s'.bins c' i' = s.bins c' i') := by
  intro r
  have hmin : min skip payload.length = skip := by omega
  have hspec : AppendSpec { classId := c, csN := 0, inClassId := i } budget (payload.drop skip) skip 0 ctx r := by
    show AppendSpec _ _ _ _ _ _ (appendMessage _ _ _ _ _)
    unfold appendMessage
    simp only [hmin]
    apply appendLoop_spec
    · exact ⟨hc, by show 0 < _; omega, hi, by show 0 < _; omega⟩
    · simp; omega
  have hdl : (payload.drop skip).length = payload.length - skip := by simp
  have h1 := hspec.len_le
  have h2 := hspec.sent_le
  have h3 := hspec.complete_sent
  have h4 := hspec.blocked_iff
  have h5 := hspec.blocked_full
  have h7 := hspec.full_complete
  rw [hdl] at h2 h7
  refine ⟨by omega, by omega, fun h => ?_, fun hlt => ⟨fun h => ?_, fun h => ?_⟩, ?_, fun h => ?_, ?_⟩
  · have := (h3 h).1; rw [hdl] at this; omega
  · have := (h3 h).1; rw [hdl] at this; omega
  · apply h7 (by omega)
    intro hn
    have := congrArg List.length hn
    rw [hdl] at this; simp at this; omega
  · rw [h4]; cases r.complete <;> simp
  · have := h5 (by rw [h4, h]; rfl); omega
  · intro s rest he hg hcmp
    have hent : (s.bins c i).getD {} = ⟨payload.take skip, false⟩ := by
      have e1 := entry_get s c i
      have e2 := entry_complete s c i
      rw [hg] at e1; rw [hcmp] at e2
      show s.entry c i = _
      generalize s.entry c i = e at *
      obtain ⟨b, l⟩ := e
      simp only at e1 e2
      rw [e1, e2]
    have := hspec.parses s (payload.take skip) rest hent (by simp; omega) he
    by_cases hb : r.bytes = []
    · rw [if_pos hb] at this
      have hz := (hspec.empty hb).2
      have hnc : r.complete = false := by
        cases hcc : r.complete
        · rfl
        · exact absurd hb (h3 hcc).2
      exact ⟨s, this, he, by rw [hz, hg]; rfl, by rw [hcmp, hnc], fun _ _ _ => rfl⟩
    · rw [if_neg hb] at this
      refine ⟨_, this, he, ?_, ?_, fun c' i' hne => set_bins_ne _ _ _ _ _ _ hne⟩
      · rw [entry_get]
        show (DataBinSet.entry (s.set c i _) c i).bytes = _
        rw [entry_set_self, List.take_add]
      · rw [entry_complete]
        show (DataBinSet.entry (s.set c i _) c i).isLast = _
        rw [entry_set_self]

/-- Non-vacuity: 100 bytes from offset 10 under a 100-byte budget: 40 bytes of payload fit, not complete. -/
example : (appendMessage { classId := 0, csN := 0, inClassId := 5 } (List.replicate 100 7) {} 10 100).sent = 40 ∧
    (appendMessage { classId := 0, csN := 0, inClassId := 5 } (List.replicate 100 7) {} 10 100).complete = false ∧
    (appendMessage { classId := 0, csN := 0, inClassId := 5 } (List.replicate 100 7) {} 10 151).complete = true := by
  decide +kernel

/-- A zero-length bin is still announced: one message with the completeness flag. -/
theorem C07_empty_bin_completes (c i : Nat) (hc : c < 2 ^ 8) (hi : i < 2 ^ 64) (ctx : Ctx) (budget : Nat)
    (hb : 61 ≤ budget) :
    let r := appendMessage { classId := c, csN := 0, inClassId := i } [] ctx 0 budget
    r.complete = true ∧ r.bytes ≠ [] := by
  have h := C07_emit_budget_and_range c i hc hi [] (by simp) ctx 0 budget (by simp)
  intro r
  have hspec : AppendSpec { classId := c, csN := 0, inClassId := i } budget [] 0 0 ctx r :=
    appendLoop_spec _ ⟨hc, by show 0 < _; omega, hi, by show 0 < _; omega⟩ _ _ _ _ _ (by simp)
  have hc : r.complete = true := by
    cases hcc : r.complete
    · exfalso
      have hbk : r.blocked = true := by rw [hspec.blocked_iff, hcc]; rfl
      have h5 := hspec.blocked_full hbk
      have hp := hspec.progress
      have h2 := hspec.sent_le
      simp only [List.length_nil] at h2
      by_cases hb : r.bytes = []
      · rw [hb] at h5; simp at h5; omega
      · rcases hp hb with h | h
        · rw [hcc] at h; cases h
        · omega
    · rfl
  exact ⟨hc, (hspec.complete_sent hc).2⟩

/-! ### C08: sessions -/

/-- The image as the server sees it: the bytes of each data-bin, `none` for bins that do not exist. -/
abbrev Image := Nat → Nat → Option (List UInt8)

/-- Client store and server model agree, and what the client holds is a prefix of the truth. -/
structure InSync (img : Image) (client : DataBinSet) (server : CacheModel) : Prop where
  complete : ∀ c i, KeyOk c i → client.isComplete c i = server.has c i
  held : ∀ c i, KeyOk c i → client.isComplete c i = true → img c i = some (client.get c i)
  pre : ∀ c i p, KeyOk c i → img c i = some p → client.get c i <+: p
  count : ∀ c i, KeyOk c i → server.has c i = false → server.receivedBytes c i = (client.get c i).length

/-- One round of a stateful session: the server builds a response for `keys` under `maxBytes` from its channel's
cache model and commits what it delivered (main.cpp:122-268, channel_manager.cpp:50-62); the client parses it
into a store carried over from the previous rounds.  Carrying over is `DataBinSet t; t.merge_from(old)`
(jpp_parser.cpp:43-54), which also resets the end-of-response mark. -/
def sessionRound (img : Image) (client : DataBinSet) (server : CacheModel) (maxBytes : Nat)
    (keys : List (Nat × Nat)) : Bool × DataBinSet × CacheModel :=
  let resp := buildResponse img server maxBytes keys
  let p := parseJppStream resp.1 (({} : DataBinSet).mergeFrom client)
  (p.1, p.2, server.commit resp.2)

theorem mergeFrom_fresh (s : DataBinSet) : ({} : DataBinSet).mergeFrom s = { s with eor := none } := by
  unfold DataBinSet.mergeFrom
  congr 1
  funext c i
  cases s.bins c i <;> rfl

/-- The requests considered: bins with distinct keys of representable size. -/
def GoodRequest (keys : List (Nat × Nat)) : Prop := keys.Nodup ∧ ∀ k ∈ keys, KeyOk k.1 k.2

def GoodImage (img : Image) : Prop := ∀ c i p, img c i = some p → p.length < 2 ^ 64

/-- Everything one round guarantees. -/
structure RoundSpec (img : Image) (S : DataBinSet) (M : CacheModel) (maxBytes : Nat)
    (keys : List (Nat × Nat)) (ok : Bool) (S' : DataBinSet) (M' : CacheModel) : Prop where
  accepted : ok = true
  sync : InSync img S' M'
  mono : ∀ c i, KeyOk c i → S.get c i <+: S'.get c i ∧ (S.isComplete c i = true → S'.isComplete c i = true)
  frame : ∀ c i, KeyOk c i → (c, i) ∉ keys → S'.get c i = S.get c i ∧ S'.isComplete c i = S.isComplete c i
  reason : S'.eor = some 2 ∨ S'.eor = some 4
  done : S'.eor = some 2 → ∀ k ∈ keys, ∀ p, img k.1 k.2 = some p →
    S'.isComplete k.1 k.2 = true ∧ S'.get k.1 k.2 = p
  progress : S'.eor = some 4 → 61 ≤ maxBytes → ∃ k ∈ keys, ∃ p, img k.1 k.2 = some p ∧
    S.isComplete k.1 k.2 = false ∧
    (S'.isComplete k.1 k.2 = true ∨ (S.get k.1 k.2).length < (S'.get k.1 k.2).length)

theorem respInv_init (img : Image) (S : DataBinSet) (M : CacheModel) (maxBytes : Nat) (he : S.eor = none) :
    RespInv img S M maxBytes [] {} S := by
  refine ⟨fun _ => rfl, he, by simp, fun c i _ => Or.inl ⟨rfl, rfl, rfl⟩, by simp, by simp, by simp⟩

/-- **C08 (one round).** -/
theorem C08_round (img : Image) (himg : GoodImage img) (S : DataBinSet) (M : CacheModel) (hS : InSync img S M)
    (maxBytes : Nat) (keys : List (Nat × Nat)) (hk : GoodRequest keys) :
    RoundSpec img S M maxBytes keys (sessionRound img S M maxBytes keys).1
      (sessionRound img S M maxBytes keys).2.1 (sessionRound img S M maxBytes keys).2.2 := by
  set S0 : DataBinSet := { S with eor := none } with hS0
  have he0 : ∀ c i, S0.entry c i = S.entry c i := fun _ _ => rfl
  have hready : ∀ k ∈ keys, KeyOk k.1 k.2 ∧ Ready img S0 M k.1 k.2 := by
    intro k hkk
    have hko := hk.2 k hkk
    refine ⟨hko, fun hh p hp => ⟨?_, ?_, ?_⟩⟩
    · rw [he0, ← entry_complete, hS.complete _ _ hko, hh]
    · rw [he0, ← entry_get]; exact hS.pre _ _ _ hko hp
    · rw [he0, ← entry_get]; exact hS.count _ _ hko hh
  obtain ⟨S1, hI⟩ := emitBins_spec img S0 M maxBytes himg keys hready [] (by simp) (by simpa using hk.1) {} S0 rfl
    (respInv_init img S0 M maxBytes rfl)
  simp only [List.nil_append] at hI
  generalize hst : emitBins img M maxBytes keys {} = st at hI
  have hres : buildResponse img M maxBytes keys =
      (st.body ++ emitEor (if st.truncated then kEorByteLimit else kEorWindowDone), st.sentBins) := by
    unfold buildResponse; simp only [hst]
  generalize hrs : (if st.truncated then kEorByteLimit else kEorWindowDone) = reason at hres
  have hrlt : reason < 256 := by rw [← hrs]; split <;> simp [kEorByteLimit, kEorWindowDone]
  have hround : sessionRound img S M maxBytes keys =
      (true, S1.setEor reason, M.commit st.sentBins) := by
    unfold sessionRound
    simp only [hres, mergeFrom_fresh]
    unfold parseJppStream
    have := hI.parses (emitEor reason)
    rw [show emitEor reason = emitEor reason ++ [] by simp, messageLoop_eor reason hrlt] at this
    rw [List.append_nil] at this
    simp only [← hS0, this, decide_true]
  rw [hround]
  simp only
  have hent : ∀ c i, (S1.setEor reason).entry c i = S1.entry c i := fun _ _ => rfl
  -- shape of each bin afterwards
  have hbin : ∀ c i, KeyOk c i → Untouched S (S1.setEor reason) M (M.commit st.sentBins) c i ∨
      ((c, i) ∈ keys ∧ Delivered img S (S1.setEor reason) M (M.commit st.sentBins) c i) :=
    fun c i h => (hI.bins c i h).imp id (fun ⟨a, b⟩ => ⟨a, ⟨b.notHeld, b.effect⟩⟩)
  have hprefixTake : ∀ c i, KeyOk c i → Delivered img S (S1.setEor reason) M (M.commit st.sentBins) c i →
      S.get c i <+: (S1.setEor reason).get c i := by
    intro c i hko hd
    obtain ⟨p, n, hp, h1, h2, h3, -⟩ := hd.effect
    have := hS.pre c i p hko hp
    rw [entry_get] at this ⊢
    rw [entry_get, h3]
    rw [List.prefix_iff_eq_take] at this
    rw [this]
    exact List.take_prefix_take_left h1
  refine ⟨rfl, ⟨?_, ?_, ?_, ?_⟩, ?_, ?_, ?_, ?_, ?_⟩
  · intro c i hko
    rw [entry_complete]
    rcases hbin c i hko with h | ⟨-, h⟩
    · rw [h.1, h.2.1, ← entry_complete, hS.complete c i hko]
    · obtain ⟨p, n, hp, h1, h2, h3, h4, h5, h6, h7⟩ := h.effect
      exact h6.symm
  · intro c i hko hcm
    rw [entry_complete] at hcm
    rw [entry_get]
    rcases hbin c i hko with h | ⟨-, h⟩
    · rw [h.1] at hcm ⊢
      rw [← entry_get]
      rw [← entry_complete] at hcm
      exact hS.held c i hko hcm
    · obtain ⟨p, n, hp, h1, h2, h3, h4, h5, h6, h7⟩ := h.effect
      rw [h3, h4 hcm, List.take_length]
      exact hp
  · intro c i p hko hp
    rw [entry_get]
    rcases hbin c i hko with h | ⟨-, h⟩
    · rw [h.1, ← entry_get]; exact hS.pre c i p hko hp
    · obtain ⟨p', n, hp', h1, h2, h3, h4, h5, h6, h7⟩ := h.effect
      rw [hp] at hp'
      cases hp'
      rw [h3]
      exact List.take_prefix _ _
  · intro c i hko hh
    rw [entry_get]
    rcases hbin c i hko with h | ⟨-, h⟩
    · rw [h.1, h.2.2, ← entry_get]
      rw [h.2.1] at hh
      exact hS.count c i hko hh
    · obtain ⟨p', n, hp', h1, h2, h3, h4, h5, h6, h7⟩ := h.effect
      rw [h6] at hh
      rw [h7 hh, h3]
      simp; omega
  · intro c i hko
    rcases hbin c i hko with h | ⟨-, h⟩
    · rw [entry_get, entry_get, entry_complete, entry_complete, h.1]
      exact ⟨List.prefix_refl _, id⟩
    · refine ⟨hprefixTake c i hko h, fun hcm => ?_⟩
      rw [hS.complete c i hko, h.notHeld] at hcm
      cases hcm
  · intro c i hko hnk
    rcases hbin c i hko with h | ⟨h, -⟩
    · rw [entry_get, entry_get, entry_complete, entry_complete, h.1]
      exact ⟨rfl, rfl⟩
    · exact absurd h hnk
  · show some reason = some 2 ∨ some reason = some 4
    rw [← hrs]
    split <;> simp [kEorByteLimit, kEorWindowDone]
  · intro hr2 k hkk p hp
    have hr2 : reason = 2 := by simpa [DataBinSet.setEor] using hr2
    have htr : st.truncated = false := by
      cases h : st.truncated
      · rfl
      · rw [h] at hrs; simp [kEorByteLimit, hr2] at hrs
    have hko := hk.2 k hkk
    have hcm : (S1.setEor reason).isComplete k.1 k.2 = true := by
      rw [entry_complete]
      rcases hI.finished htr k hkk with h | h | h
      · rcases hbin k.1 k.2 hko with hu | ⟨-, hd⟩
        · rw [hu.1, ← entry_complete, hS.complete _ _ hko, h]
        · rw [hd.notHeld] at h; cases h
      · rw [hp] at h; cases h
      · exact h
    refine ⟨hcm, ?_⟩
    rw [entry_complete] at hcm
    rw [entry_get]
    rcases hbin k.1 k.2 hko with h | ⟨-, h⟩
    · rw [h.1] at hcm ⊢
      rw [← entry_complete] at hcm
      have := hS.held _ _ hko hcm
      rw [hp] at this
      rw [← entry_get]
      exact (Option.some.inj this).symm
    · obtain ⟨p', n, hp', h1, h2, h3, h4, h5, h6, h7⟩ := h.effect
      rw [hp] at hp'; cases hp'
      rw [h3, h4 hcm, List.take_length]
  · intro hr4 hmx
    have hr4 : reason = 4 := by simpa [DataBinSet.setEor] using hr4
    have htr : st.truncated = true := by
      cases h : st.truncated
      · rw [h] at hrs; simp [kEorWindowDone, hr4] at hrs
      · rfl
    have hbl := hI.blocked htr
    have hne : st.body ≠ [] := by
      intro h; rw [h] at hbl; simp at hbl; omega
    obtain ⟨k, hkk, hd⟩ := hI.progress hne
    obtain ⟨p, n, hp, h1, h2, h3, h4, h5, h6, h7⟩ := hd.effect
    refine ⟨k, hkk, p, hp, ?_, ?_⟩
    · rw [hS.complete _ _ (hk.2 k hkk), hd.notHeld]
    · rw [entry_complete, entry_get, entry_get]
      rcases h5 with h5 | h5
      · exact Or.inl h5
      · right
        show (S.entry k.1 k.2).bytes.length < (S1.entry k.1 k.2).bytes.length
        rw [h3]
        simp only [List.length_take]
        have : (S0.entry k.1 k.2).bytes.length = (S.entry k.1 k.2).bytes.length := rfl
        omega

/-- The response body, without the three bytes of the end-of-response message, fits the request's limit. -/
theorem C08_response_fits (img : Image) (himg : GoodImage img) (S : DataBinSet) (M : CacheModel)
    (hS : InSync img S M) (maxBytes : Nat) (keys : List (Nat × Nat)) (hk : GoodRequest keys) :
    (buildResponse img M maxBytes keys).1.length ≤ maxBytes + 3 := by
  have hready : ∀ k ∈ keys, KeyOk k.1 k.2 ∧ Ready img { S with eor := none } M k.1 k.2 := by
    intro k hkk
    have hko := hk.2 k hkk
    have he0 : ∀ c i, ({ S with eor := none } : DataBinSet).entry c i = S.entry c i := fun _ _ => rfl
    refine ⟨hko, fun hh p hp => ⟨?_, ?_, ?_⟩⟩
    · rw [he0, ← entry_complete, hS.complete _ _ hko, hh]
    · rw [he0, ← entry_get]; exact hS.pre _ _ _ hko hp
    · rw [he0, ← entry_get]; exact hS.count _ _ hko hh
  obtain ⟨S1, hI⟩ := emitBins_spec img _ M maxBytes himg keys hready [] (by simp) (by simpa using hk.1) {}
    { S with eor := none } rfl (respInv_init img _ M maxBytes rfl)
  have := hI.fits
  unfold buildResponse emitEor
  simp only [List.length_append, List.length_cons, List.length_nil]
  omega

/-- A session: any number of rounds, each with its own limit and window.  `none` once a response has been
rejected by the client. -/
def session (img : Image) (S : DataBinSet) (M : CacheModel) :
    List (Nat × List (Nat × Nat)) → Option (DataBinSet × CacheModel)
  | [] => some (S, M)
  | (maxBytes, keys) :: rounds =>
    match sessionRound img S M maxBytes keys with
    | (true, S', M') => session img S' M' rounds
    | (false, _, _) => none

theorem inSync_empty (img : Image) : InSync img {} {} := by
  refine ⟨fun _ _ _ => rfl, fun _ _ _ h => ?_, fun _ _ _ _ _ => ?_, fun _ _ _ _ => rfl⟩
  · cases h
  · exact List.nil_prefix

/-- **C08 (whole sessions).** Any session of any length, with any windows and any limits, starting from an empty
client and a fresh channel: no response is ever rejected; every bin the client holds is a prefix of the server's
bin; a bin flagged complete equals the server's bin; and continuing the session never shrinks a bin. -/
theorem C08_session (img : Image) (himg : GoodImage img) (rounds more : List (Nat × List (Nat × Nat)))
    (hr : ∀ r ∈ rounds ++ more, GoodRequest r.2) :
    ∃ S M S' M', session img {} {} rounds = some (S, M) ∧ session img {} {} (rounds ++ more) = some (S', M') ∧
      (∀ c i p, KeyOk c i → img c i = some p →
        S.get c i <+: p ∧ (S.isComplete c i = true → S.get c i = p)) ∧
      (∀ c i, KeyOk c i → img c i = none → S.isComplete c i = false) ∧
      (∀ c i, KeyOk c i → S.get c i <+: S'.get c i ∧ (S.isComplete c i = true → S'.isComplete c i = true)) := by
  have key : ∀ (rounds : List (Nat × List (Nat × Nat))) (S : DataBinSet) (M : CacheModel), InSync img S M →
      (∀ r ∈ rounds, GoodRequest r.2) → ∃ S' M', session img S M rounds = some (S', M') ∧ InSync img S' M' ∧
      (∀ c i, KeyOk c i → S.get c i <+: S'.get c i ∧ (S.isComplete c i = true → S'.isComplete c i = true)) := by
    intro rounds
    induction rounds with
    | nil => intro S M h _; exact ⟨S, M, rfl, h, fun _ _ _ => ⟨List.prefix_refl _, id⟩⟩
    | cons r rounds ih =>
      obtain ⟨mb, keys⟩ := r
      intro S M h hr
      have hs := C08_round img himg S M h mb keys (hr (mb, keys) (by simp))
      generalize hg : sessionRound img S M mb keys = g at hs
      obtain ⟨ok, S1, M1⟩ := g
      simp only at hs
      have hok := hs.accepted
      subst hok
      obtain ⟨S2, M2, h1, h2, h3⟩ := ih S1 M1 hs.sync (fun r h => hr r (by simp [h]))
      refine ⟨S2, M2, ?_, h2, fun c i hko => ?_⟩
      · simp only [session, hg]; exact h1
      · exact ⟨(hs.mono c i hko).1.trans (h3 c i hko).1, fun h => (h3 c i hko).2 ((hs.mono c i hko).2 h)⟩
  have happ : ∀ (a b : List (Nat × List (Nat × Nat))) (S : DataBinSet) (M : CacheModel) S1 M1,
      session img S M a = some (S1, M1) → session img S M (a ++ b) = session img S1 M1 b := by
    intro a
    induction a with
    | nil => intro b S M S1 M1 h; simp only [session, Option.some.injEq, Prod.mk.injEq] at h; rw [← h.1, ← h.2]; rfl
    | cons r a ih =>
      obtain ⟨mb, keys⟩ := r
      intro b S M S1 M1 h
      simp only [session, List.cons_append] at h ⊢
      cases hg : sessionRound img S M mb keys with
      | mk ok p =>
        obtain ⟨S2, M2⟩ := p
        rw [hg] at h
        cases ok
        · simp at h
        · exact ih b S2 M2 S1 M1 h
  obtain ⟨S, M, h1, h2, h3⟩ := key rounds {} {} (inSync_empty img) (fun r h => hr r (by simp [h]))
  obtain ⟨S', M', h1', h2', h3'⟩ := key more S M h2 (fun r h => hr r (by simp [h]))
  refine ⟨S, M, S', M', h1, by rw [happ _ _ _ _ _ _ h1]; exact h1', ?_, ?_, h3'⟩
  · intro c i p hko hp
    refine ⟨h2.pre c i p hko hp, fun h => ?_⟩
    have := h2.held c i hko h
    rw [hp] at this
    exact (Option.some.inj this).symm
  · intro c i hko hn
    cases hcm : S.isComplete c i
    · rfl
    · have := h2.held c i hko hcm
      rw [hn] at this; cases this

/-- Bytes (plus one per unfinished bin) still to deliver for a window. -/
def outstanding (img : Image) (S : DataBinSet) (keys : List (Nat × Nat)) : Nat :=
  (keys.map fun k => match img k.1 k.2 with
    | none => 0
    | some p => if S.isComplete k.1 k.2 then 0 else p.length - (S.get k.1 k.2).length + 1).sum

/-- **C08 (convergence).** If a window is requested over and over with limits of at least 61 bytes each (otherwise
arbitrary, changing from request to request), then after as many requests as there are bytes and bins in the
window every bin that exists is held completely and exactly. -/
theorem C08_converges (img : Image) (himg : GoodImage img) (keys : List (Nat × Nat)) (hk : GoodRequest keys)
    (limits : List Nat) (hl : ∀ l ∈ limits, 61 ≤ l)
    (hn : (keys.map fun k => ((img k.1 k.2).map (·.length + 1)).getD 0).sum < limits.length) :
    ∃ S M, session img {} {} (limits.map fun l => (l, keys)) = some (S, M) ∧
      ∀ k ∈ keys, ∀ p, img k.1 k.2 = some p → S.isComplete k.1 k.2 = true ∧ S.get k.1 k.2 = p := by
  have key : ∀ (limits : List Nat) (S : DataBinSet) (M : CacheModel), InSync img S M → (∀ l ∈ limits, 61 ≤ l) →
      (outstanding img S keys < limits.length ∨
        ∀ k ∈ keys, ∀ p, img k.1 k.2 = some p → S.isComplete k.1 k.2 = true ∧ S.get k.1 k.2 = p) →
      ∃ S' M', session img S M (limits.map fun l => (l, keys)) = some (S', M') ∧
        ∀ k ∈ keys, ∀ p, img k.1 k.2 = some p → S'.isComplete k.1 k.2 = true ∧ S'.get k.1 k.2 = p := by
    intro limits
    induction limits with
    | nil =>
      intro S M hS _ h
      rcases h with h | h
      · simp at h
      · exact ⟨S, M, rfl, h⟩
    | cons l limits ih =>
      intro S M hS hl h
      have hs := C08_round img himg S M hS l keys hk
      generalize hg : sessionRound img S M l keys = g at hs
      obtain ⟨ok, S1, M1⟩ := g
      simp only at hs
      have hok := hs.accepted
      subst hok
      simp only [List.map_cons, session, hg]
      apply ih S1 M1 hs.sync (fun x h => hl x (by simp [h]))
      rcases hs.reason with h2 | h4
      · exact Or.inr (hs.done h2)
      · rcases h with h | h
        · left
          have hdec : outstanding img S1 keys < outstanding img S keys := by
            obtain ⟨k, hkk, p, hp, hinc, hpr⟩ := hs.progress h4 (hl l (by simp))
            unfold outstanding
            apply List.sum_lt_sum
            · intro k' hk'
              have hm := hs.mono k'.1 k'.2 (hk.2 k' hk')
              cases img k'.1 k'.2 with
              | none => simp
              | some p' =>
                simp only
                cases hc : S.isComplete k'.1 k'.2
                · have := hm.1.length_le
                  split
                  · omega
                  · simp; omega
                · rw [if_pos (hm.2 hc)]; simp
            · refine ⟨k, hkk, ?_⟩
              rw [hp]
              simp only [hinc, Bool.false_eq_true, if_false]
              have hpre := (hs.sync.pre k.1 k.2 p (hk.2 k hkk) hp).length_le
              rcases hpr with h | h
              · rw [if_pos h]; omega
              · split
                · omega
                · omega
          simp only [List.length_cons] at h
          omega
        · right
          intro k hkk p hp
          obtain ⟨a, b⟩ := h k hkk p hp
          have hm := hs.mono k.1 k.2 (hk.2 k hkk)
          refine ⟨hm.2 a, ?_⟩
          have := hs.sync.held _ _ (hk.2 k hkk) (hm.2 a)
          rw [hp] at this
          exact (Option.some.inj this).symm
  apply key limits {} {} (inSync_empty img) hl
  left
  refine lt_of_le_of_lt ?_ hn
  unfold outstanding
  apply List.sum_le_sum
  intro k _
  cases img k.1 k.2 with
  | none => simp
  | some p =>
    simp [DataBinSet.isComplete, DataBinSet.get]

/-- A small image used in the examples: a main header of 5 bytes, a tile header of 70 bytes, an empty precinct
and one of 1500 bytes. -/
def demoImage : Image := fun c i =>
  if c = 6 ∧ i = 0 then some [0xFF, 0x4F, 1, 2, 3]
  else if c = 2 ∧ i = 0 then some (List.replicate 70 9)
  else if c = 0 ∧ i = 0 then some []
  else if c = 0 ∧ i = 1 then some (List.replicate 1500 5)
  else none

def demoWindow : List (Nat × Nat) := deliveryOrder [(0, 1), (0, 0)]

example : demoWindow = [(8, 0), (6, 0), (2, 0), (0, 0), (0, 1)] := by decide

/-- Non-vacuity of the session theorems: the hypotheses hold for the demo image and window, and a first round of
100 bytes is truncated. -/
example : GoodImage demoImage ∧ GoodRequest demoWindow := by
  refine ⟨?_, ?_, ?_⟩
  · intro c i p h
    unfold demoImage at h
    split at h
    · cases h; simp
    split at h
    · cases h; rw [List.length_replicate]; omega
    split at h
    · cases h; simp
    split at h
    · cases h; rw [List.length_replicate]; omega
    · cases h
  · decide
  · rw [show demoWindow = [(8, 0), (6, 0), (2, 0), (0, 0), (0, 1)] by decide]
    simp [KeyOk]

example : (sessionRound demoImage {} {} 100 demoWindow).2.1.eor = some 4 ∧
    ((sessionRound demoImage {} {} 100 demoWindow).2.1.get 2 0).length = 31 ∧
    (sessionRound demoImage {} {} 5000 demoWindow).2.1.eor = some 2 := by decide +kernel

/-! ### The order in which the server delivers a window -/

theorem windowTiles_nodup (ts : List Nat) : (windowTiles ts).Nodup ∧ ∀ t, t ∈ windowTiles ts ↔ t ∈ ts := by
  induction ts with
  | nil => simp [windowTiles]
  | cons a ts ih =>
    refine ⟨?_, fun t => ?_⟩
    · simp only [windowTiles, List.nodup_cons, List.mem_filter]
      exact ⟨by simp, ih.1.filter _⟩
    · simp only [windowTiles, List.mem_cons, List.mem_filter, ih.2]
      by_cases h : t = a <;> simp [h]

/-- **C08 (requests the server makes of itself are good).** For a window whose precincts have distinct
identifiers below 2^56 and whose tiles are below 2^56, the delivery order contains the metadata-bin, the main
header, each tile's header once and each precinct once, so it satisfies `GoodRequest`; headers precede
precincts, which are in ascending order. -/
theorem C08_delivery_order (window : List (Nat × Nat)) (hnd : (window.map Prod.snd).Nodup)
    (hlt : ∀ w ∈ window, w.1 < 2 ^ 56 ∧ w.2 < 2 ^ 56) :
    GoodRequest (deliveryOrder window) ∧
    (∀ c i, (c, i) ∈ deliveryOrder window ↔
      (c = 8 ∧ i = 0) ∨ (c = 6 ∧ i = 0) ∨ (c = 2 ∧ ∃ I, (i, I) ∈ window) ∨ (c = 0 ∧ ∃ t, (t, i) ∈ window)) ∧
    ∃ heads precs, deliveryOrder window = heads ++ precs ∧ (∀ k ∈ heads, k.1 ≠ 0) ∧ (∀ k ∈ precs, k.1 = 0) ∧
      (precs.map Prod.snd).Pairwise (· < ·) := by
  have hmem : ∀ c i, (c, i) ∈ deliveryOrder window ↔
      (c = 8 ∧ i = 0) ∨ (c = 6 ∧ i = 0) ∨ (c = 2 ∧ ∃ I, (i, I) ∈ window) ∨ (c = 0 ∧ ∃ t, (t, i) ∈ window) := by
    intro c i
    simp only [deliveryOrder, List.mem_cons, List.cons_append, List.mem_append, List.mem_map, Prod.mk.injEq,
      (windowTiles_nodup _).2, List.mem_insertionSort, kMsgClassMetadata, kMsgClassMainHeader, kMsgClassTileHeader,
      kMsgClassPrecinct]
    constructor
    · rintro (⟨rfl, rfl⟩ | ⟨rfl, rfl⟩ | ⟨t, ⟨⟨a, b⟩, h, rfl⟩, rfl, rfl⟩ | ⟨t, ⟨⟨a, b⟩, h, rfl⟩, rfl, rfl⟩)
      · simp
      · simp
      · right; right; left; exact ⟨rfl, b, h⟩
      · right; right; right; exact ⟨rfl, a, h⟩
    · rintro (⟨rfl, rfl⟩ | ⟨rfl, rfl⟩ | ⟨rfl, I, h⟩ | ⟨rfl, t, h⟩)
      · simp
      · simp
      · right; right; left; exact ⟨i, ⟨_, h, rfl⟩, rfl, rfl⟩
      · right; right; right; exact ⟨i, ⟨_, h, rfl⟩, rfl, rfl⟩
  refine ⟨⟨?_, ?_⟩, hmem, ?_⟩
  · unfold deliveryOrder
    simp only [List.cons_append, List.nodup_cons, List.mem_cons, List.mem_append, List.mem_map, Prod.mk.injEq,
      kMsgClassMetadata, kMsgClassMainHeader, kMsgClassTileHeader, kMsgClassPrecinct]
    refine ⟨by simp, by simp, ?_⟩
    rw [List.nodup_append]
    refine ⟨?_, ?_, ?_⟩
    · exact (windowTiles_nodup _).1.map (fun a b h => by simpa using h)
    · exact ((List.perm_insertionSort _ _).nodup_iff.2 hnd).map (fun a b h => by simpa using h)
    · rintro ⟨a, b⟩ h ⟨c, d⟩ h'
      simp only [List.mem_map, Prod.mk.injEq] at h h'
      obtain ⟨x, -, rfl, -⟩ := h
      obtain ⟨y, -, rfl, -⟩ := h'
      simp
  · rintro ⟨c, i⟩ h
    rw [hmem] at h
    unfold KeyOk
    rcases h with ⟨rfl, rfl⟩ | ⟨rfl, rfl⟩ | ⟨rfl, I, h⟩ | ⟨rfl, t, h⟩
    · simp
    · simp
    · exact ⟨by simp, (hlt _ h).1⟩
    · exact ⟨by simp, (hlt _ h).2⟩
  · refine ⟨_, _, rfl, ?_, ?_, ?_⟩
    · intro k hk
      simp only [List.mem_cons, List.mem_map] at hk
      rcases hk with rfl | rfl | ⟨t, -, rfl⟩ <;> simp [kMsgClassMetadata, kMsgClassMainHeader, kMsgClassTileHeader]
    · intro k hk
      simp only [List.mem_map] at hk
      obtain ⟨t, -, rfl⟩ := hk
      rfl
    · rw [List.map_map]
      have : (Prod.snd ∘ fun I => (kMsgClassPrecinct, I)) = (id : Nat → Nat) := rfl
      rw [this, List.map_id]
      have hs : ((window.map Prod.snd).insertionSort (· ≤ ·)).Pairwise (· ≤ ·) := List.pairwise_insertionSort _ _
      have hn : ((window.map Prod.snd).insertionSort (· ≤ ·)).Nodup :=
        (List.perm_insertionSort _ _).nodup_iff.2 hnd
      exact (hs.and hn).imp (fun h => lt_of_le_of_ne h.1 h.2)

/-! ### Stateless requests -/

/-- What the shipped clients do (web/src/jpip_wrapper.cpp:394-425 and the demo): each response is parsed into a
fresh store which is then merged into the kept one.  Here the request is stateless: the server's model is what
the request's `model` field says. -/
def statelessRound (img : Image) (client : DataBinSet) (model : CacheModel) (maxBytes : Nat)
    (keys : List (Nat × Nat)) : Bool × DataBinSet :=
  let p := parseJppStream (buildResponse img model maxBytes keys).1 {}
  (p.1, if p.1 then client.mergeFrom p.2 else client)

/-- **C08 (stateless requests).** If the request's model lists exactly the bins the client has complete (and no
partial bins), the fresh-store-then-merge client never sees a rejected response, keeps only prefixes of the true
bins, never loses bytes or completeness, and a bin flagged complete equals the server's. -/
theorem C08_stateless_round (img : Image) (himg : GoodImage img) (S : DataBinSet) (M : CacheModel)
    (hc : ∀ c i, KeyOk c i → S.isComplete c i = M.has c i)
    (hz : ∀ c i, KeyOk c i → M.receivedBytes c i = 0)
    (hpre : ∀ c i p, KeyOk c i → img c i = some p → S.get c i <+: p)
    (hheld : ∀ c i, KeyOk c i → S.isComplete c i = true → img c i = some (S.get c i))
    (maxBytes : Nat) (keys : List (Nat × Nat)) (hk : GoodRequest keys) :
    let r := statelessRound img S M maxBytes keys
    r.1 = true ∧
    (∀ c i p, KeyOk c i → img c i = some p → r.2.get c i <+: p) ∧
    (∀ c i, KeyOk c i → r.2.isComplete c i = true → img c i = some (r.2.get c i)) ∧
    (∀ c i, KeyOk c i → S.get c i <+: r.2.get c i ∧ (S.isComplete c i = true → r.2.isComplete c i = true)) := by
  have hready : ∀ k ∈ keys, KeyOk k.1 k.2 ∧ Ready img {} M k.1 k.2 := fun k hkk =>
    ⟨hk.2 k hkk, fun _ p _ => ⟨rfl, List.nil_prefix, hz _ _ (hk.2 k hkk)⟩⟩
  obtain ⟨S1, hI⟩ := emitBins_spec img {} M maxBytes himg keys hready [] (by simp) (by simpa using hk.1) {} {} rfl
    (respInv_init img {} M maxBytes rfl)
  simp only [List.nil_append] at hI
  generalize hst : emitBins img M maxBytes keys {} = st at hI
  generalize hrs : (if st.truncated then kEorByteLimit else kEorWindowDone) = reason
  have hrlt : reason < 256 := by rw [← hrs]; split <;> simp [kEorByteLimit, kEorWindowDone]
  have hround : statelessRound img S M maxBytes keys = (true, S.mergeFrom (S1.setEor reason)) := by
    unfold statelessRound buildResponse parseJppStream
    have := hI.parses (emitEor reason)
    rw [show emitEor reason = emitEor reason ++ [] by simp, messageLoop_eor reason hrlt] at this
    rw [List.append_nil] at this
    simp only [hst, hrs, this, decide_true, if_true]
  rw [hround]
  simp only
  -- entry of the merged store
  have hshape : ∀ c i, KeyOk c i →
      (S.mergeFrom (S1.setEor reason)).entry c i = S.entry c i ∨
      ∃ p n fin, img c i = some p ∧ (S.entry c i).bytes.length ≤ n ∧ M.has c i = false ∧
        (S.mergeFrom (S1.setEor reason)).entry c i = ⟨p.take n, fin⟩ ∧ (fin = true → n = p.length) := by
    intro c i hko
    have hm : (S.mergeFrom (S1.setEor reason)).bins c i =
      match S1.bins c i with
      | none => S.bins c i
      | some o =>
        match S.bins c i with
        | none => some o
        | some e =>
          if o.bytes.length > e.bytes.length then some o
          else if o.isLast ∧ ¬ e.isLast then some { e with isLast := true }
          else some e := rfl
    rcases hI.bins c i hko with hu | ⟨-, hd⟩
    · left
      have hu1 : S1.entry c i = {} := hu.1
      unfold DataBinSet.entry at hu1 ⊢
      rw [hm]
      cases h1 : S1.bins c i with
      | none => rfl
      | some o =>
        rw [h1] at hu1
        simp only [Option.getD_some] at hu1
        subst hu1
        cases S.bins c i <;> simp
    · obtain ⟨p, n, hp, h1, h2, h3, h4, h5, h6, h7⟩ := hd.effect
      have hpS := hpre c i p hko hp
      have hSlast : (S.entry c i).isLast = false := by
        rw [← entry_complete, hc c i hko, hd.notHeld]
      rw [entry_get] at hpS
      cases h1' : S1.bins c i with
      | none =>
        exfalso
        have he : S1.entry c i = {} := by unfold DataBinSet.entry; rw [h1']; rfl
        rw [he] at h3 h5
        rcases h5 with h5 | h5
        · cases h5
        · have := congrArg List.length h3
          rw [List.length_take] at this
          simp only [List.length_nil] at this
          omega
      | some o =>
        have he : S1.entry c i = o := by unfold DataBinSet.entry; rw [h1']; rfl
        rw [he] at h3 h4 h5
        have holen : o.bytes.length = n := by rw [h3]; simp; omega
        rw [h1'] at hm
        simp only at hm
        have hpt := List.prefix_iff_eq_take.1 hpS
        cases hS : S.bins c i with
        | none =>
          right
          rw [hS] at hm
          have heS : S.entry c i = {} := by unfold DataBinSet.entry; rw [hS]; rfl
          refine ⟨p, n, o.isLast, hp, by rw [heS]; simp, hd.notHeld, ?_, h4⟩
          unfold DataBinSet.entry; rw [hm, ← h3]; rfl
        | some e =>
          have heS : S.entry c i = e := by unfold DataBinSet.entry; rw [hS]; rfl
          rw [hS] at hm
          simp only at hm
          rw [heS] at hSlast hpt hpS ⊢
          by_cases hgt : o.bytes.length > e.bytes.length
          · right
            rw [if_pos hgt] at hm
            refine ⟨p, n, o.isLast, hp, by omega, hd.notHeld, ?_, h4⟩
            unfold DataBinSet.entry; rw [hm, ← h3]; rfl
          · rw [if_neg hgt] at hm
            by_cases ho : o.isLast = true
            · right
              rw [if_pos ⟨ho, by simp [hSlast]⟩] at hm
              have hn := h4 ho
              have hle := hpS.length_le
              have heq : e.bytes.length = p.length := by omega
              refine ⟨p, p.length, true, hp, by omega, hd.notHeld, ?_, fun _ => rfl⟩
              unfold DataBinSet.entry; rw [hm]
              rw [hpt, heq]; rfl
            · left
              rw [if_neg (by simp [ho])] at hm
              unfold DataBinSet.entry; rw [hm]; rfl
  refine ⟨trivial, ?_, ?_, ?_⟩
  · intro c i p hko hp
    rw [entry_get]
    rcases hshape c i hko with h | ⟨p', n, fin, hp', h1, h2, h3, h4⟩
    · rw [h, ← entry_get]; exact hpre c i p hko hp
    · rw [hp] at hp'; cases hp'
      rw [h3]; exact List.take_prefix _ _
  · intro c i hko hcm
    rw [entry_complete] at hcm
    rw [entry_get]
    rcases hshape c i hko with h | ⟨p', n, fin, hp', h1, h2, h3, h4⟩
    · rw [h] at hcm ⊢; rw [← entry_get]; rw [← entry_complete] at hcm; exact hheld c i hko hcm
    · rw [h3] at hcm ⊢
      simp only at hcm ⊢
      rw [h4 hcm, List.take_length]; exact hp'
  · intro c i hko
    rw [entry_get, entry_get, entry_complete, entry_complete]
    rcases hshape c i hko with h | ⟨p', n, fin, hp', h1, h2, h3, h4⟩
    · rw [h]; exact ⟨List.prefix_refl _, id⟩
    · refine ⟨?_, fun h => ?_⟩
      · have := List.prefix_iff_eq_take.1 (hpre c i p' hko hp')
        rw [entry_get] at this
        rw [h3, this]
        exact List.take_prefix_take_left h1
      · rw [← entry_complete, hc c i hko, h2] at h; cases h

/-! ### Where the shipped combinations break the property -/

/-- A resumed response (stateful channel, previous response truncated) parsed into a *fresh* store, as the web
wrapper and the demo client do, is rejected: the server resumes mid-bin, the fresh store expects offset 0. -/
theorem C08_resumed_response_rejected_by_fresh_store :
    let r1 := buildResponse demoImage {} 100 demoWindow
    let r2 := buildResponse demoImage (({} : CacheModel).commit r1.2) 100 demoWindow
    (parseJppStream r1.1 {}).1 = true ∧ (parseJppStream r2.1 {}).1 = false := by decide +kernel

/-- Parsing two responses into the same store without resetting it: the end-of-response mark of the first makes
the parser stop after the first message of the second; here the second response carries 4 messages that finish
all bins, and the precinct is left without its data although the call reports success. -/
theorem C08_second_response_into_same_store_is_cut_short :
    let r1 := buildResponse demoImage {} 100 demoWindow
    let s1 := (parseJppStream r1.1 {}).2
    let r2 := buildResponse demoImage (({} : CacheModel).commit r1.2) 5000 demoWindow
    let p2 := parseJppStream r2.1 s1
    p2.1 = true ∧ p2.2.isComplete 0 1 = false ∧
      ((({} : CacheModel).commit r1.2).commit r2.2).has 0 1 = true := by decide +kernel

/-- A window that names the same precinct twice (duplicate component indices in the request) makes the server send
the bin twice; the client rejects the response. -/
theorem C08_duplicate_bins_rejected :
    (parseJppStream (buildResponse demoImage {} 5000 [(0, 1), (0, 1)]).1 {}).1 = false := by decide +kernel

end Verif.Jpip
