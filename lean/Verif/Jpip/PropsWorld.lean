import Verif.Jpip.PropsResolve
import Verif.Jpip.PropsDropped

/-!
# C89: channels over connections that are dropped

The runs of C87 with the responses in chunks of C86: each response may stop after any number of messages, or before its
head (then main.cpp:477 returns without recording or closing anything); what was sent before the failure arrives.
-/

namespace Verif.Jpip

/-- A request, the limit, the window, and how many messages the connection carries; `head` says that it carries the head of the response. -/
structure NetEvent where
  req : ChanReq
  maxBytes : Nat
  keys : List (Nat × Nat)
  room : Nat
  head : Bool := true

/-- main.cpp:435-522 with the client: what the client of a channel has after the response, or after the part of it that was sent, is what its parser makes of it; nothing is returned if the parser
rejects it. -/
def dropStep (img : Image) (max : Nat) (w : ChannelTable × (List Char → DataBinSet)) (e : NetEvent) : Option (ChannelTable × (List Char → DataBinSet)) :=
  let sent := fun m : CacheModel => emitSink img m e.maxBytes e.keys e.room {}
  if e.head = false then
    match resolveRequest max e.req w.1 with
    | none => none
    | some (t, some (some c, _)) => some (t, fun x => if x = c ∧ e.req.cid = none then {} else w.2 x)
    | some (t, _) => some (t, w.2)
  else match serveRequest max (fun m => (sent m).1.sentBins) e.req w.1 with
  | none => none
  | some (t, none) => some (t, w.2)
  | some (t, some (none, _)) => some (t, w.2)
  | some (t, some (some c, m)) =>
    let held : DataBinSet := if e.req.cid = none then {} else w.2 c
    let r := if (sent m).2 then parseJppStream (sent m).1.body (({} : DataBinSet).mergeFrom held) else parseJppStream (buildResponse img m e.maxBytes e.keys).1 (({} : DataBinSet).mergeFrom held)
    if r.1 then some (t, fun x => if x = c then r.2 else w.2 x) else none

/-! ### Lemmas -/

/-- What the client holds after a response that may have been dropped. -/
theorem drop_round (img : Image) (himg : GoodImage img) (S : DataBinSet) (M : CacheModel) (hS : InSync img S M) (maxBytes : Nat) (keys : List (Nat × Nat)) (hk : GoodRequest keys) (room : Nat) :
    let sent := emitSink img M maxBytes keys room {}
    let r := if sent.2 then parseJppStream sent.1.body (({} : DataBinSet).mergeFrom S) else parseJppStream (buildResponse img M maxBytes keys).1 (({} : DataBinSet).mergeFrom S)
    r.1 = true ∧ InSync img r.2 (M.commit sent.1.sentBins) := by
  obtain ⟨h1, h2⟩ := C86_chunked_drop img himg S M hS maxBytes keys hk room
  simp only
  cases hs : (emitSink img M maxBytes keys room {}).2 with
  | true =>
    rw [if_pos rfl]
    exact h1 hs
  | false =>
    rw [if_neg (by simp)]
    have hr := C08_round img himg S M hS maxBytes keys hk
    have h3 := (h2 hs).1
    unfold chunkedCommit at h3
    rw [h3]
    exact ⟨hr.accepted, hr.sync⟩

/-- `serveRequest` does what `resolveRequest` does, and then what follows the response. -/
theorem serve_resolve (max : Nat) (answer : CacheModel → List (Nat × Nat × Nat × Bool)) (req : ChanReq) (t : ChannelTable) :
    serveRequest max answer req t = (resolveRequest max req t).map fun r => match r.2 with
      | none => (r.1, none)
      | some (s, m) => (afterResponse answer req s m r.1, some (s, m)) := by
  unfold serveRequest resolveRequest
  cases req.cid with
  | some c =>
    simp only
    cases t.channels.find? (·.cid = c) <;> rfl
  | none =>
    simp only
    cases req.cnew.bind negotiateTransport with
    | none => rfl
    | some tr =>
      simp only
      cases openChannel max t <;> rfl

theorem lost_sync (img : Image) (max : Nat) (hmax : 1 ≤ max) (t : ChannelTable) (client : List Char → DataBinSet) (req : ChanReq) (hm : req.model = [])
    (h : ∀ d m, modelOf t d = some m → InSync img (client d) m) :
    ∃ t' client', (match resolveRequest max req t with
      | none => none
      | some (t, some (some c, _)) => some (t, fun x => if x = c ∧ req.cid = none then {} else client x)
      | some (t, _) => some (t, client)) = some (t', client') ∧ ∀ d m, modelOf t' d = some m → InSync img (client' d) m := by
  unfold resolveRequest
  cases hc : req.cid with
  | some c =>
    simp only
    cases hf : t.channels.find? (·.cid = c) with
    | none => exact ⟨t, client, rfl, h⟩
    | some ch =>
      simp only [if_pos hm, reduceCtorEq, and_false, if_false]
      refine ⟨_, _, rfl, fun d m hd => h d m ?_⟩
      rw [modelOf_update] at hd
      simpa using hd
  | none =>
    simp only
    cases hn : req.cnew.bind negotiateTransport with
    | none => exact ⟨t, client, rfl, h⟩
    | some tr =>
      obtain ⟨⟨t1, c⟩, ho⟩ : ∃ y, openChannel max t = some y := by
        unfold openChannel
        simp only
        split_ifs with h
        · cases hl : t.channels with
          | nil => rw [hl] at h; simp at h; omega
          | cons a l => exact ⟨_, rfl⟩
        · exact ⟨_, rfl⟩
      obtain ⟨-, victim, -, hx⟩ := modelOf_open ho
      simp only [ho, if_pos hm, Option.bind_eq_bind, Option.bind_some, and_true]
      refine ⟨_, _, rfl, fun d m hd => ?_⟩
      rw [hx d] at hd
      by_cases b : d = c
      · rw [if_pos b] at hd
        cases hd
        simp only [if_pos b]
        exact inSync_empty img
      · rw [if_neg b] at hd
        simp only [if_neg b]
        by_cases v : some d = victim
        · rw [if_pos v] at hd; cases hd
        · rw [if_neg v] at hd
          exact h d m hd

theorem dropStep_sync (img : Image) (himg : GoodImage img) (max : Nat) (hmax : 1 ≤ max) (t : ChannelTable) (client : List Char → DataBinSet) (e : NetEvent)
    (hm : e.req.model = []) (hk : GoodRequest e.keys) (h : ∀ d m, modelOf t d = some m → InSync img (client d) m) :
    ∃ t' client', dropStep img max (t, client) e = some (t', client') ∧ ∀ d m, modelOf t' d = some m → InSync img (client' d) m := by
  obtain ⟨req, maxBytes, keys, room, head⟩ := e
  simp only at hm hk
  unfold dropStep
  simp only
  cases head with
  | false =>
    rw [if_pos rfl]
    exact lost_sync img max hmax t client req hm h
  | true =>
  rw [if_neg (by simp)]
  cases hc : req.cid with
  | some c =>
    cases hmc : modelOf t c with
    | none =>
      rw [C87_unknown_channel max _ req t c hc hmc]
      exact ⟨t, client, rfl, h⟩
    | some m0 =>
      obtain ⟨t', m', h1, h2, h3⟩ := C87_known_channel max (fun m => (emitSink img m maxBytes keys room {}).1.sentBins) req t c m0 hc hmc
      rw [if_pos hm] at h2
      subst h2
      have hr := drop_round img himg (client c) m' (h c m' hmc) maxBytes keys hk room
      simp only at hr
      rw [h1]
      simp only [reduceCtorEq, if_false]
      rw [if_pos hr.1]
      refine ⟨_, _, rfl, fun d m hd => ?_⟩
      rw [h3 d] at hd
      by_cases a : Closes req (some c) d
      · rw [if_pos a] at hd; cases hd
      · rw [if_neg a] at hd
        by_cases b : d = c
        · rw [if_pos b] at hd
          cases hd
          simp only [if_pos b]
          exact hr.2
        · rw [if_neg b] at hd
          simp only [if_neg b]
          exact h d m hd
  | none =>
    cases hn : req.cnew.bind negotiateTransport with
    | none =>
      obtain ⟨t', h1, h2⟩ := C87_stateless max (fun m => (emitSink img m maxBytes keys room {}).1.sentBins) req t hc hn
      rw [h1]
      refine ⟨_, _, rfl, fun d m hd => ?_⟩
      rw [h2 d] at hd
      by_cases a : Closes req none d
      · rw [if_pos a] at hd; cases hd
      · rw [if_neg a] at hd
        exact h d m hd
    | some tr =>
      obtain ⟨t', m', victim, h1, h2, -, h3⟩ := C87_new_channel max hmax (fun m => (emitSink img m maxBytes keys room {}).1.sentBins) req t hc (by rw [hn]; rfl)
      rw [if_pos hm] at h2
      subst h2
      have hr := drop_round img himg {} {} (inSync_empty img) maxBytes keys hk room
      simp only at hr
      rw [h1]
      simp only [if_true]
      rw [if_pos hr.1]
      refine ⟨_, _, rfl, fun d m hd => ?_⟩
      rw [h3 d] at hd
      by_cases a : Closes req (some (cidOf t.nextCid)) d
      · rw [if_pos a] at hd; cases hd
      · rw [if_neg a] at hd
        by_cases b : d = cidOf t.nextCid
        · rw [if_pos b] at hd
          cases hd
          simp only [if_pos b]
          exact hr.2
        · rw [if_neg b] at hd
          simp only [if_neg b]
          by_cases v : some d = victim
          · rw [if_pos v] at hd; cases hd
          · rw [if_neg v] at hd
            exact h d m hd

/-! ### The property -/

/-- **C89.** From the start of the server on, after any requests of any clients over connections that are dropped anywhere between two messages or before the head, every client has accepted what it got, and the
server's model of every open channel agrees with its client. -/
theorem C89_world (img : Image) (himg : GoodImage img) (max : Nat) (hmax : 1 ≤ max) (client : List Char → DataBinSet) (events : List NetEvent)
    (hev : ∀ e ∈ events, e.req.model = [] ∧ GoodRequest e.keys) :
    ∃ t client', events.foldlM (dropStep img max) ({}, client) = some (t, client') ∧ ∀ d m, modelOf t d = some m → InSync img (client' d) m := by
  have key : ∀ (events : List NetEvent) (t : ChannelTable) (client : List Char → DataBinSet), (∀ e ∈ events, e.req.model = [] ∧ GoodRequest e.keys) →
      (∀ d m, modelOf t d = some m → InSync img (client d) m) →
      ∃ t' client', events.foldlM (dropStep img max) (t, client) = some (t', client') ∧ ∀ d m, modelOf t' d = some m → InSync img (client' d) m := by
    intro events
    induction events with
    | nil => intro t client _ h; exact ⟨t, client, rfl, h⟩
    | cons e events ih =>
      intro t client hev h
      obtain ⟨t1, c1, h1, h2⟩ := dropStep_sync img himg max hmax t client e (hev e (by simp)).1 (hev e (by simp)).2 h
      obtain ⟨t2, c2, h3, h4⟩ := ih t1 c1 (fun e he => hev e (List.mem_cons_of_mem _ he)) h2
      exact ⟨t2, c2, by rw [List.foldlM_cons, h1]; exact h3, h4⟩
  exact key events {} client hev (fun d m hd => by simp [modelOf] at hd)

/-- **C89.** After any such run, a client whose channel is still open gets, with one response that is neither cut by the limit nor dropped, all of its window. -/
theorem C89_recovers (img : Image) (himg : GoodImage img) (max : Nat) (hmax : 1 ≤ max) (client : List Char → DataBinSet) (events : List NetEvent)
    (hev : ∀ e ∈ events, e.req.model = [] ∧ GoodRequest e.keys) (keys : List (Nat × Nat)) (hk : GoodRequest keys) (maxBytes : Nat) :
    ∃ t client', events.foldlM (dropStep img max) ({}, client) = some (t, client') ∧ ∀ d m, modelOf t d = some m →
      (sessionRound img (client' d) m maxBytes keys).1 = true ∧
      ((sessionRound img (client' d) m maxBytes keys).2.1.eor = some 2 → ∀ k ∈ keys, ∀ p, img k.1 k.2 = some p →
        (sessionRound img (client' d) m maxBytes keys).2.1.isComplete k.1 k.2 = true ∧ (sessionRound img (client' d) m maxBytes keys).2.1.get k.1 k.2 = p) := by
  obtain ⟨t, c, h1, h2⟩ := C89_world img himg max hmax client events hev
  refine ⟨t, c, h1, fun d m hd => ?_⟩
  have hr := C08_round img himg (c d) m (h2 d m hd) maxBytes keys hk
  exact ⟨hr.accepted, hr.done⟩

/-- **C89.** That what was sent arrives is needed: `send` succeeds when the system has taken the bytes.  If it has taken a whole response, and the connection then breaks before the client has a
bin of it, no later response on the channel has that bin, whatever is asked. -/
theorem C89_lost_in_flight (img : Image) (himg : GoodImage img) (S : DataBinSet) (M : CacheModel) (hS : InSync img S M) (maxBytes : Nat) (keys : List (Nat × Nat)) (hk : GoodRequest keys) (room : Nat)
    (hsent : (emitSink img M maxBytes keys room {}).2 = false) (hdone : (emitBins img M maxBytes keys {}).truncated = false) (k : Nat × Nat) (hkk : k ∈ keys) (p : List UInt8)
    (hp : img k.1 k.2 = some p) (rounds : List (Nat × List (Nat × Nat))) (maxBytes' : Nat) (keys' : List (Nat × Nat)) :
    buildResponse img (rounds.foldl (fun M r => bufferedCommit img M r.1 r.2) (chunkedCommit img M maxBytes keys room)) maxBytes' keys' =
      buildResponse img (rounds.foldl (fun M r => bufferedCommit img M r.1 r.2) (chunkedCommit img M maxBytes keys room)) maxBytes' (keys'.filter (· ≠ k)) := by
  have h : chunkedCommit img M maxBytes keys room = bufferedCommit img M maxBytes keys := ((C86_chunked_drop img himg S M hS maxBytes keys hk room).2 hsent).1
  rw [h]
  exact C86_buffered_drop img himg S M hS maxBytes keys hk hdone k hkk p hp rounds maxBytes' keys'

/-- Non-vacuity: such a response, with the bin (0, 1). -/
example : (emitSink demoImage {} 5000 demoWindow 100 {}).2 = false ∧ (emitBins demoImage {} 5000 demoWindow {}).truncated = false ∧ (0, 1) ∈ demoWindow ∧
    (demoImage 0 1).isSome = true := by
  decide +kernel

/-- Non-vacuity: a channel is opened and the connection dropped after two messages, then before the head, again after one, and then not: the client has everything (the demo image has no bin of class 8). -/
example : let e : List NetEvent :=
      [⟨{ cnew := some "http".toList }, 5000, demoWindow, 2, true⟩, ⟨{ cid := some (cidOf 1) }, 5000, demoWindow, 7, false⟩, ⟨{ cid := some (cidOf 1) }, 5000, demoWindow, 1, true⟩, ⟨{ cid := some (cidOf 1) }, 5000, demoWindow, 100, true⟩]
    (((e.take 3).foldlM (dropStep demoImage 4) ({}, fun _ => {})).map fun w => ((w.2 (cidOf 1)).eor, (demoWindow.map fun k => (w.2 (cidOf 1)).isComplete k.1 k.2))) =
        some (none, [false, true, true, true, false]) ∧
      ((e.foldlM (dropStep demoImage 4) ({}, fun _ => {})).map fun w => ((w.2 (cidOf 1)).eor, (demoWindow.map fun k => (w.2 (cidOf 1)).isComplete k.1 k.2))) =
        some (some 2, [false, true, true, true, true]) := by
  decide +kernel

end Verif.Jpip
