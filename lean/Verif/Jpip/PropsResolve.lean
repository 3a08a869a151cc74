import Verif.Jpip.Resolve
import Verif.Jpip.PropsSession
import Verif.Jpip.PropsChannel

/-!
# C87: requests and channels

The specification: `modelOf t c` is what the server believes about the client of channel `c` (nothing if there is no such channel); `Closes` says which channels a request closes.
-/

namespace Verif.Jpip

/-- The model of a channel. -/
def modelOf (t : ChannelTable) (c : List Char) : Option CacheModel := (t.channels.find? (·.cid = c)).map (·.model)

/-- The request closes the channel: its own, or one it names. -/
def Closes (req : ChanReq) (session : Option (List Char)) (c : List Char) : Prop :=
  (req.cclose = some ['*'] ∧ session = some c) ∨ ∃ s, req.cclose = some s ∧ s ≠ ['*'] ∧ c ≠ [] ∧ c ∈ splitCommas s

/-! ### Lemmas -/

/-- The two updates are those of `Verif.Jpip.Channel`. -/
theorem update_is_step (max : Nat) (t : ChannelTable) (c s : List Char) (l : List (Nat × Nat × Nat × Bool)) :
    (chanStep max t (.commit c l)).map (·.1) = some (t.update c (·.commit l)) ∧ (chanStep max t (.applyModel c s)).map (·.1) = some (t.update c (·.apply s)) ∧
      (chanStep max t (.snapshot c)).map (·.1) = some (t.update c id) ∧ (chanStep max t (.close c)).map (·.1) = some (t.shut c) := by
  refine ⟨?_, ?_, ?_, rfl⟩ <;> simp only [chanStep, ChannelTable.update] <;> cases t.channels.find? (·.cid = c) <;> rfl

theorem modelOf_update (t : ChannelTable) (c x : List Char) (f : CacheModel → CacheModel) : modelOf (t.update c f) x = if x = c then (modelOf t x).map f else modelOf t x := by
  have key : ∀ (l : List Channel) clock, ((updChannel l c clock f).find? (·.cid = x)).map (·.model) =
      if x = c then ((l.find? (·.cid = x)).map (·.model)).map f else (l.find? (·.cid = x)).map (·.model) := by
    intro l clock
    induction l with
    | nil => simp [updChannel]
    | cons a l ih =>
      unfold updChannel at ih ⊢
      rw [List.map_cons]
      by_cases ha : a.cid = c
      · by_cases hx : x = c
        · rw [if_pos ha, List.find?_cons_of_pos (by simp [ha, hx]), List.find?_cons_of_pos (by simp [ha, hx]), if_pos hx]
          rfl
        · rw [if_pos ha, List.find?_cons_of_neg (by simp [ha]; exact fun h => hx h.symm), List.find?_cons_of_neg (by simp [ha]; exact fun h => hx h.symm), ih]
      · rw [if_neg ha]
        by_cases hx : a.cid = x
        · have : x ≠ c := fun h => ha (hx.trans h)
          rw [List.find?_cons_of_pos (by simp [hx]), List.find?_cons_of_pos (by simp [hx]), if_neg this]
        · rw [List.find?_cons_of_neg (by simp [hx]), List.find?_cons_of_neg (by simp [hx]), ih]
  unfold ChannelTable.update modelOf
  cases h : t.channels.find? (·.cid = c) with
  | none =>
    simp only
    split_ifs with hx
    · rw [hx, h]; rfl
    · rfl
  | some ch => exact key _ _

theorem find_filter_ne (l : List Channel) (c x : List Char) : (l.filter (·.cid ≠ c)).find? (·.cid = x) = if x = c then none else l.find? (·.cid = x) := by
  induction l with
  | nil => simp
  | cons a l ih =>
    by_cases ha : a.cid = c
    · rw [List.filter_cons_of_neg (by simp [ha]), ih]
      split_ifs with hx
      · rfl
      · rw [List.find?_cons_of_neg (by simp [ha]; exact fun h => hx h.symm)]
    · rw [List.filter_cons_of_pos (by simp [ha])]
      by_cases hx : a.cid = x
      · rw [List.find?_cons_of_pos (by simp [hx]), List.find?_cons_of_pos (by simp [hx]), if_neg (fun h => ha (hx.trans h))]
      · rw [List.find?_cons_of_neg (by simp [hx]), List.find?_cons_of_neg (by simp [hx]), ih]

theorem modelOf_shut (t : ChannelTable) (c x : List Char) : modelOf (t.shut c) x = if x = c then none else modelOf t x := by
  unfold modelOf ChannelTable.shut
  rw [find_filter_ne]
  split_ifs <;> rfl

theorem modelOf_shut_all (l : List (List Char)) (x : List Char) : ∀ t : ChannelTable, modelOf (l.foldl ChannelTable.shut t) x = if x ∈ l then none else modelOf t x := by
  induction l with
  | nil => intro t; simp
  | cons c l ih =>
    intro t
    rw [List.foldl_cons, ih, modelOf_shut]
    by_cases h1 : x ∈ l
    · simp [h1]
    · by_cases h2 : x = c <;> simp [h1, h2]

open Classical in
theorem modelOf_close (req : ChanReq) (session : Option (List Char)) (t : ChannelTable) (x : List Char) :
    modelOf (closeChannels req session t) x = if Closes req session x then none else modelOf t x := by
  unfold closeChannels Closes
  cases hc : req.cclose with
  | none => simp
  | some s =>
    simp only
    by_cases hs : s = ['*']
    · rw [if_pos hs]
      subst hs
      cases session with
      | none => simp
      | some c =>
        simp only
        rw [modelOf_shut]
        by_cases hx : x = c
        · subst hx; simp
        · have : c ≠ x := fun h => hx h.symm
          simp [hx, this]
    · rw [if_neg hs, modelOf_shut_all]
      by_cases hx : x ≠ [] ∧ x ∈ splitCommas s
      · rw [if_pos (by simp [hx.1, hx.2]), if_pos (Or.inr ⟨s, rfl, hs, hx⟩)]
      · rw [if_neg (by simp only [List.mem_filter]; intro h; exact hx ⟨by simpa using h.2, h.1⟩), if_neg]
        rintro (⟨h, -⟩ | ⟨s', h, -, h3⟩)
        · exact hs (Option.some.inj h)
        · cases h
          exact hx h3

/-- What opening a channel does to the models. -/
theorem modelOf_open {max : Nat} {t t' : ChannelTable} {c : List Char} (h : openChannel max t = some (t', c)) :
    c = cidOf t.nextCid ∧ ∃ victim : Option (List Char), (t.channels.length < max → victim = none) ∧ ∀ x, modelOf t' x = if x = c then some {} else if some x = victim then none else modelOf t x := by
  unfold openChannel at h
  simp only at h
  have add : ∀ (chs : List Channel) (x : List Char), ((⟨cidOf t.nextCid, {}, tick t⟩ :: chs.filter (·.cid ≠ cidOf t.nextCid)).find? (·.cid = x)).map (·.model) =
      if x = cidOf t.nextCid then some {} else (chs.find? (·.cid = x)).map (·.model) := by
    intro chs x
    by_cases hx : x = cidOf t.nextCid
    · rw [List.find?_cons_of_pos (by simp [hx]), if_pos hx]
      rfl
    · rw [List.find?_cons_of_neg (by simp; exact fun h => hx h.symm), find_filter_ne, if_neg hx, if_neg hx]
  split_ifs at h with hm
  · split at h
    · cases h
    · rename_i a cs heq
      simp only [Option.some.injEq, Prod.mk.injEq] at h
      obtain ⟨rfl, rfl⟩ := h
      refine ⟨rfl, some (scanVictim a (a :: cs)).cid, fun hl => absurd hm (by omega), fun x => ?_⟩
      unfold modelOf
      simp only
      rw [add, find_filter_ne]
      simp only [Option.some.injEq]
      split_ifs <;> rfl
  · simp only [Option.some.injEq, Prod.mk.injEq] at h
    obtain ⟨rfl, rfl⟩ := h
    refine ⟨rfl, none, fun _ => rfl, fun x => ?_⟩
    unfold modelOf
    simp only
    rw [add]
    simp

/-! ### Requests -/

/-- **C87.** A request on a channel that does not exist is answered 404 and changes nothing. -/
theorem C87_unknown_channel (max : Nat) (answer : CacheModel → List (Nat × Nat × Nat × Bool)) (req : ChanReq) (t : ChannelTable) (c : List Char) (hc : req.cid = some c) (hn : modelOf t c = none) :
    serveRequest max answer req t = some (t, none) := by
  unfold modelOf at hn
  rw [Option.map_eq_none_iff] at hn
  unfold serveRequest
  rw [hc]
  simp only [hn]

open Classical in
/-- **C87.** A request on a channel is served from that channel's model, changed as the request says; afterwards the channel has that model and what was sent.  No other channel changes, and
exactly the channels the request closes are gone. -/
theorem C87_known_channel (max : Nat) (answer : CacheModel → List (Nat × Nat × Nat × Bool)) (req : ChanReq) (t : ChannelTable) (c : List Char) (m : CacheModel) (hc : req.cid = some c)
    (hm : modelOf t c = some m) :
    ∃ t' m', serveRequest max answer req t = some (t', some (some c, m')) ∧ m' = (if req.model = [] then m else m.apply req.model) ∧
      ∀ x, modelOf t' x = if Closes req (some c) x then none else if x = c then some (m'.commit (answer m')) else modelOf t x := by
  have hm0 := hm
  unfold modelOf at hm
  obtain ⟨ch, h1, rfl⟩ := Option.map_eq_some_iff.1 hm
  refine ⟨_, if req.model = [] then ch.model else ch.model.apply req.model, by unfold serveRequest; rw [hc]; simp only [h1]; rfl, rfl, fun x => ?_⟩
  unfold afterResponse
  rw [modelOf_close]
  split_ifs with a b d d <;> first | rfl | skip
  all_goals simp only [modelOf_update]
  all_goals simp [d]
  all_goals subst d
  all_goals rw [hm0]
  all_goals exact ⟨_, rfl, rfl⟩

open Classical in
/-- **C87.** A request that asks for a channel and can have one (it offers the transport `http`) gets a new one: it is served from the model it sends, and the new channel has that and what
was sent.  At most one other channel goes, and only when there is no more room; no channel changes. -/
theorem C87_new_channel (max : Nat) (hmax : 1 ≤ max) (answer : CacheModel → List (Nat × Nat × Nat × Bool)) (req : ChanReq) (t : ChannelTable) (hc : req.cid = none)
    (hn : (req.cnew.bind negotiateTransport).isSome) :
    ∃ t' m' victim, serveRequest max answer req t = some (t', some (some (cidOf t.nextCid), m')) ∧ m' = (if req.model = [] then {} else CacheModel.parse req.model) ∧
      (t.channels.length < max → victim = none) ∧
      ∀ x, modelOf t' x = if Closes req (some (cidOf t.nextCid)) x then none else if x = cidOf t.nextCid then some (m'.commit (answer m')) else if some x = victim then none else modelOf t x := by
  obtain ⟨tr, htr⟩ := Option.isSome_iff_exists.1 hn
  obtain ⟨⟨t1, c⟩, ho⟩ : ∃ y, openChannel max t = some y := by
    unfold openChannel
    simp only
    split_ifs with h
    · cases hl : t.channels with
      | nil => rw [hl] at h; simp at h; omega
      | cons a l => exact ⟨_, rfl⟩
    · exact ⟨_, rfl⟩
  obtain ⟨rfl, victim, hv, hx⟩ := modelOf_open ho
  refine ⟨_, if req.model = [] then {} else CacheModel.parse req.model, victim, by unfold serveRequest; rw [hc]; simp only [htr, ho]; rfl, rfl, hv, fun x => ?_⟩
  unfold afterResponse
  rw [modelOf_close]
  by_cases a : Closes req (some (cidOf t.nextCid)) x
  · rw [if_pos a, if_pos a]
  · rw [if_neg a, if_neg a]
    simp only [modelOf_update]
    by_cases d : x = cidOf t.nextCid
    · subst d
      by_cases e : req.model = []
      · simp [e, hx]
      · simp [e, hx, modelOf_update, CacheModel.parse]
    · by_cases e : req.model = []
      · simp [e, hx, d]
      · simp [e, hx, d, modelOf_update]

open Classical in
/-- **C87.** Any other request is served from the model it sends, and changes no channel but those it closes. -/
theorem C87_stateless (max : Nat) (answer : CacheModel → List (Nat × Nat × Nat × Bool)) (req : ChanReq) (t : ChannelTable) (hc : req.cid = none) (hn : req.cnew.bind negotiateTransport = none) :
    ∃ t', serveRequest max answer req t = some (t', some (none, if req.model = [] then {} else CacheModel.parse req.model)) ∧
      ∀ x, modelOf t' x = if Closes req none x then none else modelOf t x := by
  refine ⟨_, by unfold serveRequest; rw [hc]; simp only [hn]; rfl, fun x => ?_⟩
  unfold afterResponse
  rw [modelOf_close]

/-- **C87.** A list of channels in `cclose` closes exactly these. -/
theorem C87_close_list (req : ChanReq) (session : Option (List Char)) (names : List (List Char)) (hne : names ≠ []) (hn : ∀ c ∈ names, c ≠ [] ∧ ',' ∉ c) (hs : joinCommas names ≠ ['*'])
    (hc : req.cclose = some (joinCommas names)) (x : List Char) : Closes req session x ↔ x ∈ names := by
  unfold Closes
  rw [hc]
  constructor
  · rintro (⟨h, -⟩ | ⟨s, h, -, -, h4⟩)
    · exact absurd (Option.some.inj h) hs
    · cases h
      rwa [splitCommas_join names hne fun t ht => (hn t ht).2] at h4
  · intro h
    exact Or.inr ⟨_, rfl, hs, (hn x h).1, by rwa [splitCommas_join names hne fun t ht => (hn t ht).2]⟩

/-- **C87.** Sessions of several channels do not disturb each other: if the server's model of a channel agrees with its client, it still does after a request on that channel (with the
response of C08, and without a change of the model), and after a request on any other channel. -/
theorem C87_sessions (max : Nat) (img : Image) (himg : GoodImage img) (S : DataBinSet) (maxBytes : Nat) (keys : List (Nat × Nat)) (hk : GoodRequest keys) (req : ChanReq) (t : ChannelTable)
    (c d : List Char) (m : CacheModel) (hd : modelOf t d = some m) (hS : InSync img S m) (hc : req.cid = some c) (hlive : (modelOf t c).isSome) (hcl : req.cclose = none) (hmod : req.model = []) :
    ∃ t' m' y, serveRequest max (fun m => (buildResponse img m maxBytes keys).2) req t = some (t', some y) ∧ modelOf t' d = some m' ∧
      InSync img (if d = c then (sessionRound img S m maxBytes keys).2.1 else S) m' := by
  obtain ⟨mc, hmc⟩ := Option.isSome_iff_exists.1 hlive
  obtain ⟨t', m', h1, h2, h3⟩ := C87_known_channel max (fun m => (buildResponse img m maxBytes keys).2) req t c mc hc hmc
  rw [if_pos hmod] at h2
  subst h2
  have hno : ¬ Closes req (some c) d := by
    unfold Closes
    rw [hcl]
    simp
  have hd' := h3 d
  rw [if_neg hno] at hd'
  by_cases e : d = c
  · rw [if_pos e] at hd'
    subst e
    rw [hd] at hmc
    cases hmc
    refine ⟨t', _, _, h1, hd', ?_⟩
    rw [if_pos rfl]
    exact (C08_round img himg S m hS maxBytes keys hk).sync
  · rw [if_neg e, hd] at hd'
    refine ⟨t', _, _, h1, hd', ?_⟩
    rw [if_neg e]
    exact hS

/-- Clients and the server: a request is answered; the client of the channel takes the response into what it has (a new channel begins with nothing).  Nothing is returned if the client rejects
the response. -/
def worldStep (img : Image) (max : Nat) (w : ChannelTable × (List Char → DataBinSet)) (e : ChanReq × Nat × List (Nat × Nat)) : Option (ChannelTable × (List Char → DataBinSet)) :=
  match serveRequest max (fun m => (buildResponse img m e.2.1 e.2.2).2) e.1 w.1 with
  | none => none
  | some (t, none) => some (t, w.2)
  | some (t, some (none, m)) => if (sessionRound img {} m e.2.1 e.2.2).1 then some (t, w.2) else none
  | some (t, some (some c, m)) =>
    let r := sessionRound img (if e.1.cid = none then {} else w.2 c) m e.2.1 e.2.2
    if r.1 then some (t, fun x => if x = c then r.2.1 else w.2 x) else none

theorem worldStep_sync (img : Image) (himg : GoodImage img) (max : Nat) (hmax : 1 ≤ max) (t : ChannelTable) (client : List Char → DataBinSet) (e : ChanReq × Nat × List (Nat × Nat))
    (hm : e.1.model = []) (hk : GoodRequest e.2.2) (h : ∀ d m, modelOf t d = some m → InSync img (client d) m) :
    ∃ t' client', worldStep img max (t, client) e = some (t', client') ∧ ∀ d m, modelOf t' d = some m → InSync img (client' d) m := by
  obtain ⟨req, maxBytes, keys⟩ := e
  simp only at hm hk
  unfold worldStep
  simp only
  cases hc : req.cid with
  | some c =>
    cases hmc : modelOf t c with
    | none =>
      rw [C87_unknown_channel max _ req t c hc hmc]
      exact ⟨t, client, rfl, h⟩
    | some m0 =>
      obtain ⟨t', m', h1, h2, h3⟩ := C87_known_channel max (fun m => (buildResponse img m maxBytes keys).2) req t c m0 hc hmc
      rw [if_pos hm] at h2
      subst h2
      have hr := C08_round img himg (client c) m' (h c m' hmc) maxBytes keys hk
      rw [h1]
      simp only [reduceCtorEq, if_false]
      rw [if_pos hr.accepted]
      refine ⟨_, _, rfl, fun d m hd => ?_⟩
      rw [h3 d] at hd
      by_cases a : Closes req (some c) d
      · rw [if_pos a] at hd; cases hd
      · rw [if_neg a] at hd
        by_cases b : d = c
        · rw [if_pos b] at hd
          cases hd
          simp only [if_pos b]
          exact hr.sync
        · rw [if_neg b] at hd
          simp only [if_neg b]
          exact h d m hd
  | none =>
    have hr := C08_round img himg {} {} (inSync_empty img) maxBytes keys hk
    cases hn : req.cnew.bind negotiateTransport with
    | none =>
      obtain ⟨t', h1, h2⟩ := C87_stateless max (fun m => (buildResponse img m maxBytes keys).2) req t hc hn
      rw [if_pos hm] at h1
      rw [h1]
      simp only
      rw [if_pos hr.accepted]
      refine ⟨_, _, rfl, fun d m hd => ?_⟩
      rw [h2 d] at hd
      by_cases a : Closes req none d
      · rw [if_pos a] at hd; cases hd
      · rw [if_neg a] at hd
        exact h d m hd
    | some tr =>
      obtain ⟨t', m', victim, h1, h2, -, h3⟩ := C87_new_channel max hmax (fun m => (buildResponse img m maxBytes keys).2) req t hc (by rw [hn]; rfl)
      rw [if_pos hm] at h2
      subst h2
      rw [h1]
      simp only [if_true]
      rw [if_pos hr.accepted]
      refine ⟨_, _, rfl, fun d m hd => ?_⟩
      rw [h3 d] at hd
      by_cases a : Closes req (some (cidOf t.nextCid)) d
      · rw [if_pos a] at hd; cases hd
      · rw [if_neg a] at hd
        by_cases b : d = cidOf t.nextCid
        · rw [if_pos b] at hd
          cases hd
          simp only [if_pos b]
          exact hr.sync
        · rw [if_neg b] at hd
          simp only [if_neg b]
          by_cases v : some d = victim
          · rw [if_pos v] at hd; cases hd
          · rw [if_neg v] at hd
            exact h d m hd

/-- **C87.** From the start of the server on, after any requests of any clients (on channels, for new channels, without channels, on closed channels, closing channels, with channels pushed out
by new ones), every response has been accepted by its client, and the server's model of every open channel agrees with its client. -/
theorem C87_world (img : Image) (himg : GoodImage img) (max : Nat) (hmax : 1 ≤ max) (client : List Char → DataBinSet) (events : List (ChanReq × Nat × List (Nat × Nat)))
    (hev : ∀ e ∈ events, e.1.model = [] ∧ GoodRequest e.2.2) :
    ∃ t client', events.foldlM (worldStep img max) ({}, client) = some (t, client') ∧ ∀ d m, modelOf t d = some m → InSync img (client' d) m := by
  have key : ∀ (events : List (ChanReq × Nat × List (Nat × Nat))) (t : ChannelTable) (client : List Char → DataBinSet), (∀ e ∈ events, e.1.model = [] ∧ GoodRequest e.2.2) →
      (∀ d m, modelOf t d = some m → InSync img (client d) m) →
      ∃ t' client', events.foldlM (worldStep img max) (t, client) = some (t', client') ∧ ∀ d m, modelOf t' d = some m → InSync img (client' d) m := by
    intro events
    induction events with
    | nil => intro t client _ h; exact ⟨t, client, rfl, h⟩
    | cons e events ih =>
      intro t client hev h
      obtain ⟨t1, c1, h1, h2⟩ := worldStep_sync img himg max hmax t client e (hev e (by simp)).1 (hev e (by simp)).2 h
      obtain ⟨t2, c2, h3, h4⟩ := ih t1 c1 (fun e he => hev e (List.mem_cons_of_mem _ he)) h2
      exact ⟨t2, c2, by rw [List.foldlM_cons, h1]; exact h3, h4⟩
  exact key events {} client hev (fun d m hd => by simp [modelOf] at hd)

/-- Non-vacuity: with room for one channel, the second client pushes out the first; the first is refused. -/
example : let e : List (ChanReq × Nat × List (Nat × Nat)) :=
      [({ cnew := some "http".toList }, 100, demoWindow), ({ cid := some (cidOf 1) }, 100, demoWindow), ({ cnew := some "http".toList }, 5000, demoWindow), ({ cid := some (cidOf 1) }, 100, demoWindow)]
    ((e.foldlM (worldStep demoImage 1) ({}, fun _ => {})).map fun w =>
      (w.1.channels.map (·.cid), (w.2 (cidOf 2)).eor, (w.2 (cidOf 1)).eor)) = some ([cidOf 2], some 2, some 4) := by
  decide +kernel

/-- Non-vacuity: two channels are opened, a request on the first is served, both are closed by name, and a request on the second is then refused. -/
example : let ans : CacheModel → List (Nat × Nat × Nat × Bool) := fun _ => [(0, 3, 10, true)]
    let go := fun (t : Option ChannelTable) (r : ChanReq) => t.bind fun t => serveRequest 4 ans r t
    let a := go (some {}) { cnew := some "http-tcp,http".toList }
    let b := go (a.map (·.1)) { cnew := some "http".toList }
    let c := go (b.map (·.1)) { cid := some (cidOf 1), cclose := some (joinCommas [cidOf 1, cidOf 2]) }
    let d := go (c.map (·.1)) { cid := some (cidOf 2) }
    (a.bind (·.2)).bind (·.1) = some (cidOf 1) ∧ (b.bind (·.2)).bind (·.1) = some (cidOf 2) ∧ (b.map (·.1.channels.length)) = some 2 ∧
      ((c.bind (·.2)).map fun y => (y.2.bins (cacheKey 0 3)).isSome) = some true ∧ (c.map (·.1.channels.length)) = some 0 ∧ (d.map (·.2.isSome)) = some false := by
  decide +kernel

end Verif.Jpip
