import Verif.Jpip.Channel

/-!
# The channel of a request

Models source/apps/jpip_server/main.cpp:435-461 (which model a request is served from) and 506-522 (what is recorded and closed afterwards), on the channel table of
`Verif.Jpip.Channel`.  The response is a parameter: the bins sent, as a function of the model it is built from.  The server handles one connection after the other
(main.cpp:685-694), so a request is one step.
-/

namespace Verif.Jpip

/-- jpip_request.hpp: the fields of a request that matter for channels; an absent field is `none`, an absent model is empty. -/
structure ChanReq where
  cid : Option (List Char) := none
  cnew : Option (List Char) := none
  cclose : Option (List Char) := none
  model : List Char := []

/-- What one call of `commit` or `apply_model` does (channel_manager.cpp:50-71). -/
def ChannelTable.update (t : ChannelTable) (cid : List Char) (f : CacheModel → CacheModel) : ChannelTable :=
  match t.channels.find? (·.cid = cid) with
  | none => t
  | some _ => { t with channels := updChannel t.channels cid (tick t) f, useClock := tick t }

/-- What one call of `close` does (channel_manager.cpp:73-76). -/
def ChannelTable.shut (t : ChannelTable) (cid : List Char) : ChannelTable := { t with channels := t.channels.filter (·.cid ≠ cid) }

/-- main.cpp:508-522: `cclose`. -/
def closeChannels (req : ChanReq) (session : Option (List Char)) (t : ChannelTable) : ChannelTable :=
  match req.cclose with
  | none => t
  | some s =>
    if s = ['*'] then
      match session with
      | none => t
      | some c => t.shut c
    else ((splitCommas s).filter (· ≠ [])).foldl ChannelTable.shut t

/-- main.cpp:506-522: after the response. -/
def afterResponse (answer : CacheModel → List (Nat × Nat × Nat × Bool)) (req : ChanReq) (session : Option (List Char)) (m : CacheModel) (t : ChannelTable) : ChannelTable :=
  closeChannels req session (match session with
    | none => t
    | some c => t.update c (·.commit (answer m)))

/-- main.cpp:435-461 and 506-522: the table afterwards, and the channel (if any) and the model the request is served from, or nothing for the answer 404.  `none` is undefined behaviour
(`open` with no room for channels at all).  The code writes the empty string for "no channel"; no open channel has that name (`cidOf`). -/
def serveRequest (max : Nat) (answer : CacheModel → List (Nat × Nat × Nat × Bool)) (req : ChanReq) (t : ChannelTable) :
    Option (ChannelTable × Option (Option (List Char) × CacheModel)) :=
  match req.cid with
  | some c =>
    match t.channels.find? (·.cid = c) with
    | none => some (t, none)
    | some ch =>
      let t1 := t.update c id
      let t2 := if req.model = [] then t1 else t1.update c (·.apply req.model)
      let m := if req.model = [] then ch.model else ch.model.apply req.model
      some (afterResponse answer req (some c) m t2, some (some c, m))
  | none =>
    let m := if req.model = [] then {} else CacheModel.parse req.model
    match req.cnew.bind negotiateTransport with
    | none => some (afterResponse answer req none m t, some (none, m))
    | some _ => do
      let (t1, c) ← openChannel max t
      let t2 := if req.model = [] then t1 else t1.update c (·.apply req.model)
      some (afterResponse answer req (some c) m t2, some (some c, m))

/-- main.cpp:435-461 alone: what is done before the response.  When the head of a response in chunks cannot be sent the function returns there (main.cpp:477), so that this is all. -/
def resolveRequest (max : Nat) (req : ChanReq) (t : ChannelTable) : Option (ChannelTable × Option (Option (List Char) × CacheModel)) :=
  match req.cid with
  | some c =>
    match t.channels.find? (·.cid = c) with
    | none => some (t, none)
    | some ch =>
      let t1 := t.update c id
      some (if req.model = [] then t1 else t1.update c (·.apply req.model), some (some c, if req.model = [] then ch.model else ch.model.apply req.model))
  | none =>
    let m := if req.model = [] then {} else CacheModel.parse req.model
    match req.cnew.bind negotiateTransport with
    | none => some (t, some (none, m))
    | some _ => do
      let (t1, c) ← openChannel max t
      some (if req.model = [] then t1 else t1.update c (·.apply req.model), some (some c, m))

end Verif.Jpip
