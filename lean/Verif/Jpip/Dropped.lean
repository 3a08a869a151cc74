import Verif.Jpip.Emitter

/-!
# Responses whose connection is dropped

Models the two ways in which source/apps/jpip_server/main.cpp:465-511 answers a request of a channel: in chunks, where the sink sends each message and reports failure
(main.cpp:474-490 with `stream_jpp_response`, 122-248), and as one buffer, where the result of `send_all` is not looked at (main.cpp:495-501); in both cases the bins collected
in `sent_bins` are then committed (main.cpp:506).
-/

namespace Verif.Jpip

/-- main.cpp:163-189 and 190-241 with a sink that can send `room` messages and then fails: the state, and `aborted`.  The sink is called when `scratch` is not empty, that is, when the
body grows (166-169); when it fails nothing is recorded. -/
def emitSink (content : Nat → Nat → Option (List UInt8)) (cache : CacheModel) (maxBytes : Nat) : List (Nat × Nat) → Nat → RespState → RespState × Bool
  | [], _, st => (st, false)
  | (c, i) :: keys, room, st =>
    let r := emitBin content cache maxBytes st c i
    if r.1.body.length = st.body.length then
      if r.2 then emitSink content cache maxBytes keys room r.1 else (r.1, false)
    else if room = 0 then (st, true)
    else if r.2 then emitSink content cache maxBytes keys (room - 1) r.1
    else (r.1, false)

/-- main.cpp:506 after the chunked path: the model of the channel. -/
def chunkedCommit (content : Nat → Nat → Option (List UInt8)) (server : CacheModel) (maxBytes : Nat) (keys : List (Nat × Nat)) (room : Nat) : CacheModel :=
  server.commit (emitSink content server maxBytes keys room {}).1.sentBins

/-- main.cpp:495-506, the other path: the whole response is built, sent, and committed whether it was sent or not. -/
def bufferedCommit (content : Nat → Nat → Option (List UInt8)) (server : CacheModel) (maxBytes : Nat) (keys : List (Nat × Nat)) : CacheModel :=
  server.commit (buildResponse content server maxBytes keys).2

end Verif.Jpip
