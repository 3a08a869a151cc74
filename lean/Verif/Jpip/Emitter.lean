import Verif.Jpip.ParserLemmas
import Verif.Jpip.CacheModelLemmas
/-
Model of the data-bin emitter and of the server's response builder.
Source: /repo/source/core/jpip/data_bin_emitter.cpp, /repo/source/apps/jpip_server/main.cpp.
-/
namespace Verif.Jpip

/-- data_bin_emitter.cpp:21 `kMaxMessagePayload`. -/
def kMaxMessagePayload : Nat := 987

/-- What one `append_message` call produced: the bytes appended to `out`, the header context afterwards, and
the `BinWindow` outputs (`payload_sent`, `complete`, `budget_blocked`). -/
structure EmitResult where
  bytes : List UInt8
  ctx : Ctx
  sent : Nat
  complete : Bool
  blocked : Bool

/-- data_bin_emitter.cpp:51-79, the `for (;;)` loop.  `rem` is `payload[offset..payload_len)`; `written`
counts the bytes this call has appended so far. -/
def appendLoop (hdr : MsgHeader) (budget : Nat) (rem : List UInt8) (offset written : Nat) (ctx : Ctx) :
    EmitResult :=
  let avail := if budget > written then budget - written else 0
  if avail ≤ kMessageHeaderMaxBytes then ⟨[], ctx, 0, false, true⟩
  else
    let thisLen := min (min rem.length kMaxMessagePayload) (avail - kMessageHeaderMaxBytes)
    if _hb : rem.length > 0 ∧ thisLen = 0 then ⟨[], ctx, 0, false, true⟩
    else
      -- `offset + this_len == payload_len`
      let isLast := decide (thisLen = rem.length)
      let h := { hdr with msgOffset := offset, msgLength := thisLen, isLast := isLast }
      let e := encodeHeader h ctx
      if _hl : thisLen = rem.length then ⟨e.1 ++ rem.take thisLen, e.2, thisLen, true, false⟩
      else
        let r := appendLoop hdr budget (rem.drop thisLen) (offset + thisLen)
          (written + (e.1.length + thisLen)) e.2
        ⟨e.1 ++ rem.take thisLen ++ r.bytes, r.ctx, thisLen + r.sent, r.complete, r.blocked⟩
termination_by rem.length
decreasing_by
  simp only [List.length_drop]
  omega

/-- data_bin_emitter.cpp:37-86 `append_message` with a `BinWindow` (skip, budget). -/
def appendMessage (hdr : MsgHeader) (payload : List UInt8) (ctx : Ctx) (skip budget : Nat) : EmitResult :=
  let offset := min skip payload.length
  appendLoop hdr budget (payload.drop offset) offset 0 ctx

/-- data_bin_emitter.hpp/jpp_message.hpp `emit_eor` (data_bin_emitter.cpp, end of file): identifier 0x00,
reason, VBAS length 0.  The header context is not touched. -/
def emitEor (reason : Nat) : List UInt8 := [0, UInt8.ofNat reason, 0]

/-- jpip_server main.cpp:152-189: state threaded through the calls of the `emit_bin` lambda. -/
structure RespState where
  ctx : Ctx := {}
  /-- bytes handed to the sink so far -/
  body : List UInt8 := []
  /-- `sent_out` -/
  sentBins : List (Nat × Nat × Nat × Bool) := []
  truncated : Bool := false

/-- main.cpp:163-189 `emit_bin`: deliver one bin; second component is the return value (continue?).
`content c i` is the payload the emitter would build for the bin, `none` when the emitter returns 0 without
emitting (tile or precinct absent, or ranges outside the codestream).  The sink is one that never fails
(the buffered path); `total` is the body length. -/
def emitBin (content : Nat → Nat → Option (List UInt8)) (cache : CacheModel) (maxBytes : Nat) (st : RespState)
    (c i : Nat) : RespState × Bool :=
  if cache.has c i then (st, true)
  else
    let skip := cache.receivedBytes c i
    let budget := if maxBytes > st.body.length then maxBytes - st.body.length else 0
    match content c i with
    | none => (st, true)
    | some payload =>
      let r := appendMessage { classId := c, csN := 0, inClassId := i } payload st.ctx skip budget
      let st1 : RespState :=
        if r.bytes.isEmpty then st
        else { st with ctx := r.ctx, body := st.body ++ r.bytes,
                       sentBins := st.sentBins ++ [(c, i, skip + r.sent, r.complete)] }
      if r.blocked then ({ st1 with truncated := true }, false) else (st1, true)

/-- main.cpp:196-247: bins emitted in order until one returns false. -/
def emitBins (content : Nat → Nat → Option (List UInt8)) (cache : CacheModel) (maxBytes : Nat) :
    List (Nat × Nat) → RespState → RespState
  | [], st => st
  | (c, i) :: keys, st =>
    match emitBin content cache maxBytes st c i with
    | (st', true) => emitBins content cache maxBytes keys st'
    | (st', false) => st'

/-- jpp_message.hpp `EorReason`. -/
def kEorWindowDone : Nat := 2
def kEorByteLimit : Nat := 4

/-- main.cpp:122-268 `stream_jpp_response` / `build_jpp_stream`: the response body and the list of delivered
bins, for the bins `keys` in delivery order. -/
def buildResponse (content : Nat → Nat → Option (List UInt8)) (cache : CacheModel) (maxBytes : Nat)
    (keys : List (Nat × Nat)) : List UInt8 × List (Nat × Nat × Nat × Bool) :=
  let st := emitBins content cache maxBytes keys {}
  (st.body ++ emitEor (if st.truncated then kEorByteLimit else kEorWindowDone), st.sentBins)

/-- main.cpp:209-216: tile indices in first-seen order. -/
def windowTiles : List Nat → List Nat
  | [] => []
  | t :: ts => t :: (windowTiles ts).filter (· ≠ t)

/-- main.cpp:190-247: the order in which bins are delivered for a window whose precincts are the pairs
(tile, in-class id): metadata-bin 0, main header, the tile headers, then precincts by ascending id
(`std::sort`, represented by insertion sort). -/
def deliveryOrder (window : List (Nat × Nat)) : List (Nat × Nat) :=
  (kMsgClassMetadata, 0) :: (kMsgClassMainHeader, 0) ::
    ((windowTiles (window.map Prod.fst)).map fun t => (kMsgClassTileHeader, t)) ++
    ((window.map Prod.snd).insertionSort (· ≤ ·)).map fun I => (kMsgClassPrecinct, I)

/-- channel_manager.cpp:50-62 `commit`, on the channel's cache model. -/
def CacheModel.commit (m : CacheModel) : List (Nat × Nat × Nat × Bool) → CacheModel
  | [] => m
  | (c, i, endBytes, complete) :: rest =>
    (if complete then m.mark c i else m.markPartial c i endBytes).commit rest

end Verif.Jpip
