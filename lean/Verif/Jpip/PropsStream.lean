import Verif.Jpip.ParserLemmas
/-
Property theorems C01-C06: VBAS integers, JPP message headers, streaming parser, data-bin store.
Each theorem is followed by a concrete instance of its hypotheses.
-/
namespace Verif.Jpip

/-! ## C01, C02: VBAS -/

/-- C01.  Any 64-bit value, encoded and followed by arbitrary bytes, decodes to itself, and the number of
bytes reported is the number written, which is between 1 and 10. -/
theorem C01_vbas_roundtrip (v : Nat) (hv : v < 2 ^ 64) (rest : List UInt8) :
    vbasDecode (vbasEncode v ++ rest) = some (v, (vbasEncode v).length) ∧
    1 ≤ (vbasEncode v).length ∧ (vbasEncode v).length ≤ 10 :=
  ⟨vbas_roundtrip v hv rest, (vbasEncode_length v hv)⟩

example : (2 ^ 64 - 1 < 2 ^ 64) ∧ vbasDecode (vbasEncode (2 ^ 64 - 1) ++ [0xFF, 0x01]) = some (2 ^ 64 - 1, 10) := by
  decide +kernel

/-- C01.  Two different values never share an encoding, and no encoding is a proper prefix of another. -/
theorem C01_vbas_prefix_free (v w : Nat) (hv : v < 2 ^ 64) (hw : w < 2 ^ 64)
    (h : vbasEncode v <+: vbasEncode w) : v = w := by
  obtain ⟨t, ht⟩ := h
  have h1 := vbas_roundtrip v hv t
  have h2 := vbas_roundtrip w hw []
  rw [List.append_nil, ← ht, h1] at h2
  simp at h2
  exact h2.1

example : vbasEncode 5 <+: vbasEncode 5 := List.prefix_refl _

/-- C02.  Exact description of the decoder on arbitrary bytes: it succeeds precisely when the input starts
with a well-formed VBAS of at most 10 bytes whose value fits 64 bits; the value returned is the value of
the 7-bit groups (nothing is truncated) and the count is the number of bytes in it, all inside the input. -/
theorem C02_vbas_decode_exact (bs : List UInt8) (v n : Nat) :
    vbasDecode bs = some (v, n) ↔
      n ≤ bs.length ∧ n ≤ 10 ∧ IsVbas (bs.take n) ∧ groupsVal 0 (bs.take n) = v ∧ v < 2 ^ 64 := by
  rw [vbasDecode_iff]
  constructor
  · rintro ⟨pre, rest, rfl, h1, h2, h3, h4, h5⟩
    subst h2
    exact ⟨by simp, h3, by simpa using h1, by simpa using h4, h5⟩
  · rintro ⟨h1, h2, h3, h4, h5⟩
    exact ⟨bs.take n, bs.drop n, by simp, h3, by simp [h1], h2, h4, h5⟩

example : IsVbas ([0x81, 0x00, 0x7] : List UInt8).dropLast ∧ vbasDecode [0x81, 0x00, 0x7] = some (128, 2) := by
  constructor
  · simp [IsVbas]
  · decide +kernel

/-- C02.  A successful result depends only on the bytes consumed. -/
theorem C02_vbas_decode_local (bs cs : List UInt8) (v n : Nat) (h : vbasDecode bs = some (v, n))
    (hc : cs.take n = bs.take n) : vbasDecode cs = some (v, n) := by
  obtain ⟨h1, h2, h3, h4, h5⟩ := (C02_vbas_decode_exact _ _ _).1 h
  refine (C02_vbas_decode_exact _ _ _).2 ⟨?_, h2, hc ▸ h3, hc ▸ h4, h5⟩
  have := congrArg List.length hc
  simp at this; omega

example : vbasDecode [0x81, 0x00, 0x7] = some (128, 2) ∧
    ([0x81, 0x00, 0xEE, 0x01] : List UInt8).take 2 = ([0x81, 0x00, 0x7] : List UInt8).take 2 := by
  decide +kernel

/-! ## C03, C04: message headers -/

/-- One JPP-stream message as the sender sees it. -/
structure Message where
  hdr : MsgHeader
  payload : List UInt8

/-- Specification: field ranges, and the declared length is the payload's. -/
def Message.Ok (m : Message) : Prop := m.hdr.InRange ∧ m.hdr.msgLength = m.payload.length

/-- The sender: headers written one after the other with the running context, each followed by its
payload (the composition used by data_bin_emitter.cpp:62-72). -/
def sendAll : List Message → Ctx → List UInt8 × Ctx
  | [], ctx => ([], ctx)
  | m :: ms, ctx =>
    let (hb, ctx1) := encodeHeader m.hdr ctx
    let (tl, ctx2) := sendAll ms ctx1
    (hb ++ m.payload ++ tl, ctx2)

/-- The receiver: reads `k` messages, one header and its declared number of payload bytes each; returns
the messages, the unread bytes and the final context. -/
def readAll : Nat → List UInt8 → Ctx → Option (List Message × List UInt8 × Ctx)
  | 0, bs, ctx => some ([], bs, ctx)
  | k + 1, bs, ctx =>
    match decodeHeader bs ctx with
    | (none, _) => none
    | (some (h, n), ctx1) =>
      if bs.length < n + h.msgLength then none
      else
        match readAll k (bs.drop (n + h.msgLength)) ctx1 with
        | none => none
        | some (ms, rest, ctx2) => some (⟨h, (bs.drop n).take h.msgLength⟩ :: ms, rest, ctx2)

/-- C03.  Whatever messages are sent, in whatever order and from whatever shared starting context, the
receiver reads back the same messages (`wire` only clears the auxiliary value of classes that carry
none), consumes exactly the bytes written, and ends with the sender's context. -/
theorem C03_header_stream_roundtrip (ms : List Message) (hms : ∀ m ∈ ms, m.Ok) (ctx : Ctx)
    (rest : List UInt8) :
    readAll ms.length ((sendAll ms ctx).1 ++ rest) ctx =
      some (ms.map fun m => ⟨m.hdr.wire, m.payload⟩, rest, (sendAll ms ctx).2) := by
  induction ms generalizing ctx with
  | nil => simp [readAll, sendAll]
  | cons m ms ih =>
    obtain ⟨hr, hl⟩ := hms m (by simp)
    have hw : m.hdr.wire.msgLength = m.payload.length := by
      rw [← hl]; unfold MsgHeader.wire; split <;> rfl
    have hrt := encodeHeader_roundtrip m.hdr hr ctx
      (m.payload ++ ((sendAll ms (encodeHeader m.hdr ctx).2).1 ++ rest))
    simp only [List.length_cons, readAll, sendAll, List.append_assoc]
    rw [hrt]
    simp only [hw]
    rw [if_neg (by simp only [List.length_append]; omega)]
    have hdrop : ((encodeHeader m.hdr ctx).1 ++ (m.payload ++
        ((sendAll ms (encodeHeader m.hdr ctx).2).1 ++ rest))).drop
          ((encodeHeader m.hdr ctx).1.length + m.payload.length) =
        (sendAll ms (encodeHeader m.hdr ctx).2).1 ++ rest := by
      rw [← List.drop_drop, List.drop_left, List.drop_left]
    rw [hdrop, ih (fun m hm => hms m (by simp [hm]))]
    simp

example : ∀ m ∈ ([⟨⟨6, 0, 0, 0, 2, 0, true⟩, [0xFF, 0x4F]⟩, ⟨⟨1, 3, 70000, 5, 1, 9, false⟩, [7]⟩] : List Message),
    m.Ok := by
  intro m hm
  simp at hm
  rcases hm with rfl | rfl <;> exact ⟨by decide, rfl⟩

/-- C03.  Fields that survive: everything, except the auxiliary value of an even class, which is not on
the wire and reads as 0. -/
theorem C03_wire_fields (h : MsgHeader) :
    h.wire.classId = h.classId ∧ h.wire.csN = h.csN ∧ h.wire.inClassId = h.inClassId ∧
    h.wire.msgOffset = h.msgOffset ∧ h.wire.msgLength = h.msgLength ∧ h.wire.isLast = h.isLast ∧
    (h.classId % 2 = 1 → h.wire.aux = h.aux) ∧ (h.classId % 2 = 0 → h.wire.aux = 0) := by
  unfold MsgHeader.wire
  split
  · simp; omega
  · simp; omega

/-- C03.  A self-contained header (`encode_header_independent`) decodes identically under every receiver
context. -/
theorem C03_independent_header (h : MsgHeader) (hr : h.InRange) (ctx : Ctx) (rest : List UInt8) :
    decodeHeader (encodeHeaderIndependent h ++ rest) ctx =
      (some (h.wire, (encodeHeaderIndependent h).length), { lastClass := h.classId, lastCs := h.csN }) := by
  have hd := encodeWithIndicator_decodes h hr true true (by simp) ctx (by simp) (by simp) rest
  have := decodeHeader_of hd
  unfold encodeHeaderIndependent
  rw [this]
  unfold MsgHeader.wire; split <;> rfl

example : (⟨255, 65535, 2 ^ 64 - 1, 2 ^ 64 - 1, 2 ^ 64 - 1, 2 ^ 64 - 1, true⟩ : MsgHeader).InRange := by decide

/-- C04.  On arbitrary bytes: failure leaves the context as it was; success consumes between 1 and 60 bytes,
all of them inside the input, leaves fields in range and the context equal to the header's own
class/codestream, and the outcome depends only on the bytes consumed. -/
theorem C04_header_decode_bounded (bs : List UInt8) (ctx : Ctx) (hc : ctx.lastClass < 2 ^ 8)
    (hs : ctx.lastCs < 2 ^ 16) :
    match decodeHeader bs ctx with
    | (none, ctx') => ctx' = ctx
    | (some (h, n), ctx') =>
      1 ≤ n ∧ n ≤ 60 ∧ n ≤ bs.length ∧ h.InRange ∧ ctx' = ⟨h.classId, h.csN⟩ ∧
        ∀ bs', bs'.take n = bs.take n → decodeHeader bs' ctx = (some (h, n), ctx') := by
  rcases hd : decodeHeader bs ctx with ⟨r, ctx'⟩
  cases r with
  | none => exact (decodeHeader_none hd).1
  | some p =>
    obtain ⟨h, n⟩ := p
    obtain ⟨hh, rfl⟩ := decodeHeader_some hd
    obtain ⟨b1, b2, b3, b4, b5, b6, b7, b8, b9, b10⟩ := hh.bounds
    exact ⟨b1, b2, b3, ⟨b8 hc, b9 hs, b4, b5, b6, b7⟩, rfl, fun bs' e => decodeHeader_of (b10 bs' e)⟩

example : (decodeHeader [0x60, 0x01, 0x00, 0x05, 0x02, 0x07] {}).1 =
    some (⟨1, 0, 0, 5, 2, 7, false⟩, 6) ∧ (decodeHeader [0xE0, 0x81] ⟨8, 0⟩) = (none, ⟨8, 0⟩) := by
  decide +kernel

/-- C04.  Both header encoders write between 1 and 60 bytes and never start with the end-of-response
identifier 0x00. -/
theorem C04_header_never_eor (h : MsgHeader) (hr : h.InRange) (ctx : Ctx) :
    (1 ≤ (encodeHeader h ctx).1.length ∧ (encodeHeader h ctx).1.length ≤ 60) ∧
    ∃ b bs, (encodeHeader h ctx).1 = b :: bs ∧ b ≠ 0 :=
  ⟨encodeHeader_length h hr ctx, encodeHeader_head h hr ctx⟩

/-! ## C05: streaming parser -/

/-- C05.  However the bytes are cut into chunks, the receive loop reaches the same verdict, the same
data-bins (every bin, and the end-of-response reason) and the same header context as when the bytes arrive
in one piece; and, if the response has not ended, the same buffered remainder. -/
theorem C05_split_independent (st : Streaming) (out : DataBinSet) (cs cs' : List (List UInt8))
    (h : cs.flatten = cs'.flatten) :
    (receive st out cs).1 = (receive st out cs').1 ∧
    (receive st out cs).2.2 = (receive st out cs').2.2 ∧
    (receive st out cs).2.1.ctx = (receive st out cs').2.1.ctx ∧
    ((receive st out cs).2.2.eor = none →
      (receive st out cs).2.1.pending = (receive st out cs').2.1.pending) := by
  obtain ⟨a1, a2, a3, a4⟩ := receive_split st out cs
  obtain ⟨b1, b2, b3, b4⟩ := receive_split st out cs'
  rw [h] at a1 a2 a3 a4
  refine ⟨a1.trans b1.symm, a2.trans b2.symm, a3.trans b3.symm, fun he => ?_⟩
  rw [a4 he, b4 (by rw [b2, ← a2]; exact he)]

example : ([[0x60], [0x01, 0x00, 0x05], [], [0x02, 0x07]] : List (List UInt8)).flatten =
    ([[0x60, 0x01, 0x00], [0x05, 0x02, 0x07]] : List (List UInt8)).flatten := by decide

/-- C05.  One-shot parsing agrees with streaming: `parse_jpp_stream` returns true exactly when feeding the
same bytes in any chunks from a fresh parser is never rejected and ends either with nothing buffered or
after an end-of-response; and then both leave the same bins. -/
theorem C05_oneshot_agrees (out : DataBinSet) (he : out.eor = none) (cs : List (List UInt8)) :
    let r := receive {} out cs
    let p := parseJppStream cs.flatten out
    p.2 = r.2.2 ∧
    (p.1 = true ↔ r.1 = true ∧ (r.2.2.eor ≠ none ∨ r.2.1.finish = true)) := by
  intro r p
  obtain ⟨a1, a2, a3, a4⟩ := receive_split {} out cs
  have key : ∀ bs : List UInt8,
      (parseJppStream bs out).2 = (receive {} out [bs]).2.2 ∧
      ((parseJppStream bs out).1 = true ↔ (receive {} out [bs]).1 = true ∧
        ((receive {} out [bs]).2.2.eor ≠ none ∨ (receive {} out [bs]).2.1.finish = true)) := by
    intro bs
    simp only [receive, he, Option.isSome_none, Bool.false_eq_true, if_false, Streaming.feed,
      List.nil_append, parseJppStream]
    by_cases hb : bs.length = 0
    · have : bs = [] := List.length_eq_zero_iff.1 hb
      subst this
      simp [messageLoop_nil, Streaming.finish]
    · simp only [hb, if_false]
      have h1 := messageLoop_rest bs {} out
      have h2 := messageLoop_true_rest bs {} out
      have h3 := messageLoop_true_noeor bs {} out he
      generalize messageLoop bs {} out = l at *
      obtain ⟨v, c, o, rest⟩ := l
      simp only at h1 h2 h3 ⊢
      match v with
      | none => simp
      | some true =>
        have := (h2 rfl).1
        simp [Streaming.finish, this, h3 rfl]
      | some false =>
        simp [Streaming.finish]
        by_cases ho : o.eor = none
        · right; exact h1 rfl ho
        · left; exact ho
  obtain ⟨k1, k2⟩ := key cs.flatten
  refine ⟨k1.trans a2.symm, ?_⟩
  rw [k2]
  simp only [r]
  rw [a1, a2]
  by_cases hx : (receive {} out [cs.flatten]).2.2.eor = none
  · simp only [Streaming.finish]
    rw [a4 (by rw [a2]; exact hx)]
  · simp [hx]

example : (({} : DataBinSet)).eor = none := rfl

/-- Disagreement (C05, callers that keep feeding after the end-of-response, as web/src/jpip_wrapper.cpp
`jpip_feed_stream` may): a raw sequence of `feed` calls is *not* independent of the chunking.  The same
nine bytes (an end-of-response followed by a one-byte metadata message) leave bin (8,0) absent when fed in
one call, present when fed in two calls split after the third byte. -/
theorem C05_feed_after_eor_depends_on_chunks :
    let bytes : List UInt8 := [0, 2, 0, 0x50, 0x08, 0x00, 0x01, 0x2A]
    let one := ({} : Streaming).feed bytes {}
    let two1 := ({} : Streaming).feed (bytes.take 3) {}
    let two := two1.2.1.feed (bytes.drop 3) two1.2.2
    bytes = bytes.take 3 ++ bytes.drop 3 ∧ one.1 = true ∧ two1.1 = true ∧ two.1 = true ∧
    one.2.2.contains 8 0 = false ∧ two.2.2.contains 8 0 = true := by
  decide +kernel

/-! ## C06: data-bin store -/

/-- One `DataBinSet::append` call. -/
structure AppendOp where
  cls : Nat
  id : Nat
  offset : Nat
  payload : List UInt8
  isLast : Bool

/-- Run a history of append calls; returns the log of accepted calls (oldest first) and the store. -/
def runAppends (s : DataBinSet) : List AppendOp → List AppendOp × DataBinSet
  | [] => ([], s)
  | op :: ops =>
    match s.append op.cls op.id op.offset op.payload op.isLast with
    | (true, s') => let r := runAppends s' ops; (op :: r.1, r.2)
    | (false, s') => runAppends s' ops

/-- Specification: what a bin should hold given the accepted calls. -/
def logBytes (log : List AppendOp) (c i : Nat) : List UInt8 :=
  (log.filter fun op => op.cls = c ∧ op.id = i).flatMap AppendOp.payload

/-- Specification: whether the accepted calls include a final message for the bin. -/
def logComplete (log : List AppendOp) (c i : Nat) : Bool :=
  log.any fun op => decide (op.cls = c ∧ op.id = i) && op.isLast

theorem append_spec (s : DataBinSet) (op : AppendOp) (c i : Nat) :
    match s.append op.cls op.id op.offset op.payload op.isLast with
    | (true, s') =>
      op.offset = (s.get op.cls op.id).length ∧
      (s.isComplete op.cls op.id = true → op.payload = []) ∧
      s'.get c i = (if op.cls = c ∧ op.id = i then s.get c i ++ op.payload else s.get c i) ∧
      s'.isComplete c i = (s.isComplete c i || (decide (op.cls = c ∧ op.id = i) && op.isLast)) ∧
      s'.eor = s.eor
    | (false, s') =>
      (op.offset ≠ (s.get op.cls op.id).length ∨ s.isComplete op.cls op.id = true ∧ op.payload ≠ []) ∧
      s'.get c i = s.get c i ∧ s'.isComplete c i = s.isComplete c i ∧ s'.eor = s.eor := by
  have hg : s.get op.cls op.id = ((s.bins op.cls op.id).getD {}).bytes := by
    unfold DataBinSet.get; cases s.bins op.cls op.id <;> rfl
  have hc : s.isComplete op.cls op.id = ((s.bins op.cls op.id).getD {}).isLast := by
    unfold DataBinSet.isComplete; cases s.bins op.cls op.id <;> rfl
  have hset : ∀ e : Entry, ((s.set op.cls op.id e).get c i =
        if op.cls = c ∧ op.id = i then e.bytes else s.get c i) ∧
      ((s.set op.cls op.id e).isComplete c i =
        if op.cls = c ∧ op.id = i then e.isLast else s.isComplete c i) := by
    intro e
    unfold DataBinSet.get DataBinSet.isComplete DataBinSet.set
    by_cases h : op.cls = c ∧ op.id = i
    · have h' : c = op.cls ∧ i = op.id := ⟨h.1.symm, h.2.symm⟩
      simp [h]
    · have h' : ¬ (c = op.cls ∧ i = op.id) := fun hh => h ⟨hh.1.symm, hh.2.symm⟩
      simp [h, h']
  have hk : op.cls = c ∧ op.id = i → s.get c i = ((s.bins op.cls op.id).getD {}).bytes ∧
      s.isComplete c i = ((s.bins op.cls op.id).getD {}).isLast := by
    rintro ⟨rfl, rfl⟩; exact ⟨hg, hc⟩
  unfold DataBinSet.append
  simp only
  rw [hg, hc]
  generalize (s.bins op.cls op.id).getD {} = e at *
  by_cases h1 : e.isLast = true ∧ op.payload.length > 0
  · rw [if_pos h1]
    refine ⟨Or.inr ⟨h1.1, by intro h; simp [h] at h1⟩, ?_, ?_, rfl⟩
    · rw [(hset e).1]; split
      · rename_i h; exact (hk h).1.symm
      · rfl
    · rw [(hset e).2]; split
      · rename_i h; exact (hk h).2.symm
      · rfl
  · rw [if_neg h1]
    by_cases h2 : op.offset ≠ e.bytes.length
    · rw [if_pos h2]
      refine ⟨Or.inl h2, ?_, ?_, rfl⟩
      · rw [(hset e).1]; split
        · rename_i h; exact (hk h).1.symm
        · rfl
      · rw [(hset e).2]; split
        · rename_i h; exact (hk h).2.symm
        · rfl
    · rw [if_neg h2]
      refine ⟨by omega, fun h => ?_, ?_, ?_, rfl⟩
      · by_contra hne
        exact h1 ⟨h, by have := List.length_pos_iff.2 hne; omega⟩
      · rw [(hset _).1]; split
        · rename_i h; rw [(hk h).1]; split <;> rfl
        · rfl
      · rw [(hset _).2]; split
        · rename_i h; rw [(hk h).2]; cases op.isLast <;> simp [h]
        · rename_i h; simp [h]

/-- C06.  After any history of appends on an empty store, every bin holds exactly the concatenation, in
order, of the payloads accepted for it, and is complete exactly if one of them was final. -/
theorem C06_bins_are_accepted_payloads (ops : List AppendOp) (c i : Nat) :
    (runAppends {} ops).2.get c i = logBytes (runAppends {} ops).1 c i ∧
    (runAppends {} ops).2.isComplete c i = logComplete (runAppends {} ops).1 c i := by
  have key : ∀ (ops : List AppendOp) (s : DataBinSet),
      (runAppends s ops).2.get c i = s.get c i ++ logBytes (runAppends s ops).1 c i ∧
      (runAppends s ops).2.isComplete c i = (s.isComplete c i || logComplete (runAppends s ops).1 c i) := by
    intro ops
    induction ops with
    | nil => intro s; simp [runAppends, logBytes, logComplete]
    | cons op ops ih =>
      intro s
      have hs := append_spec s op c i
      unfold runAppends
      rcases hx : s.append op.cls op.id op.offset op.payload op.isLast with ⟨b, s'⟩
      rw [hx] at hs
      cases b
      · simp only at hs ⊢
        rw [(ih s').1, (ih s').2, hs.2.1, hs.2.2.1]; exact ⟨rfl, rfl⟩
      · simp only at hs ⊢
        rw [(ih s').1, (ih s').2, hs.2.2.1, hs.2.2.2.1]
        unfold logBytes logComplete
        by_cases hk : op.cls = c ∧ op.id = i
        · simp [hk, Bool.or_assoc]
        · rw [List.filter_cons_of_neg (by simpa using hk), if_neg hk, List.any_cons,
            decide_eq_false hk]
          simp
  have := key ops {}
  simpa [DataBinSet.get, DataBinSet.isComplete] using this

/-- C06.  Per call, in any state: an accepted append starts exactly at the bin's current size and adds its
payload at the end of that bin and nothing anywhere else; a complete bin accepts no further bytes; a
rejected append changes no bin's bytes and no bin's completeness. -/
theorem C06_append_step (s : DataBinSet) (op : AppendOp) :
    match s.append op.cls op.id op.offset op.payload op.isLast with
    | (true, s') =>
      op.offset = (s.get op.cls op.id).length ∧
      (s.isComplete op.cls op.id = true → op.payload = []) ∧
      (∀ c i, s'.get c i = if op.cls = c ∧ op.id = i then s.get c i ++ op.payload else s.get c i) ∧
      (∀ c i, s'.isComplete c i = (s.isComplete c i || (decide (op.cls = c ∧ op.id = i) && op.isLast)))
    | (false, s') => ∀ c i, s'.get c i = s.get c i ∧ s'.isComplete c i = s.isComplete c i := by
  have h := append_spec s op
  split
  · rename_i s' hx
    rw [hx] at h
    exact ⟨(h 0 0).1, (h 0 0).2.1, fun c i => (h c i).2.2.1, fun c i => (h c i).2.2.2.1⟩
  · rename_i s' hx
    rw [hx] at h
    exact fun c i => ⟨(h c i).2.1, (h c i).2.2.1⟩

/-- C06.  Through any further history a bin's bytes only ever get extended, and a complete bin is frozen. -/
theorem C06_append_only (s : DataBinSet) (ops : List AppendOp) (c i : Nat) :
    s.get c i <+: (runAppends s ops).2.get c i ∧
    (s.isComplete c i = true →
      (runAppends s ops).2.get c i = s.get c i ∧ (runAppends s ops).2.isComplete c i = true) := by
  induction ops generalizing s with
  | nil => simp [runAppends]
  | cons op ops ih =>
    have hs := append_spec s op c i
    unfold runAppends
    rcases hx : s.append op.cls op.id op.offset op.payload op.isLast with ⟨b, s'⟩
    rw [hx] at hs
    cases b
    · simp only at hs ⊢
      have := ih s'
      rw [hs.2.1, hs.2.2.1] at this
      exact this
    · simp only at hs ⊢
      obtain ⟨h1, h2, h3, h4, -⟩ := hs
      have := ih s'
      refine ⟨List.IsPrefix.trans ?_ this.1, fun hc => ?_⟩
      · rw [h3]; split <;> simp
      · have h3' : s'.get c i = s.get c i := by
          rw [h3]; split
          · rename_i h; rw [h2 (by rw [h.1, h.2]; exact hc)]; simp
          · rfl
        obtain ⟨t1, t2⟩ := this.2 (by rw [h4, hc]; rfl)
        exact ⟨t1.trans h3', t2⟩

example : let ops : List AppendOp := [⟨0, 7, 0, [1, 2], false⟩, ⟨0, 7, 1, [9], false⟩, ⟨0, 7, 2, [3], true⟩,
      ⟨0, 7, 3, [4], true⟩]
    (runAppends {} ops).2.get 0 7 = [1, 2, 3] ∧ (runAppends {} ops).2.isComplete 0 7 = true ∧
    (runAppends {} ops).1.length = 2 := by decide

/-- Disagreement (minor, C06): a rejected first append still makes the bin "contained" (empty entry). -/
theorem C06_rejected_append_creates_bin :
    ((({} : DataBinSet).append 0 5 10 [1] false).1 = false) ∧
    ((({} : DataBinSet).append 0 5 10 [1] false).2.contains 0 5 = true) := by decide

/-- Specification: every bin held is a prefix of the true bin, and complete bins are equal to it. -/
def DataBinSet.PrefixOf (s : DataBinSet) (truth : Nat → Nat → List UInt8) : Prop :=
  ∀ c i e, s.bins c i = some e → e.bytes <+: truth c i ∧ (e.isLast = true → e.bytes = truth c i)

/-- C06.  Merging two partial views of the same source keeps the view correct and never loses bytes or
completeness from either side. -/
theorem C06_merge_prefix (s o : DataBinSet) (truth : Nat → Nat → List UInt8) (hs : s.PrefixOf truth)
    (ho : o.PrefixOf truth) :
    (s.mergeFrom o).PrefixOf truth ∧
    ∀ c i, s.get c i <+: (s.mergeFrom o).get c i ∧ o.get c i <+: (s.mergeFrom o).get c i ∧
      ((s.mergeFrom o).isComplete c i = (s.isComplete c i || o.isComplete c i)) := by
  have key : ∀ c i, (∀ e, (s.mergeFrom o).bins c i = some e →
        e.bytes <+: truth c i ∧ (e.isLast = true → e.bytes = truth c i)) ∧
      s.get c i <+: (s.mergeFrom o).get c i ∧ o.get c i <+: (s.mergeFrom o).get c i ∧
      ((s.mergeFrom o).isComplete c i = (s.isComplete c i || o.isComplete c i)) := by
    intro c i
    have hs' := hs c i
    have ho' := ho c i
    unfold DataBinSet.get DataBinSet.isComplete DataBinSet.mergeFrom
    simp only
    generalize s.bins c i = se at *
    generalize o.bins c i = oe at *
    cases oe with
    | none => simp; exact hs'
    | some oe =>
      obtain ⟨o1, o2⟩ := ho' oe rfl
      cases se with
      | none => simp; exact ⟨o1, o2⟩
      | some se =>
        obtain ⟨s1, s2⟩ := hs' se rfl
        have hle := List.IsPrefix.length_le o1
        have hle2 := List.IsPrefix.length_le s1
        by_cases hlen : oe.bytes.length > se.bytes.length
        · have hse : se.isLast = false := by
            cases h : se.isLast
            · rfl
            · have := s2 h; rw [this] at hlen; omega
          simp only [hlen, if_true]
          refine ⟨by rintro e ⟨⟩; exact ⟨o1, o2⟩, ?_, List.prefix_refl _, by simp [hse]⟩
          exact List.prefix_of_prefix_length_le s1 o1 (by omega)
        · have hp : oe.bytes <+: se.bytes := List.prefix_of_prefix_length_le o1 s1 (by omega)
          simp only [hlen, if_false]
          by_cases hl : oe.isLast = true ∧ ¬ se.isLast = true
          · simp only [hl, not_false_eq_true, and_self, if_true]
            have := o2 hl.1
            have hse : se.bytes = truth c i := by
              apply List.IsPrefix.eq_of_length s1
              rw [← this]; rw [← this] at hle2; omega
            refine ⟨by rintro e ⟨⟩; exact ⟨s1, fun _ => hse⟩, List.prefix_refl _, hp, by simp⟩
          · rw [if_neg hl]
            refine ⟨by rintro e ⟨⟩; exact ⟨s1, s2⟩, List.prefix_refl _, hp, ?_⟩
            simp only
            cases h1 : se.isLast <;> cases h2 : oe.isLast <;> simp_all
  exact ⟨fun c i e h => (key c i).1 e h, fun c i => (key c i).2⟩

example : DataBinSet.PrefixOf (({} : DataBinSet).set 0 1 ⟨[1, 2], false⟩) (fun _ _ => [1, 2, 3]) := by
  intro c i e h
  simp only [DataBinSet.set] at h
  split at h
  · cases h; exact ⟨⟨[3], rfl⟩, by simp⟩
  · simp at h

/-- Disagreement (C06 for `merge_from` without a common source): a complete bin can be replaced by a longer
incomplete one, so completeness is lost. -/
theorem C06_merge_can_lose_completeness :
    let s := ({} : DataBinSet).set 0 1 ⟨[1, 2], true⟩
    let o := ({} : DataBinSet).set 0 1 ⟨[9, 9, 9], false⟩
    s.isComplete 0 1 = true ∧ (s.mergeFrom o).isComplete 0 1 = false ∧
      (s.mergeFrom o).get 0 1 = [9, 9, 9] := by
  decide

end Verif.Jpip
