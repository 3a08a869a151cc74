import Verif.Jpip.HeaderLemmas
/-
Model of the client data-bin store and of the one-shot and streaming JPP-stream parsers.
Source: /repo/source/core/jpip/jpp_parser.cpp, jpp_parser.hpp.
-/
namespace Verif.Jpip

/-- jpp_parser.hpp:78-81 `DataBinSet::Entry`. -/
structure Entry where
  bytes : List UInt8 := []
  isLast : Bool := false
  deriving DecidableEq, Repr

/-- jpp_parser.hpp:82-85.  `std::map<Key, Entry>` is represented extensionally as a partial function
of (class, in-class id); `eor` merges `eor_received_` and `eor_reason_`. -/
structure DataBinSet where
  bins : Nat → Nat → Option Entry := fun _ _ => none
  eor : Option Nat := none

/-- jpp_parser.cpp:21-23 `contains`. -/
def DataBinSet.contains (s : DataBinSet) (c i : Nat) : Bool := (s.bins c i).isSome

/-- jpp_parser.cpp:25-28 `is_complete`. -/
def DataBinSet.isComplete (s : DataBinSet) (c i : Nat) : Bool :=
  match s.bins c i with
  | none => false
  | some e => e.isLast

/-- jpp_parser.cpp:30-34 `get` (empty vector when unknown). -/
def DataBinSet.get (s : DataBinSet) (c i : Nat) : List UInt8 :=
  match s.bins c i with
  | none => []
  | some e => e.bytes

/-- `bins_[key] = e`. -/
def DataBinSet.set (s : DataBinSet) (c i : Nat) (e : Entry) : DataBinSet :=
  { s with bins := fun c' i' => if c' = c ∧ i' = i then some e else s.bins c' i' }

/-- jpp_parser.cpp:60-77 `append`: (return value, set afterwards).  `Entry &e = bins_[key]` creates an
empty entry even when the append is then rejected. -/
def DataBinSet.append (s : DataBinSet) (c i msgOffset : Nat) (payload : List UInt8) (isLast : Bool) :
    Bool × DataBinSet :=
  let e := (s.bins c i).getD {}
  if e.isLast ∧ payload.length > 0 then (false, s.set c i e)
  else if msgOffset ≠ e.bytes.length then (false, s.set c i e)
  else
    let e1 : Entry := { e with bytes := e.bytes ++ payload }
    let e2 : Entry := if isLast then { e1 with isLast := true } else e1
    (true, s.set c i e2)

/-- jpp_parser.cpp:43-54 `merge_from`, applied to every key of `other`. -/
def DataBinSet.mergeFrom (s other : DataBinSet) : DataBinSet :=
  { s with
    bins := fun c i =>
      match other.bins c i with
      | none => s.bins c i
      | some o =>
        match s.bins c i with
        | none => some o
        | some e =>
          if o.bytes.length > e.bytes.length then some o
          else if o.isLast ∧ ¬ e.isLast then some { e with isLast := true }
          else some e }

/-- jpp_parser.cpp:56-58 `erase`. -/
def DataBinSet.erase (s : DataBinSet) (c i : Nat) : Bool × DataBinSet :=
  ((s.bins c i).isSome,
   { s with bins := fun c' i' => if c' = c ∧ i' = i then none else s.bins c' i' })

/-- jpp_parser.hpp:64 `set_eor`. -/
def DataBinSet.setEor (s : DataBinSet) (reason : Nat) : DataBinSet := { s with eor := some reason }

/-- jpp_parser.cpp:86 `enum class Decoded`; `ok` carries `*consumed`. -/
inductive Decoded where
  | ok (consumed : Nat)
  | needMore
  | malformed
  deriving DecidableEq, Repr

/-- jpp_parser.cpp:88-140 `try_decode_one_message`. -/
def tryDecodeOne (src : List UInt8) (ctx : Ctx) (out : DataBinSet) : Decoded × Ctx × DataBinSet :=
  match src with
  | [] => (.needMore, ctx, out)
  | b0 :: _ =>
    if b0 = 0 then
      -- End-of-response: identifier 0x00, reason byte, VBAS body length, body.
      if src.length < 2 then (.needMore, ctx, out)
      else
        let reason := (src.getD 1 0).toNat
        match vbasDecode (src.drop 2) with
        | none => (if src.length - 2 < kVbasMaxBytes then .needMore else .malformed, ctx, out)
        | some (bodyLen, adv) =>
          if bodyLen > src.length - 2 - adv then (.needMore, ctx, out)
          else (.ok (2 + adv + bodyLen), ctx, out.setEor reason)
    else
      match decodeHeader src ctx with
      | (none, ctx') =>
        if src.length < kMessageHeaderMaxBytes then (.needMore, ctx', out) else (.malformed, ctx', out)
      | (some (hdr, hdrBytes), ctx') =>
        if hdr.msgLength > src.length - hdrBytes then (.needMore, ctx, out)
        else
          match out.append hdr.classId hdr.inClassId hdr.msgOffset
              ((src.drop hdrBytes).take hdr.msgLength) hdr.isLast with
          | (false, out') => (.malformed, ctx, out')
          | (true, out') => (.ok (hdrBytes + hdr.msgLength), ctx', out')

theorem tryDecodeOne_pos {src : List UInt8} {ctx : Ctx} {out : DataBinSet} {n : Nat} {ctx' : Ctx}
    {out' : DataBinSet} (h : tryDecodeOne src ctx out = (.ok n, ctx', out')) :
    0 < n ∧ n ≤ src.length := by
  unfold tryDecodeOne at h
  split at h
  · simp at h
  · rename_i b0 tl
    split at h
    · split at h
      · simp at h
      · rename_i h2
        simp only at h
        split at h
        · split at h <;> simp at h
        · rename_i bl adv hv
          split at h
          · simp at h
          · simp only [Prod.mk.injEq, Decoded.ok.injEq] at h
            have := vbasDecode_bounds hv
            simp at this h2
            simp
            simp at *
            omega
    · split at h
      · split at h <;> simp at h
      · rename_i hdr hb ctx'' hd
        split at h
        · simp at h
        · split at h
          · simp at h
          · simp only [Prod.mk.injEq, Decoded.ok.injEq] at h
            unfold decodeHeader at hd
            split at hd
            · simp at hd
            · rename_i h' pos hf
              simp only [Prod.mk.injEq, Option.some.injEq] at hd
              have := ((decodeHeaderFields_iff _ _ _ _).1 hf).bounds
              omega

/-- Result of running the message loop over a buffer. -/
structure LoopResult where
  /-- `some true`: stopped at a message that needs more bytes; `some false`: buffer or stream finished;
  `none`: malformed. -/
  verdict : Option Bool
  ctx : Ctx
  out : DataBinSet
  rest : List UInt8

/-- The `while (pos < len)` loop shared by `parse_jpp_stream` (jpp_parser.cpp:147-153) and
`StreamingJppParser::feed` (180-188): decode messages until the buffer is used up, a message is
incomplete, a message is malformed, or an end-of-response has been recorded in `out`. -/
def messageLoop (src : List UInt8) (ctx : Ctx) (out : DataBinSet) : LoopResult :=
  if src.isEmpty then ⟨some false, ctx, out, []⟩
  else
    match _h : tryDecodeOne src ctx out with
    | (.malformed, ctx', out') => ⟨none, ctx', out', src⟩
    | (.needMore, ctx', out') => ⟨some true, ctx', out', src⟩
    | (.ok n, ctx', out') =>
      if out'.eor.isSome then ⟨some false, ctx', out', src.drop n⟩
      else messageLoop (src.drop n) ctx' out'
termination_by src.length
decreasing_by
  have := tryDecodeOne_pos _h
  simp; omega

/-- jpp_parser.cpp:143-155 `parse_jpp_stream`. -/
def parseJppStream (bytes : List UInt8) (out : DataBinSet) : Bool × DataBinSet :=
  let r := messageLoop bytes {} out
  (decide (r.verdict = some false), r.out)

/-- jpp_parser.hpp:132-134: state of `StreamingJppParser`. -/
structure Streaming where
  pending : List UInt8 := []
  ctx : Ctx := {}

/-- jpp_parser.cpp:159-194 `StreamingJppParser::feed`.  On a malformed message the joined buffer is
dropped (`pending_` was cleared at line 176 or was already empty). -/
def Streaming.feed (st : Streaming) (bytes : List UInt8) (out : DataBinSet) :
    Bool × Streaming × DataBinSet :=
  if bytes.length = 0 then (true, st, out)
  else
    let r := messageLoop (st.pending ++ bytes) st.ctx out
    match r.verdict with
    | none => (false, { pending := [], ctx := r.ctx }, r.out)
    | some _ => (true, { pending := r.rest, ctx := r.ctx }, r.out)

/-- jpp_parser.hpp:121 `finish`. -/
def Streaming.finish (st : Streaming) : Bool := st.pending.isEmpty

/-- A receive loop over `feed`: chunks are fed as they arrive, stopping at the first protocol error or once
the response has ended (`has_eor`).  Callers in the repository: web/src/jpip_wrapper.cpp:394-425
`jpip_feed_stream` (which itself does not test `has_eor`; see `feed_after_eor_depends_on_chunks`). -/
def receive (st : Streaming) (out : DataBinSet) : List (List UInt8) → Bool × Streaming × DataBinSet
  | [] => (true, st, out)
  | c :: cs =>
    if out.eor.isSome then (true, st, out)
    else
      match st.feed c out with
      | (false, st', out') => (false, st', out')
      | (true, st', out') => receive st' out' cs

end Verif.Jpip
