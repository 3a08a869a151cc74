import Verif.Tactics

/-!
# Reassembly of RTP packets into frames

Models source/apps/rtp_recv/frame_handler.{hpp,cpp}.  Buffers are byte lists (`Nat`); capacities, the buffer pool and
the statistics that no claim uses are left out.  `bytes_received`, the counters and the sequence numbers are natural
numbers; the 64-bit counters are taken not to wrap.
-/

namespace Verif.Rtp

/-- The colour and ordering fields of a Main Packet header that the handler copies (frame_handler.cpp:179-189). -/
structure Meta where
  tp : Nat := 0
  ordh : Nat := 0
  r : Bool := false
  s : Bool := false
  c : Bool := false
  range : Bool := false
  prims : Nat := 0
  trans : Nat := 0
  mat : Nat := 0
deriving DecidableEq

/-- A parsed packet as handed to `push_main_packet` (`main = some _`) or `push_body_packet` (`main = none`). -/
structure Pkt where
  main : Option Meta
  eseq : Nat
  seq : Nat
  ts : Nat
  marker : Bool
  bytes : List Nat
deriving DecidableEq

/-- frame_handler.hpp:82-101 `AssembledFrame`. -/
structure Frame where
  bytes : List Nat
  ts : Nat
  first : Nat
  last : Nat
  count : Nat
  hasMeta : Bool
  info : Meta
deriving DecidableEq

/-- frame_handler.hpp:157-205: the members of `FrameHandler`. -/
structure Handler where
  accum : List Nat := []
  cached : List Nat := []
  haveCached : Bool := false
  haveFrame : Bool := false
  ts : Nat := 0
  first : Nat := 0
  last : Nat := 0
  count : Nat := 0
  intact : Bool := true
  lastMarker : Bool := false
  hasMeta : Bool := false
  info : Meta := {}
  firstEver : Bool := true
  lastSeq : Nat := 0
  emitted : Nat := 0
  dropped : Nat := 0
  packets : Nat := 0
  gaps : Nat := 0
  tailLoss : Nat := 0
deriving DecidableEq

/-- frame_handler.hpp:147-149 `make_ext_seq`. -/
def extSeq (p : Pkt) : Nat := (p.eseq <<< 16) ||| p.seq

/-- frame_handler.cpp:23-49 `reset`. -/
def Handler.reset (_ : Handler) : Handler := {}

/-- frame_handler.cpp:51-63 `track_sequence`. -/
def Handler.track (s : Handler) (e : Nat) : Handler :=
  if s.firstEver then { s with firstEver := false, lastSeq := e }
  else
    let expected := (s.lastSeq + 1) &&& 0x00FFFFFF
    if e ≠ expected then { s with gaps := s.gaps + 1, intact := false, lastSeq := e } else { s with lastSeq := e }

/-- frame_handler.cpp:65-72 `start_frame_empty`. -/
def Handler.startEmpty (s : Handler) : Handler :=
  { s with accum := [], haveFrame := true, count := 0, intact := true, lastMarker := false, hasMeta := false }

/-- frame_handler.cpp:74-88 `start_frame_with_main_prepend`. -/
def Handler.startPrepend (s : Handler) : Handler :=
  { s with
    accum := if s.haveCached then s.cached else []
    haveFrame := true
    count := 0
    intact := s.haveCached
    lastMarker := false
    hasMeta := false }

/-- frame_handler.cpp:90-139 `finalize_frame`; `out` is the caller's output slot. -/
def Handler.finalize (s : Handler) (out : Option Frame) : Handler × Option Frame :=
  if s.haveFrame = false then (s, out)
  else
    let s := if s.intact && !s.lastMarker then { s with intact := false, tailLoss := s.tailLoss + 1 } else s
    let r : Handler × Option Frame :=
      if s.intact && !s.accum.isEmpty then
        ({ s with emitted := s.emitted + 1, accum := [] },
          some ⟨s.accum, s.ts, s.first, s.last, s.count, s.hasMeta, s.info⟩)
      else ({ s with dropped := s.dropped + 1, accum := [] }, out)
    ({ r.1 with haveFrame := false, count := 0, intact := true, hasMeta := false }, r.2)

/-- frame_handler.cpp:141-206 `push_main_packet` and 208-244 `push_body_packet`: they differ in how a frame is started
and in the fields a Main Packet records. -/
def Handler.push (s : Handler) (p : Pkt) : Handler × Option Frame :=
  let s := { s with packets := s.packets + 1 }
  let e := extSeq p
  let r := if s.haveFrame && p.ts != s.ts then s.finalize none else (s, none)
  let s := r.1
  let out := r.2
  let s :=
    if s.haveFrame then s
    else
      let s := { s with ts := p.ts, first := e }
      if p.main.isSome then s.startEmpty else s.startPrepend
  let s := s.track e
  let s := { s with last := e, count := s.count + 1, accum := s.accum ++ p.bytes, lastMarker := p.marker }
  let s :=
    match p.main with
    | none => s
    | some m =>
      let s := { s with hasMeta := true, info := m }
      if m.r && !p.bytes.isEmpty then { s with cached := p.bytes, haveCached := true } else s
  if p.marker then s.finalize out else (s, out)

/-- The receive loop: the handler is fed every packet in turn; the frames handed out, one slot per packet. -/
def Handler.run (s : Handler) : List Pkt → Handler × List (Option Frame)
  | [] => (s, [])
  | p :: ps =>
    let r := s.push p
    let t := r.1.run ps
    (t.1, r.2 :: t.2)

end Verif.Rtp
