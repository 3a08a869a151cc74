import Verif.Rtp.Handler

/-!
# RTP and RFC 9828 header parsing

Models source/apps/rtp_recv/rfc9828_parser.cpp and the packet loop of pipeline_multi_threaded.cpp:73-101 (the same
text is in pipeline_single_threaded.cpp:119-148).  A packet is a list of bytes.  Every parser returns `none` when it
reads outside the packet, `some none` when it rejects and `some (some h)` when it accepts.  The error texts are left
out.
-/

namespace Verif.Rtp

/-- rfc9828_parser.cpp:11-13 `rd_u16_be`. -/
def rd16 (d : List Nat) (i : Nat) : Option Nat := do
  let a ← d[i]?
  let b ← d[i + 1]?
  return (a <<< 8) ||| b

/-- rfc9828_parser.cpp:14-17 `rd_u32_be`. -/
def rd32 (d : List Nat) (i : Nat) : Option Nat := do
  let a ← d[i]?
  let b ← d[i + 1]?
  let c ← d[i + 2]?
  let e ← d[i + 3]?
  return (a <<< 24) ||| (b <<< 16) ||| (c <<< 8) ||| e

/-- rfc9828_parser.hpp:27-40 `RtpHeader`. -/
structure RtpHeader where
  version : Nat
  padding : Bool
  extension : Bool
  csrcCount : Nat
  marker : Bool
  payloadType : Nat
  sequence : Nat
  timestamp : Nat
  ssrc : Nat
  payloadOffset : Nat
deriving DecidableEq

/-- rfc9828_parser.cpp:20-67 `parse_rtp_header`. -/
def parseRtp (d : List Nat) : Option (Option RtpHeader) :=
  if d.length < 12 then some none
  else do
    let b0 ← d[0]?
    let b1 ← d[1]?
    let sq ← rd16 d 2
    let ts ← rd32 d 4
    let ssrc ← rd32 d 8
    let cc := b0 &&& 0x0F
    let h : RtpHeader := ⟨b0 >>> 6, (b0 &&& 0x20) != 0, (b0 &&& 0x10) != 0, cc, (b1 &&& 0x80) != 0, b1 &&& 0x7F, sq, ts, ssrc, 0⟩
    if h.version ≠ 2 then some none
    else
      let offset := 12 + cc * 4
      if d.length < offset then some none
      else if h.extension then
        if d.length < offset + 4 then some none
        else do
          let words ← rd16 d (offset + 2)
          let ext := 4 + words * 4
          if d.length < offset + ext then some none
          else some (some { h with payloadOffset := offset + ext })
      else some (some { h with payloadOffset := offset })

/-- rfc9828_parser.hpp:48-69 `MainPacketHeader`; the colour fields are a `Meta`. -/
structure MainHeader where
  mh : Nat
  p : Bool
  xtrac : Nat
  ptstamp : Nat
  eseq : Nat
  info : Meta
  offset : Nat
deriving DecidableEq

/-- rfc9828_parser.cpp:69-143 `parse_main_packet_header`. -/
def parseMain (d : List Nat) : Option (Option MainHeader) :=
  if d.length < 8 then some none
  else do
    let b0 ← d[0]?
    let mh := (b0 >>> 6) &&& 0x03
    let tp := (b0 >>> 3) &&& 0x07
    let ordh := b0 &&& 0x07
    if mh = 0 then some none
    else do
      let b1 ← d[1]?
      let b2 ← d[2]?
      let eseq ← d[3]?
      let xtrac := (b1 >>> 4) &&& 0x07
      let pt := ((b1 &&& 0x0F) <<< 8) ||| b2
      if xtrac ≠ 0 then some none
      else do
        let b4 ← d[4]?
        let r := (b4 &&& 0x80) != 0
        let s := (b4 &&& 0x40) != 0
        let c := (b4 &&& 0x20) != 0
        let range := (b4 &&& 0x01) != 0
        if (b4 >>> 1) &&& 0x0F ≠ 0 then some none
        else do
          let prims ← d[5]?
          let trans ← d[6]?
          let mat ← d[7]?
          if !s && (prims != 0 || trans != 0 || mat != 0 || range) then some none
          else if c && !r then some none
          else some (some ⟨mh, (b1 &&& 0x80) != 0, xtrac, pt, eseq, ⟨tp, ordh, r, s, c, range, prims, trans, mat⟩, 8⟩)

/-- rfc9828_parser.hpp:74-86 `BodyPacketHeader`. -/
structure BodyHeader where
  mh : Nat
  tp : Nat
  res : Nat
  ordb : Bool
  qual : Nat
  ptstamp : Nat
  eseq : Nat
  pos : Nat
  pid : Nat
  offset : Nat
deriving DecidableEq

/-- rfc9828_parser.cpp:145-193 `parse_body_packet_header`. -/
def parseBody (d : List Nat) : Option (Option BodyHeader) :=
  if d.length < 8 then some none
  else do
    let b0 ← d[0]?
    let mh := (b0 >>> 6) &&& 0x03
    if mh ≠ 0 then some none
    else do
      let b1 ← d[1]?
      let b2 ← d[2]?
      let eseq ← d[3]?
      let b4 ← d[4]?
      let b5 ← d[5]?
      let b6 ← d[6]?
      let b7 ← d[7]?
      let ordb := (b1 &&& 0x80) != 0
      let pos := (b4 <<< 4) ||| (b5 >>> 4)
      let pid := ((b5 &&& 0x0F) <<< 16) ||| (b6 <<< 8) ||| b7
      if !ordb && (pos != 0 || pid != 0) then some none
      else some (some ⟨mh, (b0 >>> 3) &&& 0x07, b0 &&& 0x07, ordb, (b1 >>> 4) &&& 0x07, ((b1 &&& 0x0F) <<< 8) ||| b2, eseq,
        pos, pid, 8⟩)

/-- pipeline_multi_threaded.cpp:73-101: what one datagram hands to the frame handler, if anything.  `List.drop`
of an offset beyond the end would hide a wrong pointer, so the offsets are checked: an offset beyond the packet is
`none`. -/
def receive (d : List Nat) : Option (Option Pkt) :=
  if d.length < 12 then some none
  else do
    match ← parseRtp d with
    | none => some none
    | some rtp =>
      if d.length ≤ rtp.payloadOffset then some none
      else
        let payload := d.drop rtp.payloadOffset
        if payload.length < 8 then some none
        else do
          let b ← payload[0]?
          if b >>> 6 = 0 then do
            match ← parseBody payload with
            | none => some none
            | some h =>
              if payload.length < h.offset then none
              else some (some ⟨none, h.eseq, rtp.sequence, rtp.timestamp, rtp.marker, payload.drop h.offset⟩)
          else do
            match ← parseMain payload with
            | none => some none
            | some h =>
              if payload.length < h.offset then none
              else some (some ⟨some h.info, h.eseq, rtp.sequence, rtp.timestamp, rtp.marker, payload.drop h.offset⟩)

end Verif.Rtp
