import Verif.Rtp.Handler

/-!
# What a complete frame is

Independent of the handler: which consecutive packets of a received history make up a frame, and what it contains.
-/

namespace Verif.Rtp

/-- The 24-bit extended sequence number of RFC 9828: `eseq` above the 16-bit RTP sequence number. -/
def Pkt.number (p : Pkt) : Nat := p.eseq * 65536 + p.seq

/-- Field widths of a received packet. -/
def Pkt.Ok (p : Pkt) : Prop := p.eseq < 256 ∧ p.seq < 65536

/-- `b` is the packet sent right after `a`. -/
def Next (a b : Pkt) : Prop := b.number = (a.number + 1) % 2 ^ 24

/-- A Main Packet that announces main-header reuse and carries one. -/
def Pkt.reusable (p : Pkt) : Bool := (p.main.map (·.r)).getD false && !p.bytes.isEmpty

/-- The main header kept for later frames: that of the latest reusable Main Packet received. -/
def keptHeader (h : List Pkt) : Option (List Nat) := ((h.filter Pkt.reusable).getLast?).map (·.bytes)

/-- `seg` is the run of packets received after `pre` with one timestamp, up to the first marker; the packet before it
does not belong to it. -/
structure IsRun (pre seg : List Pkt) : Prop where
  ne : seg ≠ []
  ts : ∀ a ∈ seg, ∀ b ∈ seg, a.ts = b.ts
  open_ : ∀ a ∈ seg.dropLast, a.marker = false
  start : ∀ a ∈ pre.getLast?, ∀ b ∈ seg.head?, a.marker = true ∨ a.ts ≠ b.ts

/-- No packet was lost, repeated or reordered within the run or just before it. -/
def Gapless (pre seg : List Pkt) : Prop := (pre.getLast?.toList ++ seg).IsChain Next

/-- What goes before the payloads: nothing when the run begins with a Main Packet, else the kept main header. -/
def headerFor (pre : List Pkt) (seg : List Pkt) : Option (List Nat) :=
  if (seg.head?.bind (·.main)).isSome then some [] else keptHeader pre

/-- The colour fields of the last Main Packet of the run. -/
def metaOf (seg : List Pkt) : Option Meta := (seg.filterMap (·.main)).getLast?

/-- The packets `seg`, received right after `pre`, make up the complete frame `f`. -/
structure Completes (pre seg : List Pkt) (f : Frame) : Prop where
  run : IsRun pre seg
  closed : ∀ a ∈ seg.getLast?, a.marker = true
  gapless : Gapless pre seg
  bytes : ∃ hd, headerFor pre seg = some hd ∧ f.bytes = hd ++ seg.flatMap (·.bytes)
  nonempty : f.bytes ≠ []
  ts : ∀ a ∈ seg, f.ts = a.ts
  first : ∀ a ∈ seg.head?, f.first = a.number
  last : ∀ a ∈ seg.getLast?, f.last = a.number
  count : f.count = seg.length
  hasMeta : f.hasMeta = (metaOf seg).isSome
  info : ∀ m ∈ metaOf seg, f.info = m

end Verif.Rtp
