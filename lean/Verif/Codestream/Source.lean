import Verif.Tactics
/-
Model of the in-memory codestream source, of the chain of tile-part buffers, and of how the body of a tile-part is
delimited.
Source: /repo/source/core/codestream/codestream_source.cpp, codestream.hpp:39-76, 140-342,
/repo/source/core/coding/coding_units.cpp:2748-2788, 4085-4099.
Every operation ends normally, throws, or is undefined (`ub`): a read of memory that is not part of the buffer.
-/
namespace Verif.Cs

/-- Outcome of an operation. -/
inductive Out (α : Type) where
  | ok (a : α)
  | throws
  | ub
  deriving DecidableEq, Repr

/-- Sequencing. -/
def Out.bind {α β : Type} : Out α → (α → Out β) → Out β
  | .ok a, f => f a
  | .throws, _ => .throws
  | .ub, _ => .ub

/-- `uint32_t` subtraction, of values below `2 ^ 32`. -/
def sub32 (a b : Nat) : Nat := if b ≤ a then a - b else a + 2 ^ 32 - b

/-- codestream.hpp:39-76 `j2c_src_memory`; `buf` holds the `len` bytes of the codestream (the 16 bytes of padding after
them are not part of it). -/
structure Src where
  buf : List UInt8
  pos : Nat
  deriving DecidableEq, Repr

/-- codestream_source.cpp:79-87 `get_byte`. -/
def Src.getByte (s : Src) : Out (UInt8 × Src) :=
  if sub32 s.buf.length 1 < s.pos then .throws
  else match s.buf[s.pos]? with
    | none => .ub
    | some b => .ok (b, { s with pos := (s.pos + 1) % 2 ^ 32 })

/-- codestream_source.cpp:105-112 `get_word`.  The two reads are taken left to right, as every compiler does; C++ does not
fix their order. -/
def Src.getWord (s : Src) : Out (Nat × Src) :=
  if sub32 s.buf.length 2 < s.pos then .throws
  else s.getByte.bind fun r => r.2.getByte.bind fun q => .ok (r.1.toNat * 256 + q.1.toNat, q.2)

/-- codestream_source.cpp:89-103 `get_N_byte`. -/
def Src.getBytes (s : Src) (n : Nat) : Out (List UInt8 × Src) :=
  if s.buf.length < s.pos ∨ sub32 s.buf.length s.pos < n then .throws
  else if s.pos + n ≤ s.buf.length then .ok ((s.buf.drop s.pos).take n, { s with pos := (s.pos + n) % 2 ^ 32 })
  else .ub

/-- codestream_source.cpp:114-121 `rewind_2bytes`. -/
def Src.rewind (s : Src) : Out Src := if s.pos < 2 then .throws else .ok { s with pos := s.pos - 2 }

/-- codestream_source.cpp:123-130 `forward_Nbytes`, 32-bit arithmetic. -/
def Src.forward (s : Src) (n : Nat) : Out Src :=
  if (s.pos + n) % 2 ^ 32 ≤ s.buf.length then .ok { s with pos := (s.pos + n) % 2 ^ 32 } else .throws

/-- codestream.hpp:75 `get_remaining`. -/
def Src.remaining (s : Src) : Nat := sub32 s.buf.length s.pos

/-- The operations of the source. -/
inductive Op where
  | byte | word | bytes (n : Nat) | rewind | forward (n : Nat)
  deriving DecidableEq, Repr

/-- What an operation delivers. -/
inductive Val where
  | byte (b : UInt8) | word (w : Nat) | bytes (l : List UInt8) | done
  deriving DecidableEq, Repr

def Src.step (s : Src) : Op → Out (Val × Src)
  | .byte => s.getByte.bind fun r => .ok (.byte r.1, r.2)
  | .word => s.getWord.bind fun r => .ok (.word r.1, r.2)
  | .bytes n => (s.getBytes n).bind fun r => .ok (.bytes r.1, r.2)
  | .rewind => s.rewind.bind fun r => .ok (.done, r)
  | .forward n => (s.forward n).bind fun r => .ok (.done, r)

/-- A sequence of operations; it stops at the first exception. -/
def Src.run : List Op → Src → Out (List Val × Src)
  | [], s => .ok ([], s)
  | op :: ops, s => (s.step op).bind fun r => (Src.run ops r.2).bind fun q => .ok (r.1 :: q.1, q.2)

/-! ### The chain of buffers -/

/-- codestream.hpp:140-158 `buf_chain`: the nodes and the cursor.  `current_buf` and `current_length` are those of node
`nodePos`, as `activate` and `get_byte` keep them.  A node that was never set (null pointer, length 0) is `[]`. -/
structure Chain where
  nodes : List (List UInt8)
  nodePos : Nat
  pos : Nat
  deriving DecidableEq, Repr

/-- codestream.hpp:237-243 `activate`. -/
def Chain.activate (nodes : List (List UInt8)) : Out Chain :=
  match nodes with
  | [] => .ub
  | _ :: _ => .ok ⟨nodes, 0, 0⟩

/-- The length of the current node. -/
def Chain.curLen (c : Chain) : Nat := (c.nodes.getD c.nodePos []).length

/-- `*(current_buf + pos++)`. -/
def Chain.deref (c : Chain) : Out (UInt8 × Chain) :=
  match (c.nodes.getD c.nodePos [])[c.pos]? with
  | none => .ub
  | some b => .ok (b, { c with pos := c.pos + 1 })

/-- codestream.hpp:293-305 `get_byte`.  `current_length - 1` is a 32-bit subtraction. -/
def Chain.getByte (c : Chain) : Out (UInt8 × Chain) :=
  if sub32 c.curLen 1 < c.pos then
    if c.nodes.length ≤ c.nodePos + 1 then .ok (0, c)
    else Chain.deref { c with nodePos := c.nodePos + 1, pos := 0 }
  else c.deref

/-- codestream.hpp:289-291 `get_current_node_remaining_bytes`. -/
def Chain.nodeRemaining (c : Chain) : Nat := if c.pos < c.curLen then c.curLen - c.pos else 0

/-- codestream.hpp:336-341 `borrow_N_bytes` (the assertion is compiled out). -/
def Chain.borrow (c : Chain) (n : Nat) : Out (List UInt8 × Chain) :=
  if c.pos + n ≤ c.curLen then .ok (((c.nodes.getD c.nodePos []).drop c.pos).take n, { c with pos := c.pos + n }) else .ub

/-- coding_units.cpp:1468-1473, 1550-1553: body bytes are borrowed only after clamping to what the node still holds. -/
def Chain.body (c : Chain) (n : Nat) : Out (List UInt8 × Chain) := c.borrow (min n c.nodeRemaining)

/-- codestream.hpp:275-279 `get_total_position`. -/
def Chain.totalPos (c : Chain) : Nat := c.pos + ((c.nodes.take c.nodePos).map List.length).sum

/-- Packet parsing uses a chain through these two operations. -/
inductive COp where
  | byte | body (n : Nat)
  deriving DecidableEq, Repr

/-- The bytes one operation delivers. -/
def Chain.step (c : Chain) : COp → Out (List UInt8 × Chain)
  | .byte => c.getByte.bind fun r => .ok ([r.1], r.2)
  | .body n => c.body n

def Chain.run : List COp → Chain → Out (List (List UInt8) × Chain)
  | [], c => .ok ([], c)
  | op :: ops, c => (c.step op).bind fun r => (Chain.run ops r.2).bind fun q => .ok (r.1 :: q.1, q.2)

/-- coding_units.cpp:4085-4098: the nodes of a tile.  `num_tile_part` is a `uint8_t` (coding_units.hpp:691, incremented at
4005).  There are as many nodes as it says; the bodies that are not empty fill them from the front, the others stay
unset. -/
def tileNodes (parts : List (List UInt8)) : List (List UInt8) :=
  let ps := parts.take (parts.length % 256)
  ps.filter (· ≠ []) ++ List.replicate (ps.filter (· = [])).length []

/-! ### The body of a tile-part -/

/-- coding_units.cpp:2762-2767: the search for the last EOC, for `i` from the given value down to 2. -/
def eocScan (rest : List UInt8) : Nat → Option Nat
  | 0 => none
  | 1 => none
  | i + 2 => if rest.getD i 0 = 0xFF ∧ rest.getD (i + 1) 0 = 0xD9 then some i else eocScan rest (i + 1)

/-- coding_units.cpp:2751-2777: the length of the body; `markers` is the length of the tile-part header, `rest` what the
source still holds. -/
def bodyLength (psot markers : Nat) (rest : List UInt8) : Nat :=
  if psot = 0 then (eocScan rest rest.length).getD (if 2 ≤ rest.length then rest.length - 2 else 0)
  else min (sub32 psot markers) rest.length

/-- coding_units.cpp:2748-2788 `j2k_tile_part::read`, after the header: the body and the source behind it. -/
def readBody (s : Src) (psot markers : Nat) : Out (List UInt8 × Src) :=
  let n := bodyLength psot markers (s.buf.drop s.pos)
  (s.forward n).bind fun s' => .ok ((s.buf.drop s.pos).take n, s')

end Verif.Cs
