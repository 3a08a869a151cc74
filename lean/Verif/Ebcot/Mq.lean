import Verif.Tactics
import Mathlib.Logic.Function.Basic
/-
The MQ arithmetic decoder of the Part 1 block decoder, source/core/coding/mq_decoder.{hpp,cpp}.
-/
namespace Verif.Ebcot

/-- What the C++ code must not do: read outside the buffer, index a table past its end, leave the range of `int32_t`
(a left shift of a signed number out of range is undefined, or at best implementation-defined, before C++20; the build
asks for C++17 at most), or let the interval register go negative. `fuel` marks a loop that would not end. -/
inductive MqErr where
  | oob | index | overflow | negative | fuel
deriving DecidableEq, Repr

/-- mq_decoder.hpp:36-56: the members of `mq_decoder`. `sigma` and `mps` are the two rows of `dynamic_table`. The
registers are `int32_t` in the code; they never go negative (`MqErr.negative`) and leaving the range is an error
(`chk`), so they are natural numbers here. -/
structure Mq where
  A : Nat
  t : Nat
  C : Nat
  T : Nat
  L : Nat
  Lmax : Nat
  sigma : Nat → Nat
  mps : Nat → Nat

/-- mq_decoder.cpp:40: `Areg_min`, with `MQMINOFF` 8 (`MQNAIVE` is not defined). -/
def aregMin : Nat := 2 ^ 23

/-- mq_decoder.cpp:44-50: `static_table`. -/
def staticTable : List Nat :=
  [0x81015601, 0x02063401, 0x03091801, 0x040c0ac1, 0x051d0521, 0x26210221, 0x87065601, 0x080e5401,
   0x090e4801, 0x0a0e3801, 0x0b113001, 0x0c122401, 0x0d141c01, 0x1d151601, 0x8f0e5601, 0x100e5401,
   0x110f5101, 0x12104801, 0x13113801, 0x14123401, 0x15133001, 0x16132801, 0x17142401, 0x18152201,
   0x19161c01, 0x1a171801, 0x1b181601, 0x1c191401, 0x1d1a1201, 0x1e1b1101, 0x1f1c0ac1, 0x201d09c1,
   0x211e08a1, 0x221f0521, 0x23200441, 0x242102a1, 0x25220221, 0x26230141, 0x27240111, 0x28250085,
   0x29260049, 0x2a270025, 0x2b280015, 0x2c290009, 0x2d2a0005, 0x2d2b0001, 0x2e2e5601]

/-- A value about to be stored in an `int32_t`. -/
def chk (n : Nat) : Except MqErr Nat := if n < 2 ^ 31 then .ok n else .error .overflow

/-- `byte_buffer[L]`; `buf` is the memory the decoder may read. -/
def rdByte (buf : List Nat) (i : Nat) : Except MqErr Nat :=
  match buf[i]? with
  | some b => .ok b
  | none => .error .oob

/-- mq_decoder.cpp:124-137: `fill_LSBs`. The byte is looked at on every path on which `L != Lmax`. -/
def fill (buf : List Nat) (s : Mq) : Except MqErr Mq :=
  if s.L = s.Lmax then (chk (s.C + 0xFF)).map fun c => { s with t := 8, C := c }
  else
    (rdByte buf s.L).bind fun b =>
      if s.T = 0xFF ∧ 0x8F < b then (chk (s.C + 0xFF)).map fun c => { s with t := 8, C := c }
      else
        let t := if s.T = 0xFF then 7 else 8
        (chk (s.C + b * 2 ^ (8 - t))).map fun c => { s with t := t, T := b, L := s.L + 1, C := c }

/-- `A <<= n; C <<= n; t -= n` in mq_decoder.cpp:99-121. -/
def shiftBy (n : Nat) (s : Mq) : Except MqErr Mq :=
  (chk (s.A * 2 ^ n)).bind fun a => (chk (s.C * 2 ^ n)).map fun c => { s with A := a, C := c, t := s.t - n }

/-- mq_decoder.cpp:113-120: the `do … while (n > 0)` loop. The first argument bounds the number of rounds. -/
def renormLoop (buf : List Nat) : Nat → Nat → Mq → Except MqErr Mq
  | 0, _, _ => .error .fuel
  | k + 1, n, s =>
    (fill buf s).bind fun s1 =>
      let shift := if n ≤ s1.t then n else s1.t
      (shiftBy shift s1).bind fun s2 =>
        if 0 < n - shift then renormLoop buf k (n - shift) s2 else .ok s2

/-- utils.hpp `count_leading_zeros` on a 32-bit number. -/
def clz32 (a : Nat) : Nat := if a = 0 then 32 else 31 - Nat.log2 a

/-- mq_decoder.cpp:99-122: `renormalize`. A negative shift count is undefined. -/
def renormalize (buf : List Nat) (s : Mq) : Except MqErr Mq :=
  if clz32 s.A < 8 then .error .negative
  else
    let n := clz32 s.A - 8
    (if s.t = 0 then fill buf s else .ok s).bind fun s1 =>
      if n ≤ s1.t then shiftBy n s1
      else (shiftBy s1.t s1).bind fun s2 => renormLoop buf n (n - s1.t) s2

/-- mq_decoder.cpp:215-231: the tail of `decode` when the interval is renormalised: the symbol, the new state of the
context. -/
def settle (buf : List Nat) (s : Mq) (label val lps : Nat) : Except MqErr (Nat × Mq) :=
  let sk := s.mps label
  let mps := val / 2 ^ 24 % 64
  let lpsNext := val / 2 ^ 16 % 64
  let xs := val / 2 ^ 31
  (renormalize buf s).map fun s1 =>
    (sk ^^^ lps,
     { s1 with
       sigma := Function.update s1.sigma label (if lps = 1 then lpsNext else mps)
       mps := Function.update s1.mps label (sk ^^^ (xs &&& (if lps = 1 then 0xFFFF else 0))) })

/-- mq_decoder.cpp:200-233: `decode` (neither `CDP` nor `MQNAIVE` defined). -/
def decode (buf : List Nat) (s : Mq) (label : Nat) : Except MqErr (Nat × Mq) :=
  if label < 19 then
    match staticTable[s.sigma label]? with
    | none => .error .index
    | some val =>
      let p := val % 2 ^ 16 * 2 ^ 8
      if s.A < p then .error .negative
      else if p ≤ s.C then
        if s.A - p < aregMin then
          settle buf { s with A := s.A - p, C := s.C - p } label val (if s.A - p < p then 1 else 0)
        else .ok (s.mps label, { s with A := s.A - p, C := s.C - p })
      else settle buf { s with A := p } label val (if p ≤ s.A - p then 1 else 0)
  else .error .index

/-- mq_decoder.cpp:55-78: `init`, on a decoder whose context states are those of `s`. -/
def mqInit (buf : List Nat) (s : Mq) (pos len : Nat) (bypass : Bool) : Except MqErr Mq :=
  let s0 := { s with Lmax := pos + len, L := pos, T := 0 }
  if bypass then .ok { s0 with t := 0 }
  else
    (fill buf { s0 with A := aregMin, C := 0 }).bind fun s1 =>
      (chk (s1.C * 2 ^ s1.t)).bind fun c1 =>
        (fill buf { s1 with C := c1 }).bind fun s2 =>
          (chk (s2.C * 2 ^ 7)).map fun c2 => { s2 with C := c2, t := s2.t - 7 }

/-- mq_decoder.cpp:80-88: `init_states_for_all_contexts`. -/
def initStates (s : Mq) : Mq :=
  { s with
    sigma := fun k => if k = 0 then 4 else if k = 17 then 3 else if k = 18 then 46 else 0
    mps := fun _ => 0 }

/-- mq_decoder.cpp:52-53: the constructor. -/
def mqNew : Mq := { A := 0, t := 0, C := 0, T := 0, L := 0, Lmax := 0, sigma := fun _ => 0, mps := fun _ => 0 }

/-- mq_decoder.cpp:284-299: `get_raw_symbol`. -/
def rawSymbol (buf : List Nat) (s : Mq) : Except MqErr (Nat × Mq) :=
  (if s.t = 0 then
    if s.L = s.Lmax then .ok { s with t := 8, T := 0xFF }
    else (rdByte buf s.L).map fun b => { s with t := if s.T = 0xFF then 7 else 8, T := b, L := s.L + 1 }
   else .ok s).map fun s1 => (s1.T / 2 ^ (s1.t - 1) % 2, { s1 with t := s1.t - 1 })

/-- A sequence of calls of `decode`. -/
def decodeAll (buf : List Nat) : Mq → List Nat → Except MqErr (List Nat × Mq)
  | s, [] => .ok ([], s)
  | s, k :: ks =>
    (decode buf s k).bind fun r => (decodeAll buf r.2 ks).map fun q => (r.1 :: q.1, q.2)

end Verif.Ebcot
