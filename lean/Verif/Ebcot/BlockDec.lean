import Verif.Ebcot.Block
/-
The driver of the Part 1 code-block decoder: `j2k_decode`, block_decoding.cpp:486-596.
-/
namespace Verif.Ebcot

/-- What `j2k_decode` is given: the fields of `j2k_codeblock` (coding_units.hpp:129-178) and the ROI shift. `buf` is the compressed data, `length` the number
of its bytes that belong to the block, `passLen` the allocated part of `pass_length`. -/
structure CbIn where
  w : Nat
  h : Nat
  orient : Nat
  cmodes : Nat
  mb : Nat
  zbp : Nat
  roi : Nat
  layerPasses : List Nat
  passLen : List Nat
  length : Nat
  buf : List Nat

/-- block_decoding.cpp:489-492: `num_decode_pass`, a `uint8_t`. -/
def CbIn.num (x : CbIn) : Nat := x.layerPasses.foldl (fun n l => (n + l) % 256) 0

/-- block_decoding.cpp:496-498: `max_passes`, an `int32_t`. -/
def CbIn.maxPasses (x : CbIn) : Int := 3 * ((x.mb : Int) + x.roi - x.zbp) - 2

/-- The variables of the loop: `z`, `k`, `p`, `current_segment_pass`, `segment_pos`, `is_bypass`, the code-block and the MQ decoder. -/
structure DecSt where
  z : Nat
  k : Nat
  p : Nat
  csp : Nat
  pos : Nat
  byp : Bool
  b : Blk
  m : Mq

/-- block_decoding.cpp:493, 500-512: before the loop. -/
def CbIn.start (x : CbIn) : DecSt :=
  { z := 0, k := 2, p := ((30 - (x.zbp : Int)) % 256).toNat, csp := 0, pos := 0, byp := false,
    b := freshBlk x.w x.h x.orient (decide (x.cmodes &&& 8 ≠ 0)), m := mqNew }

/-- block_decoding.cpp:514-517: the next bit-plane. -/
def turn (s : DecSt) : DecSt := if s.k = 3 then { s with k := 0, p := (s.p + 255) % 256 } else s

/-- block_decoding.cpp:520-546: the number of passes of the segment and `is_bypass`. -/
def CbIn.segPasses (x : CbIn) (s : DecSt) : Nat × Bool :=
  let c := (x.maxPasses % 256).toNat
  let (c, byp) := if x.cmodes &&& 1 ≠ 0 then (if s.z < 10 then (10 - s.z, s.byp) else if s.k = 2 then (1, false) else (2, true)) else (c, s.byp)
  let c := if x.cmodes &&& 4 ≠ 0 then 1 else c
  (if s.z + c > x.num then x.num - s.z else c, byp)

/-- block_decoding.cpp:548-551: the loop over `pass_length`. -/
def sumLen (passLen : List Nat) (z : Nat) : Nat → Except DErr Nat
  | 0 => .ok 0
  | n + 1 => (sumLen passLen z n).bind fun a => match passLen[z + n]? with
    | some l => .ok ((a + l) % 2 ^ 32)
    | none => .error .oob

/-- block_decoding.cpp:518-560: the beginning of a codeword segment. -/
def CbIn.opening (x : CbIn) (s : DecSt) : Except DErr DecSt :=
  if s.csp = 0 then
    let c := x.segPasses s
    (sumLen x.passLen s.z c.1).bind fun n =>
      if s.pos + n > x.length then .error .throws
      else match mqInit x.buf s.m s.pos n c.2 with
        | .ok m => .ok { s with csp := c.1, byp := c.2, m := m, pos := (s.pos + n) % 2 ^ 32 }
        | .error e => .error (.mq e)
  else .ok s

/-- block_decoding.cpp:581-591: the segmentation symbol. -/
def segMark (buf : List Nat) (m : Mq) : Except DErr Mq :=
  (sym false buf m 18).bind fun a => (sym false buf a.2 18).bind fun b => (sym false buf b.2 18).bind fun c => (sym false buf c.2 18).bind fun d =>
    if a.1 * 8 + b.1 * 4 + c.1 * 2 + d.1 ≠ 10 then .error .throws else .ok d.2

/-- block_decoding.cpp:562-598: the contexts are reset, then the pass. `finish` (mq_decoder.cpp:301-303) does nothing. -/
def CbIn.pass (x : CbIn) (s : DecSt) : Except DErr DecSt :=
  let m := if s.z = 0 ∨ x.cmodes &&& 2 ≠ 0 then initStates s.m else s.m
  (if s.k = 0 then sigPass s.byp x.buf s.p (s.b, m)
   else if s.k = 1 then magPass s.byp x.buf s.p (s.b, m)
   else (cleanPass x.buf s.p (s.b, m)).bind fun q => if x.cmodes &&& 32 ≠ 0 then (segMark x.buf q.2).map fun m => (q.1, m) else .ok q).map fun q =>
    { s with b := q.1, m := q.2, csp := (s.csp + 255) % 256, z := s.z + 1, k := s.k + 1 }

/-- block_decoding.cpp:513-599: the body of the loop. -/
def CbIn.round (x : CbIn) (s : DecSt) : Except DErr DecSt := (x.opening (turn s)).bind x.pass

/-- `n` rounds. -/
def CbIn.rounds (x : CbIn) : Nat → DecSt → Except DErr DecSt
  | 0, s => .ok s
  | n + 1, s => (x.round s).bind (x.rounds n)

/-- block_decoding.cpp:486-599: `j2k_decode` without the dequantization. `z` counts the rounds, from 0 to `num_decode_pass`. -/
def j2kDecode (x : CbIn) : Except DErr Blk := (x.rounds x.num x.start).map fun s => s.b

end Verif.Ebcot
