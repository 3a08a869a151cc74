import Verif.Ht.Refine

/-!
# HT decoder for any number of coding passes

Model of `htj2k_dec_setup`, `htj2k_dec_finish` and `htj2k_decode_su` (source/core/coding/ht_block_decoding.cpp 941-1130) in the
scalar build, reversible path, without region of interest.
-/

namespace Verif.Ht

/-- The members of `j2k_codeblock` the decoder starts from.  `data` are the `length` bytes at
`get_compressed_data()`; `passLen` are the `pass_length_count` entries of `pass_length`. -/
structure CbIn where
  w : Nat
  h : Nat
  mb : Nat
  zbp : Nat
  causal : Bool
  numPasses : Nat
  passLen : List Nat
  data : List Nat

/-- `ht_dec_setup` (ht_block_decoding.cpp 929-938): `go` when `ok` and not `empty`; `ms` and `seg` are `Dcup[0..Pcup)` and
`Dcup[Pcup..Lcup)` after the `modDcup` change. -/
inductive HtSetup where
  | reject
  | empty
  | go (lcup lref sBlk nHt : Nat) (hasRef : Bool) (ms seg : List Nat)

/-- `P0` (ht_block_decoding.cpp 958-970); the counter is a `uint8_t`. -/
def placeholder (x : CbIn) : Nat :=
  if 3 < x.numPasses then (x.passLen.takeWhile (· == 0)).length % 256 / 3
  else if x.data.length = 0 ∧ x.numPasses ≠ 0 then 1 else 0

/-- `htj2k_dec_setup` (ht_block_decoding.cpp 941-1048).  `Lcup` is the first nonzero entry read as an `int32_t`, `Lref` the sum
of the others modulo `2^32`. -/
def htSetup (x : CbIn) : HtSetup :=
  let p0 := placeholder x
  let emptyPasses := p0 * 3 % 256
  if x.numPasses < emptyPasses then .reject
  else
    let nHt := x.numPasses - emptyPasses
    if nHt = 0 then .empty
    else
      let segs := x.passLen.filter (· ≠ 0)
      match segs with
      | [] => .reject
      | lcup :: refs =>
        if 4 < segs.length then .reject
        else if lcup < 2 ∨ 2 ^ 31 ≤ lcup then .reject
        else if x.data.length < lcup then .reject
        else
          let lref := refs.sum % 2 ^ 32
          if x.data.length - lcup < lref then .reject
          else
            let sBlk := (p0 + x.zbp) % 256
            if 30 ≤ sBlk then .reject
            else match openCup (x.data.take lcup) with
              | none => .reject
              | some (ms, seg) => .go lcup lref sBlk nHt (decide (1 < x.numPasses) && decide (1 < segs.length)) ms seg

/-- What `ht_cleanup_step1_nway<1, false>` leaves in `block_states` (ht_block_decoding.hpp 440-443, 483-493, 548-549, 602-611): it
stores the significances of each quad, which it also puts into the scratch array; the second quad of the last pair of an odd
line counts as insignificant.  `none` when a store would lie outside. -/
def sigmaStates (w h sstr : Nat) (sp : Nat → Nat) (st : Nat → Nat → Nat) : Option (Nat → Nat → Nat) :=
  let qw := (w + 1) / 2
  let qh := (h + 1) / 2
  if 2 * qh < rup8 h + 2 ∧ 4 * ((qw + 1) / 2) < rup8 w + 2 then
    some fun r c =>
      if 1 ≤ r ∧ r ≤ 2 * qh ∧ 1 ≤ c ∧ c ≤ 4 * ((qw + 1) / 2) then
        if c ≤ 2 * qw then (sp ((r - 1) / 2 * sstr + 2 * ((c - 1) / 2)) >>> (4 + ((r - 1) % 2 + 2 * ((c - 1) % 2)))) &&& 1 else 0
      else st r c
  else none

/-- The result of `htj2k_decode`: `false`, `true` with nothing done, or samples. -/
inductive HtRes where
  | rejected
  | untouched
  | samples (f : Nat → Nat → Int)

/-- The byte at `Dref + k`: `Dref` is null, or `lcup` bytes into the data (ht_block_decoding.cpp 1026-1030). -/
def drefByte (x : CbIn) (lcup : Nat) (hasRef : Bool) (k : Nat) : Option Nat := if hasRef then x.data[lcup + k]? else none

/-- The refinement passes of `htj2k_dec_finish` (ht_block_decoding.cpp 1085-1090). -/
def refineDecode (D : Nat → Option Nat) (lref sBlk nHt : Nat) (b : RBlk) : Option RBlk := do
  let b ← if 1 < nHt then sigpropDecode D lref (30 - (sBlk + 1)) b else some b
  if 2 < nHt then magrefDecode D lref (30 - (sBlk + 1)) b else some b

/-- `htj2k_decode` (ht_block_decoding.cpp 1052-1130).  `st` is what `block_states` holds beforehand, `sp` the uninitialised
scratch array, `pm pv pd` the addresses of the three cleanup streams modulo 4.  `none` is undefined behaviour.  With one pass
the states are neither written nor read.  The shift counts at the end must not be negative or too large: `31 - M_b` in 61, when
step 2 stores the coefficients (1060, 1078), and `M_b + 1` in 831 otherwise. -/
def htDecode (x : CbIn) (pm pv pd : Nat) (sp : Nat → Nat) (st : Nat → Nat → Nat) : Option HtRes :=
  match htSetup x with
  | .reject => some .rejected
  | .empty => some .untouched
  | .go lcup lref sBlk nHt hasRef ms seg => do
    let sstr := (x.w + 2 + 7) / 8 * 8
    let sp ← decStep1 ((x.w + 1) / 2) ((x.h + 1) / 2) sstr pm pv seg sp
    let st ← if nHt = 1 then some st else sigmaStates x.w x.h sstr sp st
    let out ← decStep2 x.w x.h (30 - sBlk) sstr pd ms sp
    let b ← refineDecode (drefByte x lcup hasRef) lref sBlk nHt ⟨x.w, x.h, x.causal, st, out⟩
    if (if nHt = 1 ∧ x.h % 2 = 0 then 31 else 30) < x.mb then none
    else return .samples fun y x' => dequant (31 - x.mb) (b.smp y x')

end Verif.Ht
