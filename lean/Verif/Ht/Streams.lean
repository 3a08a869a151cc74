import Verif.Tactics

/-!
# Bit streams of the HT cleanup pass

Model of the scalar build of the HT block coder's bit packers and unpackers:

* `state_MS_enc`  (source/core/coding/ht_block_encoding.hpp 41-77, .cpp 132-216)
* `state_VLC_enc` (hpp 83-98, .cpp 271-291)
* `state_MEL_enc` (hpp 103-129, .cpp 221-266)
* `termMELandVLC` (.cpp 389-409)
* `fwd_buf`       (source/core/coding/ht_block_decoding.hpp 1793-1894)
* `rev_buf`       (hpp 286-394)
* `MEL_dec`       (hpp 134-280)

Conventions.  Bytes and registers are natural numbers; every C++ truncation of a value that could
exceed its register is written out as `% 2^n`.  A buffer that only ever grows is the list of the
bytes written so far, so `pos` is the length of that list.  The `MSNAIVE` variants are not modelled
(the macro is not defined by the build).
-/

namespace Verif.Ht

/-! ## MagSgn encoder -/

/-- `state_MS_enc` (ht_block_encoding.hpp 41-77): `buf` holds the bytes written at `buf[0..pos)`. -/
structure MsEnc where
  buf : List Nat
  creg : Nat
  ctreg : Nat
  last : Nat

/-- Constructor of `state_MS_enc` (ht_block_encoding.hpp 57-71). -/
def MsEnc.init : MsEnc := ⟨[], 0, 0, 0⟩

/-- Body of the stuffing loop of `emit_dword` (ht_block_encoding.cpp 155-166) and of the draining
loop of `termMS` (185-198), without their `ctreg` guard. -/
def MsEnc.emitByte (s : MsEnc) : MsEnc :=
  if s.last = 0xFF then
    { buf := s.buf ++ [s.creg &&& 0x7F], creg := s.creg >>> 7, ctreg := s.ctreg - 7,
      last := s.creg &&& 0x7F }
  else
    { buf := s.buf ++ [s.creg &&& 0xFF], creg := s.creg >>> 8, ctreg := s.ctreg - 8,
      last := s.creg &&& 0xFF }

/-- `state_MS_enc::emit_dword` (ht_block_encoding.cpp 144-167), fast and slow path. -/
def MsEnc.emitDword (s : MsEnc) : MsEnc :=
  if s.last < 0xFF ∧ (s.creg &&& 0xFF) < 0xFF ∧ ((s.creg >>> 8) &&& 0xFF) < 0xFF ∧
      ((s.creg >>> 16) &&& 0xFF) < 0xFF then
    { buf := s.buf ++ [s.creg &&& 0xFF, (s.creg >>> 8) &&& 0xFF, (s.creg >>> 16) &&& 0xFF,
        (s.creg >>> 24) &&& 0xFF],
      creg := s.creg >>> 32, ctreg := s.ctreg - 32, last := (s.creg >>> 24) &&& 0xFF }
  else
    s.emitByte.emitByte.emitByte.emitByte

/-- `while (ctreg >= 32) emit_dword();` (ht_block_encoding.cpp 140-142).  Each round lowers `ctreg`
by at least 28, so `ctreg` rounds of fuel are always enough. -/
def MsEnc.drain : Nat → MsEnc → MsEnc
  | 0, s => s
  | n + 1, s => if 32 ≤ s.ctreg then MsEnc.drain n s.emitDword else s

/-- `state_MS_enc::emitMagSgnBits` (ht_block_encoding.cpp 132-143).  `cwd` is a `uint32_t`, from
which `emb_1 << len` is subtracted modulo 2^32. -/
def MsEnc.emit (s : MsEnc) (cwd len emb1 : Nat) : MsEnc :=
  let c := (cwd + 2 ^ 32 - (emb1 <<< len) % 2 ^ 32) % 2 ^ 32
  let s' : MsEnc := { s with creg := (s.creg ||| (c <<< s.ctreg)) % 2 ^ 64, ctreg := s.ctreg + len }
  MsEnc.drain s'.ctreg s'

/-- The draining loop of `termMS` (ht_block_encoding.cpp 185-198); `ctreg` rounds are enough. -/
def MsEnc.flushBytes : Nat → MsEnc → MsEnc
  | 0, s => s
  | n + 1, s =>
    if s.ctreg < (if s.last = 0xFF then 7 else 8) then s else MsEnc.flushBytes n s.emitByte

/-- The end of `termMS` (ht_block_encoding.cpp 199-215): the bytes `buf[0..Pcup)`. -/
def MsEnc.finish (s : MsEnc) : List Nat :=
  if 0 < s.ctreg then
    let mask := (0xFF <<< s.ctreg) % 256
    let mask := if s.last = 0xFF then mask &&& 0x7F else mask
    let cwd := (s.creg ||| mask) % 256
    if cwd ≠ 0xFF then s.buf ++ [cwd] else s.buf
  else if s.last = 0xFF then s.buf.dropLast
  else s.buf

/-- `state_MS_enc::termMS` (ht_block_encoding.cpp 170-216). -/
def MsEnc.term (s : MsEnc) : List Nat := (MsEnc.flushBytes s.ctreg s).finish

/-- Emit a list of MagSgn fields, each `(cwd, len, emb_1)`, then terminate: the calls that
`htj2k_cleanup_encode` makes on `MagSgn_encoder` (ht_block_encoding.cpp 582-598, 641-648, 730-746,
799-806 and 812). -/
def msEncode (fs : List (Nat × Nat × Nat)) : List Nat :=
  (fs.foldl (fun s f => s.emit f.1 f.2.1 f.2.2) MsEnc.init).term

/-! ## Forward and reverse bit readers -/

/-- The state of `fwd_buf` (ht_block_decoding.hpp 1795-1801) and of `rev_buf` (288-292).  `rest`
holds the `length` bytes not yet consumed, in reading order. -/
structure BitRd where
  creg : Nat
  bits : Nat
  unstuff : Bool
  rest : List Nat

/-- The next byte to be consumed, `X` when the segment is exhausted
(ht_block_decoding.hpp 1812-1817, 1832-1851; 331-347). -/
def BitRd.head (X : Nat) (s : BitRd) : Nat := s.rest.headD X

/-- One round of the alignment loop of the `fwd_buf` constructor (ht_block_decoding.hpp
1810-1821). -/
def fwdPush (X : Nat) (s : BitRd) : BitRd :=
  let d := s.head X
  { creg := (s.creg ||| (d <<< s.bits)) % 2 ^ 64, bits := s.bits + (8 - s.unstuff.toNat),
    unstuff := d == 0xFF, rest := s.rest.tail }

/-- `fwd_buf::read` (ht_block_decoding.hpp 1825-1871); `none` is the thrown exception.  `val` packs
the next four bytes (`X` where the segment is exhausted); `b0 … b3` are its bytes.  Only called with
`X = 0xFF` by the cleanup pass. -/
def fwdRead (X : Nat) (s : BitRd) : Option BitRd :=
  if 32 < s.bits then none
  else
    let b0 := s.rest.getD 0 X
    let b1 := s.rest.getD 1 X
    let b2 := s.rest.getD 2 X
    let b3 := s.rest.getD 3 X
    let n1 := 8 - s.unstuff.toNat
    let n2 := n1 + (8 - (b0 == 0xFF).toNat)
    let n3 := n2 + (8 - (b1 == 0xFF).toNat)
    let n4 := n3 + (8 - (b2 == 0xFF).toNat)
    let t := (b0 ||| (b1 <<< n1) ||| (b2 <<< n2) ||| (b3 <<< n3)) % 2 ^ 32
    some { creg := (s.creg ||| (t <<< s.bits)) % 2 ^ 64, bits := s.bits + n4,
           unstuff := b3 == 0xFF, rest := s.rest.drop 4 }

/-- `n` rounds of `fwdPush`. -/
def fwdPushes (X : Nat) : Nat → BitRd → BitRd
  | 0, s => s
  | n + 1, s => fwdPushes X n (fwdPush X s)

/-- Constructor of `fwd_buf` (ht_block_decoding.hpp 1804-1823); `p` is the address of the buffer
modulo 4. -/
def fwdInit (X : Nat) (p : Nat) (bytes : List Nat) : Option BitRd :=
  fwdRead X (fwdPushes X (4 - p) ⟨0, 0, false, bytes⟩)

/-- `fwd_buf::fetch` (ht_block_decoding.hpp 1886-1893). -/
def fwdFetch (X : Nat) (s : BitRd) : Option (Nat × BitRd) := do
  let s ← if s.bits < 32 then fwdRead X s else some s
  let s ← if s.bits < 32 then fwdRead X s else some s
  return (s.creg % 2 ^ 32, s)

/-- `fwd_buf::advance` (ht_block_decoding.hpp 1873-1884) and `rev_buf::advance` (385-393): consume
`n` bits; `none` is the thrown exception.  (A GCC build of `fwd_buf::advance` only prints; the
property shows the branch is not reached.) -/
def BitRd.advance (s : BitRd) (n : Nat) : Option BitRd :=
  if s.bits < n then none else some { s with creg := s.creg >>> n, bits := s.bits - n }

/-! ## VLC encoder -/

/-- `MAX_Lcup`, `MAX_Scup` (ht_block_encoding.hpp 35-36). -/
def maxLcup : Nat := 16834
@[inherit_doc maxLcup]
def maxScup : Nat := 4079

/-- `state_VLC_enc` (ht_block_encoding.hpp 83-98): `buf` holds the bytes written so far, first
written first (they sit at falling addresses `MAX_Scup - 1, MAX_Scup - 2, …`). -/
structure VlcEnc where
  buf : List Nat
  tmp : Nat
  last : Nat
  bits : Nat

/-- Constructor of `state_VLC_enc` (ht_block_encoding.hpp 94-96). -/
def VlcEnc.init : VlcEnc := ⟨[0xFF], 0xF, 0xFF, 4⟩

/-- One round of the loop of `emitVLCBits` (ht_block_encoding.cpp 273-290): the new state and how
many bits of the codeword it took. -/
def VlcEnc.round (s : VlcEnc) (cwd len : Nat) : VlcEnc × Nat :=
  let avail := 8 - (if 0x8F < s.last then 1 else 0) - s.bits
  let t := min avail len
  let tmp := s.tmp ||| (((cwd &&& ((1 <<< t) - 1)) <<< s.bits) % 256)
  let bits := s.bits + t
  if avail - t = 0 then
    if 0x8F < s.last ∧ tmp ≠ 0x7F then ({ s with tmp := tmp, bits := bits, last := 0 }, t)
    else ({ buf := s.buf ++ [tmp], tmp := 0, last := tmp, bits := 0 }, t)
  else ({ s with tmp := tmp, bits := bits }, t)

/-- The loop of `emitVLCBits` (ht_block_encoding.cpp 273-290).  `none` means the fuel ran out, i.e.
the C++ loop did not finish within `len` rounds. -/
def VlcEnc.loop : Nat → VlcEnc → Nat → Nat → Option VlcEnc
  | fuel, s, cwd, len =>
    if len = 0 then some s
    else match fuel with
      | 0 => none
      | fuel + 1 =>
        let r := s.round cwd len
        VlcEnc.loop fuel r.1 (cwd >>> r.2) (len - r.2)

/-- `state_VLC_enc::emitVLCBits` (ht_block_encoding.cpp 271-291). -/
def VlcEnc.emit (s : VlcEnc) (cwd len : Nat) : Option VlcEnc := VlcEnc.loop len s cwd len

/-- Emit a list of `(cwd, len)` codewords. -/
def VlcEnc.emitAll (s : VlcEnc) : List (Nat × Nat) → Option VlcEnc
  | [] => some s
  | c :: cs => (s.emit c.1 c.2).bind fun s' => s'.emitAll cs

/-! ## VLC decoder -/

/-- Number of bits a byte contributes to the reverse stream: a byte whose seven low bits are ones
carries a stuffing bit when the previous byte exceeded 0x8F (ht_block_decoding.hpp 313, 356). -/
def revWidth (u : Bool) (d : Nat) : Nat := 8 - (u && ((d &&& 0x7F) == 0x7F)).toNat

/-- One round of the alignment loop of `rev_buf::init` (ht_block_decoding.hpp 310-318). -/
def revPush (s : BitRd) (d : Nat) : BitRd :=
  { creg := (s.creg ||| (d <<< s.bits)) % 2 ^ 64, bits := s.bits + revWidth s.unstuff d,
    unstuff := decide (0x8F < d), rest := s.rest.tail }

/-- `rev_buf::read` (ht_block_decoding.hpp 325-373).  `val` packs the next four bytes, nearest the
end of the segment in its top byte, zeros where the segment is exhausted; `b0 … b3` are its bytes
in reading order. -/
def revRead (s : BitRd) : BitRd :=
  if 32 < s.bits then s
  else
    let b0 := s.rest.getD 0 0
    let b1 := s.rest.getD 1 0
    let b2 := s.rest.getD 2 0
    let b3 := s.rest.getD 3 0
    let n1 := revWidth s.unstuff b0
    let n2 := n1 + revWidth (decide (0x8F < b0)) b1
    let n3 := n2 + revWidth (decide (0x8F < b1)) b2
    let n4 := n3 + revWidth (decide (0x8F < b2)) b3
    let t := (b0 ||| (b1 <<< n1) ||| (b2 <<< n2) ||| (b3 <<< n3)) % 2 ^ 32
    { creg := (s.creg ||| (t <<< s.bits)) % 2 ^ 64, bits := s.bits + n4,
      unstuff := decide (0x8F < b3), rest := s.rest.drop 4 }

/-- `n` rounds of the alignment loop of `rev_buf::init` (ht_block_decoding.hpp 310-318); it stops
early when the segment ends (`tnum`, line 309). -/
def revPushes : Nat → BitRd → BitRd
  | 0, s => s
  | n + 1, s => match s.rest with
    | [] => s
    | d :: _ => revPushes n (revPush s d)

/-- `rev_buf::init` (ht_block_decoding.hpp 301-323).  `seg` is the MEL+VLC segment
`Dcup[Lcup-Scup .. Lcup)` as a list; `none` stands for the read before the start of a segment of
fewer than two bytes.  `p` is the address of `Dcup + Lcup - 3` modulo 4. -/
def revInit (p : Nat) (seg : List Nat) : Option BitRd :=
  match seg.reverse with
  | _ :: d :: rest =>
    let c := d >>> 4
    some (revRead (revPushes (1 + p)
      { creg := c, bits := 4 - ((c &&& 7) == 7).toNat, unstuff := decide (0x8F < (d ||| 0x0F)),
        rest := rest }))
  | _ => none

/-- `rev_buf::fetch` (ht_block_decoding.hpp 375-383). -/
def revFetch (s : BitRd) : Nat × BitRd :=
  let s := if s.bits < 32 then revRead s else s
  let s := if s.bits < 32 then revRead s else s
  (s.creg % 2 ^ 32, s)

/-! ## MEL encoder -/

/-- `MEL_E` (ht_block_encoding.hpp 121, ht_block_decoding.hpp 237). -/
def melE (k : Nat) : Nat := [0, 0, 0, 1, 1, 1, 2, 2, 2, 3, 3, 4, 5].getD k 0

/-- `state_MEL_enc` (ht_block_encoding.hpp 103-129).  `MEL_t` is always `1 << MEL_E[MEL_k]` and is
not stored. -/
structure MelEnc where
  k : Nat
  run : Nat
  buf : List Nat
  rem : Nat
  tmp : Nat

/-- Constructor of `state_MEL_enc` (ht_block_encoding.hpp 118-126). -/
def MelEnc.init : MelEnc := ⟨0, 0, [], 8, 0⟩

/-- `state_MEL_enc::emitMELbit` (ht_block_encoding.cpp 221-230). -/
def MelEnc.emitBit (s : MelEnc) (bit : Nat) : MelEnc :=
  let tmp := ((s.tmp <<< 1) + bit) % 256
  if s.rem - 1 = 0 then
    { s with buf := s.buf ++ [tmp], rem := if tmp = 0xFF then 7 else 8, tmp := 0 }
  else { s with rem := s.rem - 1, tmp := tmp }

/-- `while (eval > 0) { eval--; emitMELbit((MEL_run >> eval) & 1); }`
(ht_block_encoding.cpp 248-252). -/
def MelEnc.emitRun : Nat → MelEnc → MelEnc
  | 0, s => s
  | e + 1, s => MelEnc.emitRun e (s.emitBit ((s.run >>> e) &&& 1))

/-- `state_MEL_enc::encodeMEL` (ht_block_encoding.cpp 232-260). -/
def MelEnc.encode (s : MelEnc) (smel : Bool) : MelEnc :=
  match smel with
  | false =>
    let s := { s with run := s.run + 1 }
    if 2 ^ melE s.k ≤ s.run then { s.emitBit 1 with run := 0, k := min 12 (s.k + 1) } else s
  | true =>
    { MelEnc.emitRun (melE s.k) (s.emitBit 0) with run := 0, k := s.k - 1 }

/-- `state_MEL_enc::termMEL` (ht_block_encoding.cpp 262-266). -/
def MelEnc.term (s : MelEnc) : MelEnc := if 0 < s.run then s.emitBit 1 else s

/-- Encode a list of events and call `termMEL`. -/
def melEncode (evs : List Bool) : MelEnc := (evs.foldl MelEnc.encode MelEnc.init).term

/-- `termMELandVLC` (ht_block_encoding.cpp 389-409): the bytes `rev_buf[0..Scup)`.  Both coders write
into the same array of `MAX_Scup` bytes from opposite ends; `none` when they would overlap. -/
def termMelVlc (mel : MelEnc) (vlc : VlcEnc) : Option (List Nat) :=
  let melTmp := (mel.tmp <<< mel.rem) % 256
  let melMask := (0xFF <<< mel.rem) % 256
  let vlcMask := 0xFF >>> (8 - vlc.bits)
  let out :=
    if (melMask ||| vlcMask) ≠ 0 then
      let fuse := melTmp ||| vlc.tmp
      if (((fuse ^^^ melTmp) &&& melMask) ||| ((fuse ^^^ vlc.tmp) &&& vlcMask)) = 0 ∧ fuse ≠ 0xFF
      then mel.buf ++ [fuse] ++ vlc.buf.reverse
      else mel.buf ++ [melTmp] ++ (vlc.buf ++ [vlc.tmp]).reverse
    else mel.buf ++ vlc.buf.reverse
  if out.length ≤ maxScup then some out else none

/-- The end of `htj2k_cleanup_encode` (ht_block_encoding.cpp 812-821): append the MEL/VLC segment to
the MagSgn bytes and overwrite its last twelve bits with its length.  `none` when the result does not
fit `fwd_buf[MAX_Lcup]`. -/
def assembleCup (ms seg : List Nat) : Option (List Nat) :=
  let d := ms ++ seg
  let L := d.length
  let scup := seg.length
  if maxLcup < L then none
  else
    let d := d.set (L - 1) ((scup >>> 4) % 256)
    some (d.set (L - 2) ((d.getD (L - 2) 0 &&& 0xF0) ||| (scup &&& 0x0F)))

/-- The part of `htj2k_dec_setup` (ht_block_decoding.cpp 1004-1048) that opens a cleanup segment
`Dcup[0..Lcup)`: check the suffix length, restore the overwritten bits (`modDcup`) and split into
MagSgn bytes and MEL/VLC segment.  `none` when the segment is rejected. -/
def openCup (d : List Nat) : Option (List Nat × List Nat) :=
  let L := d.length
  if L < 2 then none
  else
    let scup := (d.getD (L - 1) 0 <<< 4) + (d.getD (L - 2) 0 &&& 0x0F)
    if scup < 2 ∨ L < scup ∨ maxScup < scup then none
    else
      let d := (d.set (L - 1) 0xFF).set (L - 2) (d.getD (L - 2) 0 ||| 0x0F)
      some (d.take (L - scup), d.drop (L - scup))

/-! ## MEL decoder -/

/-- `MEL_dec` (ht_block_decoding.hpp 134-147); `rest` holds the `length` bytes not yet read. -/
structure MelDec where
  tmp : Nat
  bits : Nat
  unstuff : Bool
  rest : List Nat
  k : Nat
  numRuns : Nat
  runs : Nat

/-- The next byte of the MEL segment: `0xFF` once it is exhausted, and the low nibble of the last
byte reads as ones (ht_block_decoding.hpp 163-168, 190-206). -/
def melByte : List Nat → Nat
  | [] => 0xFF
  | [d] => d ||| 0xF
  | d :: _ => d

/-- One round of the loop of `MEL_dec::init` (ht_block_decoding.hpp 163-173). -/
def MelDec.push (s : MelDec) : MelDec :=
  let d := melByte s.rest
  let n := 8 - s.unstuff.toNat
  { s with tmp := ((s.tmp <<< n) ||| d) % 2 ^ 64, bits := s.bits + n, unstuff := d == 0xFF,
           rest := s.rest.tail }

/-- `n` rounds of `MelDec.push`. -/
def MelDec.pushes : Nat → MelDec → MelDec
  | 0, s => s
  | n + 1, s => MelDec.pushes n s.push

/-- `MEL_dec::init` (ht_block_decoding.hpp 153-175).  `seg` is `Dcup[Lcup-Scup .. Lcup)`, of which
the last byte is not part of the MEL segment; `p` is its address modulo 4. -/
def melInit (p : Nat) (seg : List Nat) : MelDec :=
  let s := MelDec.pushes (4 - p) ⟨0, 0, false, seg.dropLast, 0, 0, 0⟩
  { s with tmp := (s.tmp <<< (64 - s.bits)) % 2 ^ 64 }

/-- `MEL_dec::read` (ht_block_decoding.hpp 177-227); `b0 … b3` are the bytes packed in `val`. -/
def MelDec.read (s : MelDec) : MelDec :=
  if 32 < s.bits then s
  else
    let b0 := melByte s.rest
    let b1 := melByte (s.rest.drop 1)
    let b2 := melByte (s.rest.drop 2)
    let b3 := melByte (s.rest.drop 3)
    let f0 := (b0 == 0xFF).toNat
    let f1 := (b1 == 0xFF).toNat
    let f2 := (b2 == 0xFF).toNat
    let n := 32 - s.unstuff.toNat - f0 - f1 - f2
    let t := b0
    let t := ((t <<< (8 - f0)) % 2 ^ 32) ||| b1
    let t := ((t <<< (8 - f1)) % 2 ^ 32) ||| b2
    let t := ((t <<< (8 - f2)) % 2 ^ 32) ||| b3
    { s with tmp := s.tmp ||| ((t <<< (64 - n - s.bits)) % 2 ^ 64), bits := s.bits + n,
             unstuff := b3 == 0xFF, rest := s.rest.drop 4 }

/-- Body of the loop of `MEL_dec::decode` (ht_block_decoding.hpp 244-268). -/
def MelDec.decodeOne (s : MelDec) : MelDec :=
  let e := melE s.k
  let one := s.tmp.testBit 63
  let run := if one then (2 ^ e - 1) * 2 else (((s.tmp >>> (63 - e)) &&& (2 ^ e - 1)) * 2 + 1)
  let n := if one then 1 else e + 1
  { s with k := if one then (if s.k + 1 < 12 then s.k + 1 else 12) else s.k - 1
           tmp := (s.tmp <<< n) % 2 ^ 64
           bits := s.bits - n
           runs := (s.runs - (s.runs &&& (0x3F <<< (s.numRuns * 7)))) ||| (run <<< (s.numRuns * 7))
           numRuns := s.numRuns + 1 }

/-- The loop of `MEL_dec::decode` (ht_block_decoding.hpp 244-268): at most eight rounds, as
`num_runs` grows in each. -/
def MelDec.decodeLoop : Nat → MelDec → MelDec
  | 0, s => s
  | n + 1, s => if 6 ≤ s.bits ∧ s.numRuns < 8 then MelDec.decodeLoop n s.decodeOne else s

/-- `MEL_dec::decode` (ht_block_decoding.hpp 236-269). -/
def MelDec.decode (s : MelDec) : MelDec :=
  MelDec.decodeLoop 8 (if s.bits < 6 then s.read else s)

/-- `MEL_dec::get_run` (ht_block_decoding.hpp 271-279).  `none` stands for returning a run that was
never decoded (`num_runs` would become negative). -/
def MelDec.getRun (s : MelDec) : Option (Nat × MelDec) :=
  let s := if s.numRuns = 0 then s.decode else s
  if s.numRuns = 0 then none
  else some (s.runs &&& 0x7F, { s with runs := s.runs >>> 7, numRuns := s.numRuns - 1 })

/-- The event reader of the cleanup decoder: `mel_run` together with `MEL` (ht_block_decoding.hpp
437, 455-458 etc.). -/
structure MelSt where
  run : Int
  dec : MelDec

/-- `mel_run = MEL.get_run()` at the start (ht_block_decoding.hpp 437). -/
def melStart (p : Nat) (seg : List Nat) : Option MelSt :=
  (melInit p seg).getRun.map fun r => ⟨(r.1 : Int), r.2⟩

/-- `mel_run -= 2; event = (mel_run == -1); if (mel_run < 0) mel_run = MEL.get_run();`
(ht_block_decoding.hpp 454-458, 560-566): the next MEL event. -/
def melNext (s : MelSt) : Option (Bool × MelSt) :=
  let r := s.run - 2
  if r < 0 then s.dec.getRun.map fun x => (decide (r = -1), ⟨(x.1 : Int), x.2⟩)
  else some (decide (r = -1), ⟨r, s.dec⟩)

end Verif.Ht
