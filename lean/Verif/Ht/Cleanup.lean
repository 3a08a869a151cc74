import Verif.Ht.Streams
import Verif.Ht.EncTables
import Verif.Ht.DecTables
import Mathlib.Data.Nat.Size

/-!
# HT cleanup pass: block encoder and decoder

Model of the scalar build of

* `j2k_codeblock::quantize`, reversible path (source/core/coding/ht_block_encoding.cpp 44-92)
* `make_storage`, `make_storage_one` (317-386)
* `htj2k_cleanup_encode` (438-834)
* `ht_cleanup_step1_nway<1, …>` (source/core/coding/ht_block_decoding.hpp 420-647)
* `ht_cleanup_step2` (source/core/coding/ht_block_decoding.cpp 82-338)
* `dequant_store_scalar` / `dequantize`, reversible path (56-75, 825-870)
* `htj2k_dec_setup`, `htj2k_dec_finish`, `htj2k_decode_su` for one cleanup pass (941-1130)

Conventions.  Working arrays that the code updates in place (`Eline`, `rholine`, `scratch`,
`v_n_scratch`, the sample buffers) are functions from indices to values, updated in place here too.
The encoder's three bit writers do not influence each other or the control flow, so the model collects
the arguments of the calls made on each of them, in order, and runs the writers at the end.  Not
modelled: ROI, the irreversible path, refinement passes, `block_states`, `printf`.
-/

namespace Verif.Ht

/-- Table look-up; the tables are stored in rows of sixteen. -/
def tab (t : List (List Nat)) (n : Nat) : Nat := (t.getD (n / 16) []).getD (n % 16) 0

/-! ## Encoder -/

/-- The number of significant bits, `32 - count_leading_zeros(v)` (source/core/common/utils.hpp
184-204) for a 32-bit `v`. -/
def bitLen (v : Nat) : Nat := Nat.size v

/-- `j2k_codeblock::quantize` for one sample, reversible path (ht_block_encoding.cpp 65-85). -/
def quantWord (c : Int) : Nat :=
  if c = 0 then 0
  else ((((c.natAbs - 1) <<< 1) + (if c < 0 then 1 else 0)) ||| 2 ^ 31) % 2 ^ 32

/-- `sample_buf` after `quantize` (ht_block_encoding.cpp 44-92), addressed by row and column.  Rows
and columns beyond the block are cleared (lines 86-91). -/
def sampleBuf (w h : Nat) (c : Nat → Nat → Int) (row col : Nat) : Nat :=
  if row < h ∧ col < w then quantWord (c row col) else 0

/-- The four samples of a quad in the order of `make_storage` (ht_block_encoding.cpp 321-331): down
the left column, then down the right column. -/
def quad (s : Nat → Nat → Nat) (qy qx i : Nat) : Nat := s (2 * qy + i % 2) (2 * qx + i / 2)

/-- `sigma_n`, `v_n`, `E_n` of `make_storage` (ht_block_encoding.cpp 333-356, 370-385). -/
def sig (q : Nat → Nat) (i : Nat) : Nat := q i >>> 31
@[inherit_doc sig]
def magv (q : Nat → Nat) (i : Nat) : Nat := q i &&& 0x7FFFFFFF
@[inherit_doc sig]
def expE (q : Nat → Nat) (i : Nat) : Nat := bitLen (magv q i) * sig q i

/-- `rho_q` of `make_storage` (ht_block_encoding.cpp 342-343, 375). -/
def rhoOf (q : Nat → Nat) : Nat := sig q 0 + (sig q 1 <<< 1) + (sig q 2 <<< 2) + (sig q 3 <<< 3)

/-- `find_max`. -/
def max4 (a b c d : Nat) : Nat := max (max a b) (max c d)

/-- What the encoder derives for one quad. -/
structure Coded where
  rho : Nat
  U : Nat
  u : Nat
  embk : Nat
  emb1 : Nat
  len : Nat
  cwd : Nat

/-- Coding of one quad given table `T`, the context part `cx` of the table index and `kappa`
(ht_block_encoding.cpp 515-533 and 538-556 for the initial line-pair, 617-633 for its odd last quad,
678-694 and 706-722 for the other line-pairs, 775-791 for their odd last quad). -/
def codeQuad (T : List (List Nat)) (cx kappa : Nat) (q : Nat → Nat) : Coded :=
  let emax := max4 (expE q 0) (expE q 1) (expE q 2) (expE q 3)
  let U := max emax kappa
  let u := U - kappa
  let uoff := if u ≠ 0 then 1 else 0
  let emb := (if expE q 0 = emax then uoff else 0) + (if expE q 1 = emax then uoff <<< 1 else 0) +
    (if expE q 2 = emax then uoff <<< 2 else 0) + (if expE q 3 = emax then uoff <<< 3 else 0)
  let e := tab T ((emb + (rhoOf q <<< 4) + cx) % 2 ^ 16)
  { rho := rhoOf q, U := U, u := u, embk := e &&& 0xF, emb1 := emb &&& (e &&& 0xF),
    len := (e >>> 4) &&& 0x07, cwd := e >>> 7 }

/-- The MagSgn fields `(v_n, m_n, emb_1)` of one quad (ht_block_encoding.cpp 583-590 etc.). -/
def msFields (q : Nat → Nat) (c : Coded) : List (Nat × Nat × Nat) :=
  [0, 1, 2, 3].map fun i =>
    (magv q i, (sig q i * c.U + 2 ^ 32 - ((c.embk >>> i) &&& 1)) % 256, (c.emb1 >>> i) &&& 1)

/-- State of `htj2k_cleanup_encode`: the calls made on the three writers so far, `context`, and the
line buffers. -/
structure Enc where
  mel : List Bool
  vlc : List (Nat × Nat)
  ms : List (Nat × Nat × Nat)
  ctx : Nat
  eline : Nat → Nat
  rholine : Nat → Nat
  emax0 : Nat
  emax1 : Nat

/-- Before the first line-pair (ht_block_encoding.cpp 485-497). -/
def Enc.init : Enc := ⟨[], [], [], 0, fun _ => 0, fun _ => 0, 0, 0⟩

/-- `*E_p++ = E_n[1]; *E_p++ = E_n[3];` with `E_p = Eline + p`. -/
def storeE (e : Nat → Nat) (p : Nat) (q : Nat → Nat) : Nat → Nat :=
  Function.update (Function.update e p (expE q 1)) (p + 1) (expE q 3)

/-- Codeword and length in a UVLC table entry (ht_block_encoding.cpp 559-561). -/
def uvlcWord (t : Nat) : Nat × Nat := ((t >>> 8) % 2 ^ 16, t &&& 0xFF)

/-- One round of the loop over the initial line-pair (ht_block_encoding.cpp 501-605). -/
def encInitPair (s : Nat → Nat → Nat) (qx : Nat) (st : Enc) : Enc :=
  let q0 := quad s 0 qx
  let q1 := quad s 0 (qx + 1)
  let el := storeE (storeE st.eline (1 + 2 * qx) q0) (1 + 2 * qx + 2) q1
  let mel0 := if st.ctx = 0 then [decide (rhoOf q0 ≠ 0)] else []
  let c0 := codeQuad encVlc0 (st.ctx <<< 8) 1 q0
  let ctx := (rhoOf q0 >>> 1) ||| (rhoOf q0 &&& 1)
  let c1 := codeQuad encVlc0 (ctx <<< 8) 1 q1
  let umin := min c0.u c1.u
  let mel1 :=
    if ctx = 0 then [if rhoOf q1 ≠ 0 then true else decide (2 < umin)]
    else if c0.u ≠ 0 ∧ c1.u ≠ 0 then [decide (2 < umin)] else []
  { mel := st.mel ++ mel0 ++ mel1
    vlc := st.vlc ++ [(c0.cwd, c0.len), (c1.cwd, c1.len), uvlcWord (tab encUvlc0 (c0.u + (c1.u <<< 5)))]
    ms := st.ms ++ msFields q0 c0 ++ msFields q1 c1
    ctx := (rhoOf q1 >>> 1) ||| (rhoOf q1 &&& 1)
    eline := el
    rholine := Function.update (Function.update st.rholine (1 + qx) (rhoOf q0)) (1 + qx + 1) (rhoOf q1)
    emax0 := st.emax0, emax1 := st.emax1 }

/-- The odd last quad of the initial line-pair (ht_block_encoding.cpp 606-652). -/
def encInitLast (s : Nat → Nat → Nat) (qx : Nat) (st : Enc) : Enc :=
  let q0 := quad s 0 qx
  let mel0 := if st.ctx = 0 then [decide (rhoOf q0 ≠ 0)] else []
  let c0 := codeQuad encVlc0 (st.ctx <<< 8) 1 q0
  { st with
    mel := st.mel ++ mel0
    vlc := st.vlc ++ [(c0.cwd, c0.len), uvlcWord (tab encUvlc0 c0.u)]
    ms := st.ms ++ msFields q0 c0
    eline := storeE st.eline (1 + 2 * qx) q0
    rholine := Function.update st.rholine (1 + qx) (rhoOf q0) }

/-- The initial line-pair. -/
def encInitRow (s : Nat → Nat → Nat) (QW : Nat) (st : Enc) : Enc :=
  let st := (List.range (QW / 2)).foldl (fun st i => encInitPair s (2 * i) st) st
  if QW % 2 = 1 then encInitLast s (QW - 1) st else st

/-- `popcount32(rho) > 1` for a four-bit `rho` (ht_block_encoding.cpp 676, 704, 773). -/
def manyBits (rho : Nat) : Bool :=
  decide (1 < rho % 2 + (rho >>> 1) % 2 + (rho >>> 2) % 2 + (rho >>> 3) % 2)

/-- `kappa = max((Emax - 1) * gamma, 1)` (ht_block_encoding.cpp 677, 705, 774).  `Emax` is
signed in the code; for `Emax = 0` both forms give 1. -/
def kappaOf (emax rho : Nat) : Nat := max ((emax - 1) * (manyBits rho).toNat) 1

/-- The context of a quad from the four-bit patterns of its neighbours: `w` west, `nw` north-west,
`n` north, `nf` the one after north (ht_block_encoding.cpp 667-669, 697-699, 756-758). -/
def encCtx (w nw n nf : Nat) : Nat :=
  ((w &&& 0x4) <<< 7) ||| ((w &&& 0x8) <<< 6) ||| (((nw &&& 0x8) <<< 5) ||| ((n &&& 0x2) <<< 7)) |||
    (((n &&& 0x8) <<< 7) ||| ((nf &&& 0x2) <<< 9))

/-- Head of a line-pair (ht_block_encoding.cpp 659-669). -/
def encRowHead (st : Enc) : Enc :=
  let e := st.eline
  let r := st.rholine
  { st with
    emax0 := max4 (e 0) (e 1) (e 2) (e 3)
    emax1 := max4 (e 2) (e 3) (e 4) (e 5)
    ctx := encCtx 0 (r 0) (r 1) (r 2) }

/-- One round of the loop over a further line-pair (ht_block_encoding.cpp 670-762). -/
def encPair (s : Nat → Nat → Nat) (qy qx : Nat) (st : Enc) : Enc :=
  let q0 := quad s qy qx
  let q1 := quad s qy (qx + 1)
  let e := st.eline
  let p := 1 + 2 * qx
  let r := st.rholine
  let rp := 1 + qx
  let mel0 := if st.ctx = 0 then [decide (rhoOf q0 ≠ 0)] else []
  let c0 := codeQuad encVlc1 st.ctx (kappaOf st.emax0 (rhoOf q0)) q0
  let ctx := encCtx (rhoOf q0) (r rp) (r (rp + 1)) (r (rp + 2))
  let mel1 := if ctx = 0 then [decide (rhoOf q1 ≠ 0)] else []
  let c1 := codeQuad encVlc1 ctx (kappaOf st.emax1 (rhoOf q1)) q1
  { mel := st.mel ++ mel0 ++ mel1
    vlc := st.vlc ++ [(c0.cwd, c0.len), (c1.cwd, c1.len), uvlcWord (tab encUvlc1 (c0.u + (c1.u <<< 5)))]
    ms := st.ms ++ msFields q0 c0 ++ msFields q1 c1
    ctx := encCtx (rhoOf q1) (r (rp + 1)) (r (rp + 2)) (r (rp + 3))
    emax0 := max4 (e (p + 3)) (e (p + 4)) (e (p + 5)) (e (p + 6))
    emax1 := max4 (e (p + 5)) (e (p + 6)) (e (p + 7)) (e (p + 8))
    eline := storeE (storeE e p q0) (p + 2) q1
    rholine := Function.update (Function.update r rp (rhoOf q0)) (rp + 1) (rhoOf q1) }

/-- The odd last quad of a further line-pair (ht_block_encoding.cpp 763-809). -/
def encLast (s : Nat → Nat → Nat) (qy qx : Nat) (st : Enc) : Enc :=
  let q0 := quad s qy qx
  let mel0 := if st.ctx = 0 then [decide (rhoOf q0 ≠ 0)] else []
  let c0 := codeQuad encVlc1 st.ctx (kappaOf st.emax0 (rhoOf q0)) q0
  { st with
    mel := st.mel ++ mel0
    vlc := st.vlc ++ [(c0.cwd, c0.len), uvlcWord (tab encUvlc1 c0.u)]
    ms := st.ms ++ msFields q0 c0
    eline := storeE st.eline (1 + 2 * qx) q0
    rholine := Function.update st.rholine (1 + qx) (rhoOf q0) }

/-- A further line-pair. -/
def encRow (s : Nat → Nat → Nat) (QW qy : Nat) (st : Enc) : Enc :=
  let st := (List.range (QW / 2)).foldl (fun st i => encPair s qy (2 * i) st) (encRowHead st)
  if QW % 2 = 1 then encLast s qy (QW - 1) st else st

/-- All line-pairs of a block of `QW × QH` quads. -/
def encBlock (s : Nat → Nat → Nat) (QW QH : Nat) : Enc :=
  (List.range (QH - 1)).foldl (fun st i => encRow s QW (i + 1) st) (encInitRow s QW Enc.init)

/-- Run the three writers and assemble the segment (ht_block_encoding.cpp 812-820). -/
def Enc.finish (st : Enc) : Option (List Nat) := do
  let vlc ← VlcEnc.init.emitAll st.vlc
  let seg ← termMelVlc (melEncode st.mel) vlc
  assembleCup (msEncode st.ms) seg

/-- `htj2k_cleanup_encode` (ht_block_encoding.cpp 438-834) on a block of `w × h` integer coefficients:
the bytes of the cleanup segment, empty (no coding pass) when every coefficient is zero; `none` when a
buffer overflows. -/
def encodeBlock (w h : Nat) (c : Nat → Nat → Int) : Option (List Nat) :=
  if (List.range h).any fun y => (List.range w).any fun x => c y x ≠ 0 then
    (encBlock (sampleBuf w h c) ((w + 1) / 2) ((h + 1) / 2)).finish
  else some []

/-! ## Decoder, step 1 -/

/-- State of `ht_cleanup_step1_nway` for one lane: MEL and VLC readers, `context` (shifted by 7) and
the scratch array. -/
structure Dec1 where
  mel : MelSt
  vlc : BitRd
  ctx : Nat
  sp : Nat → Nat

/-- Context-zero handling of one quad (ht_block_decoding.hpp 453-459, 472-477, 506-510, 560-566, 582-588): with
`on`, take a MEL event and clear `t` unless it is one. -/
def melQuad (on : Bool) (m : MelSt) (t : Nat) : Option (Nat × MelSt) :=
  if on then (melNext m).map fun r => (if r.1 then t else 0, r.2) else some (t, m)

/-- The two `u` values in a UVLC table entry `r` once the suffix bits `tmp` are known
(ht_block_decoding.hpp 522-528, 629-634). -/
def uvlcValues (r tmp : Nat) : Nat × Nat :=
  let r := r >>> 7
  let len := r &&& 0x7
  let r := r >>> 3
  ((r &&& 7) + (tmp &&& (2 ^ 32 - 1 - (0xFF <<< len) % 2 ^ 32)), (r >>> 3) + (tmp >>> len))

/-- UVLC decoding of a pair (ht_block_decoding.hpp 513-528, 619-634): the two values and the reader. -/
def uvlcRead (T : List (List Nat)) (idx : Nat) (vlc : BitRd) : Option ((Nat × Nat) × BitRd) := do
  let v := vlc.creg % 2 ^ 32
  let r := tab T ((v &&& 0x3F) + idx)
  let vlc ← vlc.advance (r &&& 0x7)
  let v := vlc.creg % 2 ^ 32
  let len := (r >>> 3) &&& 0xF
  let tmp := v &&& ((1 <<< len) - 1)
  let vlc ← vlc.advance len
  return (uvlcValues r tmp, vlc)

/-- `context` after a quad of the initial line-pair (ht_block_decoding.hpp 464, 496). -/
def decCtx0 (t : Nat) : Nat := ((t &&& 0xE0) <<< 2) ||| ((t &&& 0x10) <<< 3)

/-- One round of the loop over the initial line-pair (ht_block_decoding.hpp 447-534).  `b` is the
offset of `sp` in the scratch array; `two` is `qx > 1`. -/
def decInitPair (b : Nat) (two : Bool) (st : Dec1) : Option Dec1 := do
  let (v, vlc) := revFetch st.vlc
  let (t0, mel) ← melQuad (st.ctx == 0) st.mel (tab decVlc0 ((v &&& 0x7F) + st.ctx))
  let ctx := decCtx0 t0
  let vlc ← vlc.advance ((t0 &&& 0xF) >>> 1)
  let v := vlc.creg % 2 ^ 32
  let (t1, mel) ← melQuad (ctx == 0 && two) mel (tab decVlc0 ((v &&& 0x7F) + ctx))
  let t1 := if two then t1 else 0
  let ctx := decCtx0 t1
  let vlc ← vlc.advance ((t1 &&& 0xF) >>> 1)
  let (o, mel) ← melQuad ((t0 &&& 1) == 1 && (t1 &&& 1) == 1) mel 0x40
  let off := if (t0 &&& 1) == 1 && (t1 &&& 1) == 1 then o else 0
  let (u, vlc) ← uvlcRead decUvlc0 (((t0 &&& 1) <<< 6) + ((t1 &&& 1) <<< 7) + off) vlc
  let sp := Function.update (Function.update st.sp b t0) (b + 2) t1
  let sp := Function.update (Function.update sp (b + 1) ((1 + u.1) % 2 ^ 16)) (b + 3) ((1 + u.2) % 2 ^ 16)
  return ⟨mel, vlc, ctx, sp⟩

/-- `context` after a quad of a further line-pair (ht_block_decoding.hpp 568-571, 591-594): `t` is the
quad itself, `nw n nf` are the entries of the line-pair above. -/
def decCtx (t nw n nf : Nat) : Nat :=
  ((t &&& 0x40) <<< 2) ||| ((t &&& 0x80) <<< 1) ||| ((nw &&& 0x80) ||| ((n &&& 0xA0) <<< 2)) |||
    ((nf &&& 0x20) <<< 4)

/-- One round of the loop over a further line-pair (ht_block_decoding.hpp 554-640).  `b` is the offset
of `sp`, at least `sstr`. -/
def decPair (sstr b : Nat) (two : Bool) (st : Dec1) : Option Dec1 := do
  let (v, vlc) := revFetch st.vlc
  let (t0, mel) ← melQuad (st.ctx == 0) st.mel (tab decVlc1 ((v &&& 0x7F) + st.ctx))
  let ctx := decCtx t0 (st.sp (b - sstr)) (st.sp (b + 2 - sstr)) (st.sp (b + 4 - sstr))
  let sp := Function.update st.sp b t0
  let vlc ← vlc.advance ((t0 &&& 0xF) >>> 1)
  let v := vlc.creg % 2 ^ 32
  let (t1, mel) ← melQuad (ctx == 0 && two) mel (tab decVlc1 ((v &&& 0x7F) + ctx))
  let t1 := if two then t1 else 0
  let ctx := decCtx t1 (sp (b + 2 - sstr)) (sp (b + 4 - sstr)) (sp (b + 6 - sstr))
  let sp := Function.update sp (b + 2) t1
  let vlc ← vlc.advance ((t1 &&& 0xF) >>> 1)
  let (u, vlc) ← uvlcRead decUvlc1 (((t0 &&& 1) <<< 6) + ((t1 &&& 1) <<< 7)) vlc
  let sp := Function.update (Function.update sp (b + 1) (u.1 % 2 ^ 16)) (b + 3) (u.2 % 2 ^ 16)
  return ⟨mel, vlc, ctx, sp⟩

/-- `memset(sp, 0, 8)` after a line-pair (ht_block_decoding.hpp 539, 644). -/
def guard4 (sp : Nat → Nat) (b : Nat) : Nat → Nat := fun i => if b ≤ i ∧ i < b + 4 then 0 else sp i

/-- The initial line-pair: `for (qx = QW; qx > 0; qx -= 2)`, round `i` has `qx = QW - 2 i`. -/
def decInitRow (QW : Nat) (st : Dec1) : Option Dec1 := do
  let st ← (List.range ((QW + 1) / 2)).foldlM (fun st i => decInitPair (4 * i) (decide (1 < QW - 2 * i)) st) st
  return { st with sp := guard4 st.sp (4 * ((QW + 1) / 2)) }

/-- Head of a line-pair (ht_block_decoding.hpp 550-552). -/
def decRowHead (sstr b : Nat) (st : Dec1) : Dec1 :=
  { st with ctx := ((st.sp (b - sstr) &&& 0xA0) <<< 2) ||| ((st.sp (b + 2 - sstr) &&& 0x20) <<< 4) }

/-- A further line-pair (ht_block_decoding.hpp 543-646). -/
def decRow (QW sstr row : Nat) (st : Dec1) : Option Dec1 := do
  let st := decRowHead sstr (row * sstr) st
  let st ← (List.range ((QW + 1) / 2)).foldlM
    (fun st i => decPair sstr (row * sstr + 4 * i) (decide (1 < QW - 2 * i)) st) st
  return { st with sp := guard4 st.sp (row * sstr + 4 * ((QW + 1) / 2)) }

/-- `ht_cleanup_step1_nway<1>` (ht_block_decoding.hpp 420-647); `pm` and `pv` are the addresses of the
MEL and VLC segments modulo 4, `sp` is the uninitialised scratch array. -/
def decStep1 (QW QH sstr pm pv : Nat) (seg : List Nat) (sp : Nat → Nat) : Option (Nat → Nat) := do
  let mel ← melStart pm seg
  let vlc ← revInit pv seg
  let st ← decInitRow QW ⟨mel, vlc, 0, sp⟩
  let st ← (List.range (QH - 1)).foldlM (fun st i => decRow QW sstr (i + 1) st) st
  return st.sp

/-! ## Decoder, step 2 -/

/-- State of `ht_cleanup_step2`: the MagSgn reader, `v_n_scratch`, `prev_v_n` and the output samples. -/
structure Dec2 where
  ms : BitRd
  vp : Nat → Nat
  prev : Nat
  out : Nat → Nat → Nat

/-- One sample (ht_block_decoding.cpp 142-158 and its copies): stored value, `v_n` and reader.  `none`
for the undefined shift by 32 or more, and for an exhausted reader. -/
def decSample (pLSB inf U bit : Nat) (ms : BitRd) : Option (Nat × Nat × BitRd) :=
  if inf.testBit (4 + bit) then do
    let (m, ms) ← fwdFetch 0xFF ms
    let n := (U + 2 ^ 32 - ((inf >>> (12 + bit)) &&& 1)) % 2 ^ 32
    let ms ← ms.advance n
    if 32 ≤ n then none
    else
      let v := (m &&& ((1 <<< n) - 1)) ||| (((inf >>> (8 + bit)) &&& 1) <<< n) % 2 ^ 32 ||| 1
      return (((m <<< 31) % 2 ^ 32) ||| ((((v + 2) % 2 ^ 32) <<< (pLSB - 1)) % 2 ^ 32), v, ms)
  else some (0, 0, ms)

/-- Write one output sample. -/
def setOut (out : Nat → Nat → Nat) (y x v : Nat) : Nat → Nat → Nat :=
  Function.update out y (Function.update (out y) x v)

/-- One round of the sample loop (ht_block_decoding.cpp 134-225, 235-334): quad `j` of the line-pair
`y`, with exponent bound `U`.  The right column is skipped at the end of an odd line. -/
def decQuad (w pLSB y j inf U : Nat) (st : Dec2) : Option Dec2 := do
  let x := 2 * j
  let (a0, _, ms) ← decSample pLSB inf U 0 st.ms
  let (a1, v, ms) ← decSample pLSB inf U 1 ms
  let out := setOut (setOut st.out y x a0) (y + 1) x a1
  let vp := Function.update st.vp j (st.prev ||| v)
  if w ≤ x + 1 then return ⟨ms, vp, 0, out⟩
  else
    let (a2, _, ms) ← decSample pLSB inf U 2 ms
    let (a3, v, ms) ← decSample pLSB inf U 3 ms
    return ⟨ms, vp, v, setOut (setOut out y (x + 1) a2) (y + 1) (x + 1) a3⟩

/-- `vp[0] = prev_v_n` after a line-pair (ht_block_decoding.cpp 226, 335). -/
def endLine (QW : Nat) (st : Dec2) : Dec2 := { st with vp := Function.update st.vp QW st.prev }

/-- The initial line-pair (ht_block_decoding.cpp 133-226). -/
def dec2InitRow (w pLSB : Nat) (sp : Nat → Nat) (st : Dec2) : Option Dec2 := do
  let st ← (List.range ((w + 1) / 2)).foldlM
    (fun st j => decQuad w pLSB 0 j (sp (2 * j)) (sp (2 * j + 1)) st) { st with prev := 0 }
  return endLine ((w + 1) / 2) st

/-- `kappa` of the decoder (ht_block_decoding.cpp 239-243). -/
def decKappa (inf vp0 vp1 : Nat) : Nat :=
  let gamma := inf &&& 0xF0
  let gamma := gamma &&& ((gamma + 2 ^ 32 - 0x10) % 2 ^ 32)
  let emax := bitLen ((vp0 ||| vp1) ||| 2) - 1
  if gamma ≠ 0 then emax else 1

/-- A further line-pair (ht_block_decoding.cpp 228-336); `row = y / 2`. -/
def dec2Row (w pLSB sstr : Nat) (sp : Nat → Nat) (row : Nat) (st : Dec2) : Option Dec2 := do
  let st ← (List.range ((w + 1) / 2)).foldlM
    (fun st j =>
      let inf := sp (row * sstr + 2 * j)
      decQuad w pLSB (2 * row) j inf
        ((sp (row * sstr + 2 * j + 1) + decKappa inf (st.vp j) (st.vp (j + 1))) % 2 ^ 32) st)
    { st with prev := 0 }
  return endLine ((w + 1) / 2) st

/-- `ht_cleanup_step2` (ht_block_decoding.cpp 82-338): the sign-magnitude samples. -/
def decStep2 (w h pLSB sstr p : Nat) (msBytes : List Nat) (sp : Nat → Nat) : Option (Nat → Nat → Nat) := do
  let ms ← fwdInit 0xFF p msBytes
  let st ← dec2InitRow w pLSB sp ⟨ms, fun _ => 0, 0, fun _ _ => 0⟩
  let st ← (List.range ((h + 1) / 2 - 1)).foldlM (fun st i => dec2Row w pLSB sstr sp (i + 1) st) st
  return st.out

/-- `dequant_store_scalar` and `dequantize` without ROI, reversible path (ht_block_decoding.cpp
60-64, 851-859). -/
def dequant (pLSB val : Nat) : Int :=
  let m : Int := ((val &&& 0x7FFFFFFF) >>> pLSB : Nat)
  if val.testBit 31 then -m else m

/-- `htj2k_decode` (ht_block_decoding.cpp 941-1130) on a block with the single cleanup segment `d`
(empty: no coding pass), `num_ZBP = zbp` and `M_b = mb`.  `sp` is the uninitialised scratch array,
`pm pv pd` are the addresses of the three streams modulo 4.  `none` when the block is rejected or
anything undefined happens. -/
def decodeBlock (w h mb zbp pm pv pd : Nat) (sp : Nat → Nat) (d : List Nat) : Option (Nat → Nat → Int) :=
  if d = [] then some fun _ _ => 0
  else if 30 ≤ zbp then none
  else do
    let (msBytes, seg) ← openCup d
    let sstr := (w + 2 + 7) / 8 * 8
    let sp ← decStep1 ((w + 1) / 2) ((h + 1) / 2) sstr pm pv seg sp
    let out ← decStep2 w h (30 - zbp) sstr pd msBytes sp
    return fun y x => dequant (31 - mb) (out y x)

end Verif.Ht
