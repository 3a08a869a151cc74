import Verif.Ebcot.Mq
import Verif.Ebcot.Tables
/-
The Part 1 code-block decoder: source/core/coding/block_decoding.cpp.

The three arrays of a code-block are flat in the code, row `r` beginning at `r * stride`. Here they are functions of row and column, and every
access checks the column against the stride and the row against the number of rows that were allocated (subband_row_buf.cpp:342-344, 380-385): an access
that passes the check is inside of the flat array, and two that differ in row or column touch different elements.
-/
namespace Verif.Ebcot

/-- What can go wrong: the MQ decoder fails, an access outside of an array, a shift count of 32 or more, an exception. -/
inductive DErr
  | mq (e : MqErr)
  | oob
  | shift
  | throws
deriving DecidableEq, Repr

/-- utils.hpp `round_up(x, 8)`. -/
def rup8 (x : Nat) : Nat := (x + 7) / 8 * 8

/-- The fields of `j2k_codeblock` the decoding passes use. `st` is `block_states` (bytes), `smp` is `sample_buf` (the bits of
`int32_t`), `ctx` is `block_contexts`. -/
structure Blk where
  w : Nat
  h : Nat
  orient : Nat
  causal : Bool
  st : Nat → Nat → Nat
  smp : Nat → Nat → Nat
  ctx : Nat → Nat → Nat

/-- subband_row_buf.cpp:387-392: the arrays are zeroed before a block that is not HT is decoded. -/
def freshBlk (w h orient : Nat) (causal : Bool) : Blk :=
  { w := w, h := h, orient := orient, causal := causal, st := fun _ _ => 0, smp := fun _ _ => 0, ctx := fun _ _ => 0 }

/-- Replace one element. -/
def upd {α : Type} (f : Nat → Nat → α) (r c : Nat) (v : α) : Nat → Nat → α := fun r' c' => if r' = r ∧ c' = c then v else f r' c'

/-- coding_units.cpp:1401-1405, subband_row_buf.cpp:342-344: the sizes of the arrays. -/
def Blk.inSt (b : Blk) (r c : Nat) : Prop := r < rup8 b.h + 2 ∧ c < rup8 b.w + 2
def Blk.inSmp (b : Blk) (r c : Nat) : Prop := r < rup8 b.h ∧ c < rup8 b.w
def Blk.inCtx (b : Blk) (r c : Nat) : Prop := r < rup8 b.h / 4 + 2 ∧ c < rup8 b.w + 2

instance (b : Blk) (r c : Nat) : Decidable (b.inSt r c) := by unfold Blk.inSt; infer_instance
instance (b : Blk) (r c : Nat) : Decidable (b.inSmp r c) := by unfold Blk.inSmp; infer_instance
instance (b : Blk) (r c : Nat) : Decidable (b.inCtx r c) := by unfold Blk.inCtx; infer_instance

/-- Reads and writes of one element. -/
def Blk.getSt (b : Blk) (r c : Nat) : Except DErr Nat := if b.inSt r c then .ok (b.st r c) else .error .oob
def Blk.getSmp (b : Blk) (r c : Nat) : Except DErr Nat := if b.inSmp r c then .ok (b.smp r c) else .error .oob
def Blk.getCtx (b : Blk) (r c : Nat) : Except DErr Nat := if b.inCtx r c then .ok (b.ctx r c) else .error .oob
def Blk.modSt (b : Blk) (r c : Nat) (f : Nat → Nat) : Except DErr Blk :=
  if b.inSt r c then .ok { b with st := upd b.st r c (f (b.st r c)) } else .error .oob
def Blk.orSmp (b : Blk) (r c v : Nat) : Except DErr Blk :=
  if b.inSmp r c then .ok { b with smp := upd b.smp r c (b.smp r c ||| v) } else .error .oob
def Blk.orCtx (b : Blk) (r c v : Nat) : Except DErr Blk :=
  if b.inCtx r c then .ok { b with ctx := upd b.ctx r c (b.ctx r c ||| v) } else .error .oob

/-- `v << p` on a 32-bit number. -/
def shl (v p : Nat) : Except DErr Nat := if p < 32 then .ok (v * 2 ^ p % 2 ^ 32) else .error .shift

/-- block_decoding.cpp:46-56: the index of `sig_LUT` for a 9-bit window. -/
def idx8 (n : Nat) : Nat :=
  (n &&& 1) ||| ((n >>> 2 &&& 1) <<< 1) ||| ((n >>> 6 &&& 1) <<< 2) ||| ((n >>> 8 &&& 1) <<< 3) ||| ((n >>> 1 &&& 1) <<< 4) |||
    ((n >>> 7 &&& 1) <<< 5) ||| ((n >>> 3 &&& 1) <<< 6) ||| ((n >>> 5 &&& 1) <<< 7)

/-- block_decoding.cpp:41-60: `sig_LUT9_table.data[o][n]`. -/
def sigLUT9 (o n : Nat) : Except DErr Nat :=
  if n < 512 then
    match sigLUT[o]? with
    | some l => match l[idx8 n]? with
      | some v => .ok v
      | none => .error .oob
    | none => .error .oob
  else .error .oob

/-- block_decoding.cpp:66-89: `broadcast_sigma_context`. -/
def broadcast (b : Blk) (j1 j2 : Nat) : Except DErr Blk :=
  let sr := j1 % 4
  let xb := j2 + 1
  let sb := j1 / 4 + 1
  let bp := 3 * (sr + 1)
  (b.orCtx sb (xb - 1) (2 ^ (bp + 2))).bind fun b => (b.orCtx sb xb (2 ^ (bp + 1))).bind fun b => (b.orCtx sb (xb + 1) (2 ^ bp)).bind fun b =>
    if sr = 0 then
      (b.orCtx (sb - 1) (xb - 1) (2 ^ 17)).bind fun b => (b.orCtx (sb - 1) xb (2 ^ 16)).bind fun b => b.orCtx (sb - 1) (xb + 1) (2 ^ 15)
    else if sr = 3 then
      (b.orCtx (sb + 1) (xb - 1) (2 ^ 2)).bind fun b => (b.orCtx (sb + 1) xb (2 ^ 1)).bind fun b => b.orCtx (sb + 1) (xb + 1) (2 ^ 0)
    else .ok b

/-- block_decoding.cpp:105-119: `get_context_label_sig`. -/
def labelSig (b : Blk) (j1 j2 : Nat) : Except DErr Nat :=
  (b.getCtx (j1 / 4 + 1) (j2 + 1)).bind fun word =>
    let sr := j1 % 4
    let idx9 := word >>> (3 * sr) &&& 0x1FF
    sigLUT9 b.orient (if b.causal ∧ sr = 3 then idx9 &&& 0x3F else idx9)

/-- block_decoding.cpp:120-149: `get_signLUT_index`. -/
def signIdx (b : Blk) (j1 j2 : Nat) : Except DErr Nat :=
  (b.getSt j1 (j2 + 1)).bind fun t => (b.getSt (j1 + 1) j2).bind fun l => (b.getSt (j1 + 1) (j2 + 2)).bind fun r => (b.getSt (j1 + 2) (j2 + 1)).bind fun d =>
    (if 0 < j1 then b.getSmp (j1 - 1) j2 else .ok 0).bind fun ts => (if 0 < j2 then b.getSmp j1 (j2 - 1) else .ok 0).bind fun ls =>
      (if j2 < b.w - 1 then b.getSmp j1 (j2 + 1) else .ok 0).bind fun rs => (if j1 < b.h - 1 then b.getSmp (j1 + 1) j2 else .ok 0).bind fun ds =>
        .ok ((t &&& 1) + (l &&& 1) * 4 + (r &&& 1) * 8 + (d &&& 1) * 2 + (ts >>> 31 &&& 1) * 16 + (ls >>> 31 &&& 1) * 64 + (rs >>> 31 &&& 1) * 128 +
          (ds >>> 31 &&& 1) * 32)

/-- Where symbols come from: `get_raw_symbol` or `decode`. -/
def sym (raw : Bool) (buf : List Nat) (m : Mq) (label : Nat) : Except DErr (Nat × Mq) :=
  match if raw then rawSymbol buf m else decode buf m label with
  | .ok r => .ok r
  | .error e => .error (.mq e)

/-- block_decoding.cpp:151-156 `decode_j2k_sign_raw`, 157-167 `decode_j2k_sign`. -/
def signDec (raw : Bool) (buf : List Nat) (j1 j2 : Nat) (s : Blk × Mq) : Except DErr (Blk × Mq) :=
  if raw then
    (sym true buf s.2 0).bind fun x => (shl x.1 31).bind fun v => (s.1.orSmp j1 j2 v).map fun b => (b, x.2)
  else
    (signIdx s.1 j1 j2).bind fun i =>
      let idx := if s.1.causal ∧ j1 % 4 = 3 then i &&& 0xDD else i
      match signLUT0[idx]?, signLUT1[idx]? with
      | some l, some x =>
        (sym false buf s.2 l).bind fun r => (shl ((r.1 ^^^ x) &&& 1) 31).bind fun v => (s.1.orSmp j1 j2 v).map fun b => (b, r.2)
      | _, _ => .error .oob

/-- A loop over a list. -/
def each {α σ : Type} (f : α → σ → Except DErr σ) : List α → σ → Except DErr σ
  | [], s => .ok s
  | x :: xs, s => (f x s).bind (each f xs)

/-- The body of the loops of block_decoding.cpp:169-231 `decode_sigprop_pass_raw` and 233-296 `decode_sigprop_pass`, which differ in the source of
the symbols only. -/
def sigStep (raw : Bool) (buf : List Nat) (p j1 j2 : Nat) (s : Blk × Mq) : Except DErr (Blk × Mq) :=
  (s.1.getSt (j1 + 1) (j2 + 1)).bind fun x =>
    (if x &&& 1 = 0 then labelSig s.1 j1 j2 else .ok 0).bind fun label =>
      if 0 < label then
        (s.1.modSt (j1 + 1) (j2 + 1) fun x => (x &&& 7) ||| p * 8 % 256).bind fun b =>
          (sym raw buf s.2 label).bind fun r =>
            (if r.1 ≠ 0 then
              (shl 1 p).bind fun v => (b.orSmp j1 j2 v).bind fun b => (b.modSt (j1 + 1) (j2 + 1) (· ||| r.1)).bind fun b =>
                (broadcast b j1 j2).bind fun b => signDec raw buf j1 j2 (b, r.2)
             else .ok (b, r.2)).bind fun s => (s.1.modSt (j1 + 1) (j2 + 1) (· ||| 4)).map fun b => (b, s.2)
      else (s.1.modSt (j1 + 1) (j2 + 1) (· &&& 0xFB)).map fun b => (b, s.2)

/-- The body of the loops of block_decoding.cpp:298-338 `decode_magref_pass_raw` and 340-391 `decode_magref_pass`. -/
def magStep (raw : Bool) (buf : List Nat) (p j1 j2 : Nat) (s : Blk × Mq) : Except DErr (Blk × Mq) :=
  (s.1.getSt (j1 + 1) (j2 + 1)).bind fun x =>
    if x &&& 1 = 1 ∧ x &&& 4 = 0 then
      (s.1.modSt (j1 + 1) (j2 + 1) fun x => (x &&& 7) ||| p * 8 % 256).bind fun b =>
        (if raw then .ok 0
         else (labelSig b j1 j2).bind fun l => .ok ([14, 15, 16, 16].getD ((b.st (j1 + 1) (j2 + 1) &&& 2) ||| (if 0 < l then 1 else 0)) 0)).bind fun label =>
          (sym raw buf s.2 label).bind fun r => (shl r.1 p).bind fun v => (b.orSmp j1 j2 v).bind fun b =>
            (b.modSt (j1 + 1) (j2 + 1) (· ||| 2)).map fun b => (b, r.2)
    else .ok s

/-- The three loops around the bodies: the full stripes of four rows, column by column, then the rest. `num_v_stripe` is 16 bits wide. -/
def stripes (f : Nat → Nat → Blk × Mq → Except DErr (Blk × Mq)) (w h : Nat) (s : Blk × Mq) : Except DErr (Blk × Mq) :=
  let nvs := h / 4 % 65536
  (each (fun n s => each (fun j2 s => each (fun ri s => f (4 * n + ri) j2 s) [0, 1, 2, 3] s) (List.range w) s) (List.range nvs) s).bind fun s =>
    if h % 4 ≠ 0 then each (fun j2 s => each (fun i s => f (4 * nvs + i) j2 s) (List.range (h % 4)) s) (List.range w) s else .ok s

/-- block_decoding.cpp:169-296: the significance propagation passes. -/
def sigPass (raw : Bool) (buf : List Nat) (p : Nat) (s : Blk × Mq) : Except DErr (Blk × Mq) := stripes (sigStep raw buf p) s.1.w s.1.h s
/-- block_decoding.cpp:298-391: the magnitude refinement passes. -/
def magPass (raw : Bool) (buf : List Nat) (p : Nat) (s : Blk × Mq) : Except DErr (Blk × Mq) := stripes (magStep raw buf p) s.1.w s.1.h s

/-- block_decoding.cpp:443-458: the second half of the body of the cleanup loop, on row `j1`. `run`: `r >= 0`. -/
def cleanCoef (buf : List Nat) (p j1 j2 : Nat) (run : Bool) (s : Blk × Mq) : Except DErr (Blk × Mq) :=
  (s.1.getSt (j1 + 1) (j2 + 1)).bind fun x =>
    if x &&& 1 = 0 ∧ x &&& 4 = 0 then
      (s.1.modSt (j1 + 1) (j2 + 1) fun x => (x &&& 7) ||| p * 8 % 256).bind fun b =>
        (if run then .ok (b, s.2)
         else (labelSig b j1 j2).bind fun l => (sym false buf s.2 l).bind fun r => (shl r.1 p).bind fun v =>
          (b.orSmp j1 j2 v).map fun b => (b, r.2)).bind fun s =>
          (s.1.getSmp j1 j2).bind fun y => (shl 1 p).bind fun v =>
            if y = v then
              (s.1.modSt (j1 + 1) (j2 + 1) (· ||| 1)).bind fun b => (broadcast b j1 j2).bind fun b => signDec false buf j1 j2 (b, s.2)
            else .ok s
    else .ok s

/-- block_decoding.cpp:416-437: the run mode: the number of rows that are skipped (`k -= r`), if it is entered. -/
def runMode (buf : List Nat) (p j1 j2 : Nat) (s : Blk × Mq) : Except DErr (Option Nat × Blk × Mq) :=
  (s.1.getCtx (j1 / 4 + 1) (j2 + 1)).bind fun cword =>
    if cword &&& (if s.1.causal then 0x7FFF else 0x3FFFF) = 0 then
      (sym false buf s.2 17).bind fun x =>
        if x.1 = 0 then .ok (some 4, s.1, x.2)
        else
          (sym false buf x.2 18).bind fun y => (sym false buf y.2 18).bind fun z =>
            let r := y.1 * 2 + z.1
            (shl x.1 p).bind fun v => (s.1.orSmp (j1 + r) j2 v).map fun b => (some r, b, z.2)
    else .ok (none, s.1, s.2)

/-- block_decoding.cpp:411-461: the `while (k > 0)` loop of a stripe column that begins at row `j0`. The first argument bounds the number of rounds.
`k` is an `int32_t`; it goes to -1 only to leave the loop. -/
def cleanLoop (buf : List Nat) (p j0 j2 : Nat) : Nat → Nat → Blk × Mq → Except DErr (Blk × Mq)
  | 0, _, _ => .error .shift
  | fuel + 1, k, s =>
    if k = 0 then .ok s
    else
      let j1 := j0 + 4 - k
      (if j1 % 4 = 0 ∧ j1 ≤ s.1.h - 4 then runMode buf p j1 j2 s else .ok (none, s.1, s.2)).bind fun q =>
        let k' := k - q.1.getD 0
        let j1' := if k' ≠ 0 then j0 + 4 - k' else j1
        (cleanCoef buf p j1' j2 q.1.isSome q.2).bind fun s => cleanLoop buf p j0 j2 fuel (k' - 1) s

/-- block_decoding.cpp:468-480: the body of the loops over the rows behind the last full stripe. -/
def cleanRest (buf : List Nat) (p j1 j2 : Nat) (s : Blk × Mq) : Except DErr (Blk × Mq) :=
  (s.1.getSt (j1 + 1) (j2 + 1)).bind fun x =>
    if x &&& 1 = 0 ∧ x &&& 4 = 0 then
      (s.1.modSt (j1 + 1) (j2 + 1) fun x => (x &&& 7) ||| p * 8 % 256).bind fun b =>
        (labelSig b j1 j2).bind fun l => (sym false buf s.2 l).bind fun r => (shl r.1 p).bind fun v => (b.orSmp j1 j2 v).bind fun b =>
          if r.1 ≠ 0 then
            (b.modSt (j1 + 1) (j2 + 1) (· ||| 1)).bind fun b => (broadcast b j1 j2).bind fun b => signDec false buf j1 j2 (b, r.2)
          else .ok (b, r.2)
    else .ok s

/-- block_decoding.cpp:393-484: `decode_cleanup_pass`, on a block of `w` columns and `h` rows. -/
def cleanCols (buf : List Nat) (p w h : Nat) (s : Blk × Mq) : Except DErr (Blk × Mq) :=
  let nvs := h / 4 % 65536
  (each (fun n s => each (fun j2 s => cleanLoop buf p (4 * n) j2 5 4 s) (List.range w) s) (List.range nvs) s).bind fun s =>
    if h % 4 ≠ 0 then each (fun j2 s => each (fun i s => cleanRest buf p (4 * nvs + i) j2 s) (List.range (h % 4)) s) (List.range w) s else .ok s

/-- block_decoding.cpp:393-484: `decode_cleanup_pass` (394-395: the size is that of the block). -/
def cleanPass (buf : List Nat) (p : Nat) (s : Blk × Mq) : Except DErr (Blk × Mq) := cleanCols buf p s.1.w s.1.h s

end Verif.Ebcot
