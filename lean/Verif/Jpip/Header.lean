import Verif.Jpip.Vbas
/-
Model of the JPP-stream message header codec.
Source: /repo/source/core/jpip/jpp_message.cpp, jpp_message.hpp.
-/
namespace Verif.Jpip

/-- jpp_message.hpp `struct MessageHeader`.  Field widths (`uint8_t class_id`, `uint16_t cs_n`,
`uint64_t` for the rest) are carried by `MsgHeader.InRange`. -/
structure MsgHeader where
  classId : Nat := 0
  csN : Nat := 0
  inClassId : Nat := 0
  msgOffset : Nat := 0
  msgLength : Nat := 0
  aux : Nat := 0
  isLast : Bool := false
  deriving DecidableEq, Repr

/-- The C++ field widths of `struct MessageHeader`. -/
def MsgHeader.InRange (h : MsgHeader) : Prop :=
  h.classId < 2 ^ 8 ∧ h.csN < 2 ^ 16 ∧ h.inClassId < 2 ^ 64 ∧ h.msgOffset < 2 ^ 64 ∧
    h.msgLength < 2 ^ 64 ∧ h.aux < 2 ^ 64

instance (h : MsgHeader) : Decidable h.InRange := by unfold MsgHeader.InRange; infer_instance

/-- jpp_message.hpp `struct MessageHeaderContext` (defaults 0, 0; `clear()` restores them). -/
structure Ctx where
  lastClass : Nat := 0
  lastCs : Nat := 0
  deriving DecidableEq, Repr

/-- jpp_message.hpp: `kMessageHeaderMaxBytes = kVbasMaxBytes * 6`. -/
def kMessageHeaderMaxBytes : Nat := kVbasMaxBytes * 6

/-- jpp_message.hpp `msg_class_has_aux`. -/
def hasAux (classId : Nat) : Bool := classId &&& 1 ≠ 0

/-- jpp_message.cpp:18-19: the loop `for (x = v; x != 0; x >>= 1) ++bits`. -/
def bitCount (v : Nat) : Nat :=
  if _h : v = 0 then 0 else 1 + bitCount (v >>> 1)
termination_by v
decreasing_by simp only [Nat.shiftRight_eq_div_pow]; omega

/-- jpp_message.cpp:16-22 `bin_id_bytes`. -/
def binIdBytes (v : Nat) : Nat :=
  if v < 16 then 1 else (bitCount v + 3 + 6) / 7

/-- jpp_message.cpp:27-43 `encode_bin_id`: bytes written. -/
def encodeBinId (inClassId bb : Nat) (isLast : Bool) : List UInt8 :=
  let k := binIdBytes inClassId
  let top4 := (inClassId >>> (7 * (k - 1))) &&& 0xF
  let cont0 := if k > 1 then 0x80 else 0x00
  let bbFld := (bb &&& 0x3) <<< 5
  let cFld := if isLast then 0x10 else 0x00
  UInt8.ofNat (cont0 ||| bbFld ||| cFld ||| top4) ::
    (List.range (k - 1)).map fun j =>
      let i := j + 1
      let shift := 7 * (k - 1 - i)
      let payload := (inClassId >>> shift) &&& 0x7F
      let cont := if i + 1 < k then 0x80 else 0x00
      UInt8.ofNat (payload ||| cont)

/-- jpp_message.cpp:47-71 `decode_bin_id`: `some (in_class_id, bb, is_last, advance)`.
The inner `for(;;)` (lines 58-66) is the same loop body as `vbas_decode` entered at `i = 1`. -/
def decodeBinId : List UInt8 → Option (Nat × Nat × Bool × Nat)
  | [] => none
  | b0 :: rest =>
    let bb := (b0.toNat >>> 5) &&& 0x3
    if bb = 0 then none
    else
      let isLast := decide (b0.toNat &&& 0x10 ≠ 0)
      let v := b0.toNat &&& 0xF
      if b0.toNat &&& 0x80 ≠ 0 then
        match vbasDecodeLoop rest 1 v with
        | none => none
        | some (v', i) => some (v', bb, isLast, i)
      else some (v, bb, isLast, 1)

/-- jpp_message.cpp:73-92 `encode_with_indicator`. -/
def encodeWithIndicator (h : MsgHeader) (emitClass emitCsN : Bool) : List UInt8 :=
  let bb := if !emitClass && !emitCsN then 0x1 else if emitClass && !emitCsN then 0x2 else 0x3
  encodeBinId h.inClassId bb h.isLast
    ++ (if emitClass then vbasEncode h.classId else [])
    ++ (if emitCsN then vbasEncode h.csN else [])
    ++ vbasEncode h.msgOffset
    ++ vbasEncode h.msgLength
    ++ (if hasAux h.classId then vbasEncode h.aux else [])

/-- jpp_message.cpp:96-107 `encode_header`: bytes written and the updated context. -/
def encodeHeader (h : MsgHeader) (ctx : Ctx) : List UInt8 × Ctx :=
  let classChanged := decide (h.classId ≠ ctx.lastClass)
  let csNChanged := decide (h.csN ≠ ctx.lastCs)
  let emitClass := classChanged || csNChanged
  let emitCsN := csNChanged
  (encodeWithIndicator h emitClass emitCsN, { lastClass := h.classId, lastCs := h.csN })

/-- jpp_message.cpp:109-111 `encode_header_independent`. -/
def encodeHeaderIndependent (h : MsgHeader) : List UInt8 := encodeWithIndicator h true true

/-- jpp_message.cpp:129-137: the Class field, present iff `bb` is 2 or 3; `some (class_id, pos)`. -/
def decodeClassField (src : List UInt8) (ctx : Ctx) (bb pos : Nat) : Option (Nat × Nat) :=
  if bb = 0x2 ∨ bb = 0x3 then
    match vbasDecode (src.drop pos) with
    | none => none
    | some (v, step) => if v > 0xFF then none else some (v, pos + step)
  else some (ctx.lastClass, pos)

/-- jpp_message.cpp:130,138-144: the CSn field, present iff `bb` is 3; `some (cs_n, pos)`. -/
def decodeCsField (src : List UInt8) (ctx : Ctx) (bb pos : Nat) : Option (Nat × Nat) :=
  if bb = 0x3 then
    match vbasDecode (src.drop pos) with
    | none => none
    | some (v, step) => if v > 0xFFFF then none else some (v, pos + step)
  else some (ctx.lastCs, pos)

/-- jpp_message.cpp:154-158: the Aux field, present iff the class is odd; `some (aux, pos)`. -/
def decodeAuxField (src : List UInt8) (classId pos : Nat) : Option (Nat × Nat) :=
  if hasAux classId then
    match vbasDecode (src.drop pos) with
    | none => none
    | some (v, step) => some (v, pos + step)
  else some (0, pos)

/-- The part of `decode_header` (jpp_message.cpp:116-158) before the outputs are committed:
`some (header, pos)` when every field decoded. -/
def decodeHeaderFields (src : List UInt8) (ctx : Ctx) : Option (MsgHeader × Nat) := do
  let (inClassId, bb, isLast, pos) ← decodeBinId src
  let (classId, pos) ← decodeClassField src ctx bb pos
  let (csN, pos) ← decodeCsField src ctx bb pos
  let (msgOffset, step) ← vbasDecode (src.drop pos)
  let pos := pos + step
  let (msgLength, step) ← vbasDecode (src.drop pos)
  let pos := pos + step
  let (aux, pos) ← decodeAuxField src classId pos
  some ({ classId, csN, inClassId, msgOffset, msgLength, aux, isLast }, pos)

/-- jpp_message.cpp:113-173 `decode_header`: result (`none` = `false`) and the context afterwards. -/
def decodeHeader (src : List UInt8) (ctx : Ctx) : Option (MsgHeader × Nat) × Ctx :=
  match decodeHeaderFields src ctx with
  | none => (none, ctx)
  | some (h, pos) => (some (h, pos), { lastClass := h.classId, lastCs := h.csN })

end Verif.Jpip
