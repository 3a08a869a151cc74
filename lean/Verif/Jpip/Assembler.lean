import Verif.Jpip.View
import Verif.Jpip.Parser
import Verif.Jpip.CacheModel
import Verif.Jpip.Walker
/-
Model of codestream reassembly from data-bins, server-side test path and client path.
Source: /repo/source/core/jpip/codestream_assembler.cpp.
`none` stands for an exception thrown by the precinct index.
-/
namespace Verif.Jpip

/-- codestream_assembler.cpp:20-23 `append_u16_be`. -/
def putU16 (v : Nat) : List UInt8 := [UInt8.ofNat (v >>> 8), UInt8.ofNat (v &&& 0xFF)]

/-- codestream_assembler.cpp:25-30 `append_u32_be`. -/
def putU32 (v : Nat) : List UInt8 :=
  [UInt8.ofNat ((v >>> 24) &&& 0xFF), UInt8.ofNat ((v >>> 16) &&& 0xFF), UInt8.ofNat ((v >>> 8) &&& 0xFF),
   UInt8.ofNat (v &&& 0xFF)]

/-- codestream_assembler.hpp `ReassembleStatus`. -/
inductive RStatus | ok | unsupportedProgression | unsupportedFeature | missingMainHeader | layoutMismatch
  deriving DecidableEq, Repr

/-- codestream_assembler.cpp:113-135, 284-293: one tile-part; `none` when it is too long for Psot. -/
def tilePartOut (t : Nat) (hdr body : List UInt8) : Option (List UInt8) :=
  let psot := 12 + hdr.length + 2 + body.length
  if 0xFFFFFFFF < psot then none
  else some (putU16 mSOT ++ putU16 10 ++ putU16 (t % 2 ^ 16) ++ putU32 psot ++ [0] ++ [1] ++ hdr ++ putU16 mSOD ++ body)

/-- codestream_assembler.cpp:86-103: the bytes of one precinct. -/
def precinctOut (set : DataBinSet) (i : Index) (k : Key) : Option (List UInt8) := do
  let id ← i.I k
  some (if set.contains kMsgClassPrecinct id then set.get kMsgClassPrecinct id else List.replicate i.hdr.layers 0)

/-- codestream_assembler.cpp:78-136: the loop over tiles, then EOC.  `order` is `locator.precincts_of_tile`. -/
def serverTiles (set : DataBinSet) (i : Index) (order : Nat → List Key) : List Nat → List UInt8 → Option (List UInt8 × RStatus)
  | [], out => some (out ++ putU16 mEOC, .ok)
  | t :: ts, out => do
    let body ← concatM (order (t % 2 ^ 16)) (precinctOut set i)
    if set.contains kMsgClassTileHeader t = false then some (out, .layoutMismatch)
    else
      match tilePartOut t (set.get kMsgClassTileHeader t) body with
      | none => some (out, .unsupportedFeature)
      | some p => serverTiles set i order ts (out ++ p)

/-- codestream_assembler.cpp:44-143 `reassemble_codestream`: what is in `out` afterwards, and the status. -/
def reassembleServer (set : DataBinSet) (i : Index) (order : Nat → List Key) (out : List UInt8) :
    Option (List UInt8 × RStatus) :=
  if i.hdr.prog = 0 ∨ i.hdr.prog = 1 then some (out, .unsupportedProgression)
  else if i.hdr.prog ≠ 3 ∧ i.hdr.prog ≠ 2 ∧ i.hdr.prog ≠ 4 ∧ i.hdr.prog ≠ 5 then some (out, .unsupportedProgression)
  else if i.hdr.useSOP ∨ i.hdr.useEPH then some (out, .unsupportedFeature)
  else if set.contains kMsgClassMainHeader 0 = false then some (out, .missingMainHeader)
  else serverTiles set i order (List.range i.nT) (out ++ set.get kMsgClassMainHeader 0)

/-- codestream_assembler.cpp:153-174 `patch_cod_to_lrcp`: the loop; `none` for the empty vector returned when there is
no COD.  The guard `i + 6 < size` makes every access in range, so they are written with a default. -/
def patchLoop (h : List UInt8) : Nat → Nat → Option (List UInt8)
  | 0, _ => none
  | f + 1, i =>
    if i + 6 < h.length then
      if h.getD i 0 ≠ 0xFF then patchLoop h f (i + 1)
      else if h.getD (i + 1) 0 = 0x4F then patchLoop h f (i + 2)
      else
        let lmar := (h.getD (i + 2) 0).toNat * 256 + (h.getD (i + 3) 0).toNat
        if h.getD (i + 1) 0 = 0x52 then some (h.set (i + 5) 0)
        else if lmar < 2 ∨ h.length < i + 2 + lmar then none
        else patchLoop h f (i + 2 + lmar)
    else none

/-- codestream_assembler.cpp:153-174. -/
def patchCod (h : List UInt8) : Option (List UInt8) := patchLoop h (h.length + 1) 0

/-- codestream_assembler.cpp:231-242: the delivered precincts of one (tile, component, resolution) with their bins, sorted
by precinct.  `ks` is `set.keys()`.  `std::sort` does not promise an order between equal precinct numbers; the model
keeps the order of `ks` then. -/
def delivered (set : DataBinSet) (i : Index) (ks : List (Nat × Nat)) (t c r : Nat) : List (Nat × List UInt8) :=
  (ks.filterMap fun kv =>
    if kv.1 ≠ kMsgClassPrecinct then none
    else (i.decompose kv.2).bind fun pk =>
      if pk.t = t ∧ pk.c = c ∧ pk.r = r then some (pk.p, set.get kMsgClassPrecinct kv.2) else none).insertionSort
    fun a b => a.1 ≤ b.1

/-- codestream_assembler.cpp:264-275: the packets of one (resolution, component). -/
def emitRow (np : Nat) : List (Nat × List UInt8) → Nat → List UInt8
  | [], cur => if cur < np then List.replicate (np - cur) 0 else []
  | (p, bin) :: rest, cur => (if cur < p then List.replicate (p - cur) 0 else []) ++ bin ++ emitRow np rest (p + 1)

/-- codestream_assembler.cpp:252-279: the packets of a tile.  The counter `r` is a `uint8_t`; the model assumes fewer than
255 decomposition levels (the standard allows 32). -/
def clientBody (set : DataBinSet) (i : Index) (ks : List (Nat × Nat)) (t : Nat) : Option (List UInt8) :=
  concatM (List.range i.hdr.layers) fun _ =>
    concatM (List.range (i.maxNL + 1)) fun r =>
      concatM (List.range i.nC) fun c => do
        let info ← i.tc (t % 2 ^ 16) c
        if info.NL < r then some []
        else do
          let l ← info.levels[r]?
          some (emitRow (mul32 l.npw l.nph) (delivered set i ks t c r) 0)

/-- codestream_assembler.cpp:245-296: the loop over tiles, then EOC. -/
def clientTiles (set : DataBinSet) (i : Index) (ks : List (Nat × Nat)) : List Nat → List UInt8 → Option (List UInt8 × RStatus)
  | [], out => some (out ++ putU16 mEOC, .ok)
  | t :: ts, out => do
    let body ← clientBody set i ks t
    match tilePartOut t (set.get kMsgClassTileHeader t) body with
    | none => some (out, .unsupportedFeature)
    | some p => clientTiles set i ks ts (out ++ p)

/-- codestream_assembler.cpp:199-299 `reassemble_codestream_client`. -/
def reassembleClient (set : DataBinSet) (i : Index) (ks : List (Nat × Nat)) (out : List UInt8) :
    Option (List UInt8 × RStatus) :=
  if set.contains kMsgClassMainHeader 0 = false then some (out, .missingMainHeader)
  else
    match patchCod (set.get kMsgClassMainHeader 0) with
    | none => some (out, .unsupportedFeature)
    | some h => clientTiles set i ks (List.range i.nT) (out ++ h)

end Verif.Jpip
