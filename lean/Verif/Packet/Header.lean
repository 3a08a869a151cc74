import Verif.Packet.Prog
import Verif.Packet.TagTree
/-
Model of packet-header generation and parsing for HT code-blocks.
Source: /repo/source/core/coding/coding_units.cpp:1678-2364 (parse_packet_header, generate_packet_header) and
5408-5453 (read_packet).

Simplifications, on both sides: code-blocks are HT (`Cmodes` = HT) and `Ccap15 & 0xC000` is 0, so the MIXED,
RESTART and BYPASS branches are left out; `fast_skip_passes`, `primary_*` and `secondary_*` only feed each other
and are left out.
-/
namespace Verif.Packet

def upd {β : Type} (f : Nat → β) (i : Nat) (v : β) : Nat → β := fun j => if j = i then v else f j

/-! ### Encoder -/

/-- What `generate_packet_header` reads of a code-block at layer 0: `length`, `layer_passes[0]`, `num_ZBP` and
`pass_length` (`layer_start[0]` is 0, ht_block_encoding.cpp:467,830). -/
structure EncBlock where
  length : Nat
  passes : Nat
  zbp : Nat
  passLen : List Nat
  deriving DecidableEq, Repr

/-- Coder state of the inclusion tree: `current_value` and `state` per node. -/
structure IncState where
  cur : Nat → Nat := fun _ => 0
  st : Nat → Bool := fun _ => false

/-- `current_value` raised to the parent's (coding_units.cpp:2217-2226 and 1775-1784). -/
def raised (ps : List (Option Nat)) (s : IncState) (n : Nat) : Nat :=
  match parentFn ps n with
  | none => s.cur n
  | some p => max (s.cur n) (s.cur p)

/-- coding_units.cpp:2215-2236: inclusion coding of one node. -/
def encIncNode (ps : List (Option Nat)) (val : Nat → Nat) (thr : Nat) (s : IncState) (n : Nat) :
    List Bool × IncState :=
  if s.st n then ([], s)
  else
    let c := raised ps s n
    if c ≤ thr then
      if val n ≤ thr then ([true], { cur := upd s.cur n c, st := upd s.st n true })
      else ([false], { s with cur := upd s.cur n ((c + 1) % 256) })
    else ([], { s with cur := upd s.cur n c })

def encInc (ps : List (Option Nat)) (val : Nat → Nat) (thr : Nat) (s : IncState) :
    List Nat → List Bool × IncState
  | [] => ([], s)
  | n :: rest =>
    let r := encIncNode ps val thr s n
    let r2 := encInc ps val thr r.2 rest
    (r.1 ++ r2.1, r2.2)

/-- coding_units.cpp:2246-2251: the parent's value, 0 for the root. -/
def zbpThr (ps : List (Option Nat)) (val : Nat → Nat) (n : Nat) : Nat :=
  match parentFn ps n with
  | none => 0
  | some p => val p

/-- coding_units.cpp:2243-2260: zero-bit-plane coding of one node; the state is the set of coded nodes. -/
def encZbpNode (ps : List (Option Nat)) (val : Nat → Nat) (st : Nat → Bool) (n : Nat) :
    List Bool × (Nat → Bool) :=
  if st n then ([], st)
  else
    (List.replicate (val n - zbpThr ps val n) false ++ [true], upd st n true)

def encZbp (ps : List (Option Nat)) (val : Nat → Nat) (st : Nat → Bool) : List Nat → List Bool × (Nat → Bool)
  | [] => ([], st)
  | n :: rest =>
    let r := encZbpNode ps val st n
    let r2 := encZbp ps val r.2 rest
    (r.1 ++ r2.1, r2.2)

/-- coding_units.cpp:2268-2286: number of coding passes. -/
def encPasses (n : Nat) : List Bool :=
  if n = 1 then [false]
  else if n = 2 then bitsOf 0x2 2
  else if n < 6 then bitsOf 0x3 2 ++ bitsOf (n - 3) 2
  else if n < 37 then bitsOf 0xF 4 ++ bitsOf (n - 6) 5
  else bitsOf 0x1FF 9 ++ bitsOf (n - 37) 7

/-- coding_units.cpp:2312-2331 and 2345-2360: segments as (first pass, number of passes); pass 0 is on its own. -/
def encSegs (passIdx new : Nat) : List (Nat × Nat) :=
  if h : new = 0 then []
  else
    (passIdx, if passIdx = 0 then 1 else new) ::
      encSegs (passIdx + if passIdx = 0 then 1 else new) (new - if passIdx = 0 then 1 else new)
termination_by new
decreasing_by split <;> omega

/-- coding_units.cpp:2324-2329: `segment_bytes`. -/
def segBytes (passLen : List Nat) (s : Nat × Nat) : Nat := ((passLen.drop s.1).take s.2).sum

/-- coding_units.cpp:2316-2319: `while ((2 << k) <= n) k++`. -/
def floorLog (n k : Nat) : Nat := if 2 * 2 ^ k ≤ n then floorLog n (k + 1) else k
termination_by n - k
decreasing_by
  have := @Nat.lt_two_pow_self k
  omega

/-- coding_units.cpp:2331-2335: raise `Lblock` until the length fits. -/
def growLblock (bytes log lblock : Nat) : List Bool × Nat :=
  if 2 ^ (log + lblock) ≤ bytes then
    (true :: (growLblock bytes log (lblock + 1)).1, (growLblock bytes log (lblock + 1)).2)
  else ([], lblock)
termination_by bytes - (log + lblock)
decreasing_by
  all_goals
    have := @Nat.lt_two_pow_self (log + lblock)
    omega

def growAll (passLen : List Nat) : List (Nat × Nat) → Nat → List Bool × Nat
  | [], lblock => ([], lblock)
  | s :: rest, lblock =>
    let r := growLblock (segBytes passLen s) (floorLog s.2 0) lblock
    let r2 := growAll passLen rest r.2
    (r.1 ++ r2.1, r2.2)

/-- coding_units.cpp:2266-2363: everything after inclusion, for a block with `passes` > 0 (`Lblock` is 3). -/
def encBody (b : EncBlock) : List Bool :=
  let segs := encSegs 0 b.passes
  let g := growAll b.passLen segs 3
  encPasses b.passes ++ g.1 ++ [false] ++
    segs.flatMap fun s => bitsOf (segBytes b.passLen s) (floorLog s.2 0 + g.2)

/-- Encoder state carried from block to block. -/
structure EncTrees where
  inc : IncState := {}
  zbp : Nat → Bool := fun _ => false

/-- coding_units.cpp:2187-2363: one code-block at layer 0. -/
def encBlock (ps : List (Option Nat)) (incVal zbpVal : Nat → Nat) (t : EncTrees) (idx : Nat) (b : EncBlock) :
    List Bool × EncTrees :=
  let i := encInc ps incVal 0 t.inc (rootPath ps idx)
  if b.passes = 0 then (i.1, { t with inc := i.2 })
  else
    let z := encZbp ps zbpVal t.zbp (rootPath ps idx)
    (i.1 ++ z.1 ++ encBody b, { inc := i.2, zbp := z.2 })

def encBlocks (ps : List (Option Nat)) (incVal zbpVal : Nat → Nat) (t : EncTrees) (idx : Nat) :
    List EncBlock → List Bool
  | [] => []
  | b :: rest =>
    let r := encBlock ps incVal zbpVal t idx b
    r.1 ++ encBlocks ps incVal zbpVal r.2 (idx + 1) rest

/-- A subband's part of a precinct: code-block grid and blocks in raster order. -/
structure EncBand where
  w : Nat
  h : Nat
  blocks : List EncBlock
  deriving Repr

/-- coding_units.cpp:2162-2364 `generate_packet_header`. -/
def encBand (b : EncBand) : List Bool :=
  if b.w * b.h = 0 then []
  else
    let ps := parentsOf b.w b.h
    let inc := buildVals ps (b.blocks.map fun k => if k.length ≠ 0 then 0 else 1)
    let zbp := buildVals ps (b.blocks.map (·.zbp))
    encBlocks ps (fun i => inc.getD i 0) (fun i => zbp.getD i 0) {} 0 b.blocks

/-- coding_units.cpp:7125-7146: the header of one packet. -/
def encPacket (useEPH : Bool) (bands : List EncBand) : List Nat :=
  (Writer.new.putBits (bands.flatMap encBand)).flush useEPH

/-! ### Parser -/

/-- codestream.hpp:364-373 `get_N_bits`: accumulates in a `uint32_t`. -/
def readNFrom (cwd : Nat) : Nat → Prog Nat
  | 0 => pure cwd
  | n + 1 => do
    let b ← Prog.getBit
    readNFrom ((cwd * 2 + b.toNat) % 2 ^ 32) n

def readN (n : Nat) : Prog Nat := readNFrom 0 n

/-- What the parser keeps of a code-block.  `passLen` is `pass_length[0 .. pass_length_count)`, `cap` the
capacity of the array behind it; `layers` has (layer_start, layer_passes) of the packets parsed so far. -/
structure DecBlock where
  included : Bool := false
  phld : Bool := false
  zbp : Nat := 0
  lblock : Nat := 0
  numPasses : Nat := 0
  passLen : List Nat := []
  cap : Nat := 4
  layers : List (Nat × Nat) := []
  deriving DecidableEq, Repr

/-- Zero-bit-plane tree as the parser keeps it. -/
structure ZbpState where
  cur : Nat → Nat := fun _ => 0
  st : Nat → Bool := fun _ => false
  value : Nat → Nat := fun _ => 0

structure DecTrees where
  inc : IncState := {}
  zbp : ZbpState := {}

/-- coding_units.cpp:1766-1796: one node at threshold `thr`; the flag is `is_included`. -/
def decIncNode (ps : List (Option Nat)) (thr : Nat) (s : IncState) (n : Nat) (f : Bool) : Prog (IncState × Bool) :=
  if s.st n then pure (s, f)
  else
    let c := raised ps s n
    if c ≤ thr then do
      let b ← Prog.getBit
      if b then pure ({ cur := upd s.cur n c, st := upd s.st n true }, true)
      else pure ({ s with cur := upd s.cur n ((c + 1) % 65536) }, false)
    else pure ({ s with cur := upd s.cur n c }, f)

def decInc (ps : List (Option Nat)) (thr : Nat) (s : IncState) (f : Bool) : List Nat → Prog (IncState × Bool)
  | [] => pure (s, f)
  | n :: rest => do
    let r ← decIncNode ps thr s n f
    decInc ps thr r.1 r.2 rest

/-- coding_units.cpp:1813-1822: read zeros until a one.  `fuel` bounds the bits read; exceeding it is `spin`
(past the end of the data `get_byte` delivers zeros for ever, so the loop of the code does not stop). -/
def countZeros : Nat → Nat → Prog Nat
  | 0, _ => .fail .spin
  | fuel + 1, c => do
    let b ← Prog.getBit
    if b then pure c else countZeros fuel ((c + 1) % 65536)

/-- coding_units.cpp:1801-1824: one node of the zero-bit-plane tree. -/
def decZbpNode (ps : List (Option Nat)) (fuel : Nat) (s : ZbpState) (n : Nat) : Prog ZbpState :=
  if s.st n then pure s
  else do
    let c ← countZeros fuel (raised ps ⟨s.cur, s.st⟩ n)
    pure { cur := upd s.cur n c, st := upd s.st n true, value := upd s.value n c }

def decZbp (ps : List (Option Nat)) (fuel : Nat) (s : ZbpState) : List Nat → Prog ZbpState
  | [] => pure s
  | n :: rest => do
    let s ← decZbpNode ps fuel s n
    decZbp ps fuel s rest

/-- coding_units.cpp:1837-1852: number of new passes. -/
def decPasses : Prog Nat := do
  let b ← Prog.getBit
  if b then do
    let b2 ← Prog.getBit
    if b2 then do
      let x ← readN 2
      if 3 + x ≥ 6 then do
        let y ← readN 5
        if 3 + x + y ≥ 37 then do
          let z ← readN 7
          pure (3 + x + y + z)
        else pure (3 + x + y)
      else pure (3 + x)
    else pure 2
  else pure 1

/-- coding_units.cpp:1854-1857: `while (get_bit() == 1) Lblock++` (`uint8_t`). -/
def decLblock : Nat → Nat → Prog Nat
  | 0, _ => .fail .spin
  | fuel + 1, l => do
    let b ← Prog.getBit
    if b then decLblock fuel ((l + 1) % 256) else pure l

/-- coding_units.cpp:1875-1878: `while (pass_bound <= n) { bits++; pass_bound += pass_bound; }`. -/
def passBound (n pb bits : Nat) : Nat × Nat :=
  if _h : pb ≤ n ∧ 0 < pb then passBound n (pb + pb) (bits + 1) else (bits, pb)
termination_by n + 1 - pb

/-- coding_units.cpp:2016-2032 and 2097-2113: account for a segment.  `oob` is a store beyond the capacity of
`pass_length` (coding_units.hpp:198-203 `ensure_pass_capacity`). -/
def addSegment (b : DecBlock) (seg bytes : Nat) : Prog DecBlock :=
  if seg > 128 then .fail .throw
  else if b.numPasses + seg > 128 then .fail .throw
  else
    let np := b.numPasses + seg
    let cap := if np ≤ 4 ∨ b.cap ≠ 4 then b.cap else 128
    let filled := b.passLen ++ List.replicate (np - b.passLen.length) 0
    if np = 0 ∨ np > cap ∨ b.passLen.length > cap then .fail .oob
    else pure { b with numPasses := np, cap := cap, passLen := filled.set (np - 1) bytes }

/-- coding_units.cpp:2050-2115: remaining segments of an HT block; `two` says `next_segment_passes == 2`. -/
def htLoop (new : Nat) (two empty : Bool) (b : DecBlock) : Prog DecBlock :=
  if _h : new = 0 then pure b
  else
    let seg := if new > 1 then (if two then 2 else 1) else 1
    (readN ((b.lblock + seg - 1) % 256)).bind fun x =>
      if two then
        if empty ∧ x ≠ 0 then .fail .throw
        else (addSegment b seg x).bind fun b => htLoop (new - seg) false empty b
      else
        if x = 1 then .fail .throw
        else (addSegment b seg x).bind fun b => htLoop (new - seg) true (x == 0) b
termination_by new
decreasing_by all_goals (split <;> (try split) <;> omega)

/-- coding_units.cpp:1917-1935: extra length bits of placeholder passes. -/
def extraBits (n pb x : Nat) : Prog Nat :=
  if _h : pb ≤ n ∧ 0 < pb then do
    let b ← Prog.getBit
    extraBits n (pb + pb) ((x * 2 + b.toNat) % 2 ^ 32)
  else pure x
termination_by n + 1 - pb

/-- coding_units.cpp:1865-1944: the block has not had an HT cleanup pass yet. -/
def decFirst (b : DecBlock) (new : Nat) : Prog DecBlock :=
  let seg := new - (b.numPasses + new - 1) % 3
  if seg < 1 then do
    let x ← readN ((passBound new 2 b.lblock).1 % 256)
    if x ≠ 0 then .fail .throw else addSegment b new x
  else do
    let x ← readN ((passBound seg 2 b.lblock).1 % 256)
    if x ≠ 0 then
      if x < 2 then .fail .throw
      else do
        let b ← addSegment { b with phld := false } seg x
        htLoop (new - seg) true false b
    else do
      let y ← extraBits new (passBound seg 2 b.lblock).2 x
      if y ≠ 0 then .fail .throw else addSegment b new y

/-- coding_units.cpp:1945-1972: the layer starts with a non-initial HT pass. -/
def decNext (b : DecBlock) (new : Nat) : Prog DecBlock :=
  if b.numPasses % 3 = 0 then do
    let x ← readN (b.lblock % 256)
    let b ← addSegment b 1 x
    htLoop (new - 1) true (x == 0) b
  else
    let seg := if new > 1 then 3 - b.numPasses % 3 else 1
    (readN ((seg - 1 + b.lblock) % 256)).bind fun x =>
      (addSegment b seg x).bind fun b => htLoop (new - seg) false false b

/-- coding_units.cpp:1834-2159: a code-block that contributes to this packet. -/
def decBody (fuel : Nat) (b : DecBlock) (start : Nat) : Prog DecBlock := do
  let new ← decPasses
  let l ← decLblock fuel b.lblock
  let b : DecBlock := { b with lblock := l, layers := b.layers ++ [(start, new)] }
  if b.phld then decFirst b new else decNext b new

/-- coding_units.cpp:1689-2163: one code-block in layer `layer`. -/
def decBlock (ps : List (Option Nat)) (fuel layer : Nat) (t : DecTrees) (idx : Nat) (b : DecBlock) :
    Prog (DecTrees × DecBlock) :=
  let start := (b.layers.map (·.2)).sum % 256
  if b.included then do
    let bit ← Prog.getBit
    if bit then do
      let b ← decBody fuel b start
      pure (t, b)
    else pure (t, { b with layers := b.layers ++ [(start, 0)] })
  else
    let b := { b with phld := true }
    let path := rootPath ps idx
    (if layer > 0 then decInc ps 0 t.inc false path else pure (t.inc, false)).bind fun r0 =>
      (decInc ps layer r0.1 r0.2 path).bind fun r =>
        if r.2 then do
          let z ← decZbp ps fuel t.zbp path
          let b ← decBody fuel { b with included := true, zbp := z.value idx % 256, lblock := 3 } start
          pure ({ inc := r.1, zbp := z }, b)
        else pure ({ t with inc := r.1 }, { b with layers := b.layers ++ [(start, 0)] })

def decBlocks (ps : List (Option Nat)) (fuel layer : Nat) (t : DecTrees) (idx : Nat) :
    List DecBlock → Prog (DecTrees × List DecBlock)
  | [] => pure (t, [])
  | b :: rest => do
    let r ← decBlock ps fuel layer t idx b
    let r2 ← decBlocks ps fuel layer r.1 (idx + 1) rest
    pure (r2.1, r.2 :: r2.2)

/-- A subband's part of a precinct as the parser keeps it. -/
structure DecBand where
  w : Nat
  h : Nat
  trees : DecTrees := {}
  blocks : List DecBlock

/-- A subband nothing has been parsed for. -/
def DecBand.fresh (w h : Nat) : DecBand := { w := w, h := h, blocks := List.replicate (w * h) {} }

/-- coding_units.cpp:1678-2163 `parse_packet_header`. -/
def decBand (fuel layer : Nat) (d : DecBand) : Prog DecBand :=
  if d.w * d.h = 0 then pure d
  else do
    let r ← decBlocks (parentsOf d.w d.h) fuel layer d.trees 0 d.blocks
    pure { d with trees := r.1, blocks := r.2 }

def decBands (fuel layer : Nat) : List DecBand → Prog (List DecBand)
  | [] => pure []
  | d :: rest => do
    let d ← decBand fuel layer d
    let rest ← decBands fuel layer rest
    pure (d :: rest)

/-- `get_word` compared with EPH (coding_units.cpp:5448-5454). -/
def checkEPH (useEPH : Bool) (r : Reader) : Except Fail Reader :=
  if useEPH then
    let (a, r) := r.getByte
    let (b, r) := r.getByte
    if a * 256 + b = 0xFF92 then .ok r else .error .throw
  else .ok r

/-- coding_units.cpp:5425-5454: the header part of `read_packet`.  The SOP segment in front of it is not
modelled. -/
def parsePacket (fuel : Nat) (useEPH : Bool) (layer : Nat) (ds : List DecBand) (r : Reader) :
    Except Fail (List DecBand × Reader) :=
  let b := r.getBit
  if b.1 then
    match (decBands fuel layer ds).runReader b.2 with
    | .error e => .error e
    | .ok (ds', r') => (checkEPH useEPH r'.finish).map fun r'' => (ds', r'')
  else (checkEPH useEPH { b.2 with bits := 0 }).map fun r'' => (ds, r'')

end Verif.Packet
