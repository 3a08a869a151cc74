import Mathlib.Data.List.Sort
/-
Model of the JPIP cache model (the server's / client's record of which data-bins the client holds).
Source: /repo/source/core/jpip/cache_model.cpp, cache_model.hpp.
-/
namespace Verif.Jpip

/-- cache_model.hpp:77-80 `CacheModel::Entry`. -/
structure CacheEntry where
  bytes : Nat := 0
  complete : Bool := false
  deriving DecidableEq, Repr

/-- cache_model.hpp:81 `std::unordered_map<uint64_t, Entry> bins_`, extensionally a partial function of the
64-bit key. -/
structure CacheModel where
  bins : Nat → Option CacheEntry := fun _ => none

/-- cache_model.hpp:74-76 `key`: `(uint64_t(cls) << 56) | id`, 64-bit. -/
def cacheKey (cls id : Nat) : Nat := ((cls <<< 56) ||| id) % 2 ^ 64

/-- `bins_[k] = e`. -/
def CacheModel.put (m : CacheModel) (k : Nat) (e : CacheEntry) : CacheModel :=
  { bins := fun k' => if k' = k then some e else m.bins k' }

/-- cache_model.cpp:25-27 `mark`. -/
def CacheModel.mark (m : CacheModel) (cls id : Nat) : CacheModel :=
  let k := cacheKey cls id
  m.put k { (m.bins k).getD {} with complete := true }

/-- cache_model.cpp:29-32 `mark_partial`. -/
def CacheModel.markPartial (m : CacheModel) (cls id bytes : Nat) : CacheModel :=
  let k := cacheKey cls id
  let e := (m.bins k).getD {}
  if ¬ e.complete ∧ bytes > e.bytes then m.put k { e with bytes := bytes } else m.put k e

/-- cache_model.cpp:34-36 `unmark`. -/
def CacheModel.unmark (m : CacheModel) (cls id : Nat) : CacheModel :=
  { bins := fun k => if k = cacheKey cls id then none else m.bins k }

/-- cache_model.cpp:38-41 `has`. -/
def CacheModel.has (m : CacheModel) (cls id : Nat) : Bool :=
  match m.bins (cacheKey cls id) with
  | none => false
  | some e => e.complete

/-- cache_model.cpp:43-46 `received_bytes`. -/
def CacheModel.receivedBytes (m : CacheModel) (cls id : Nat) : Nat :=
  match m.bins (cacheKey cls id) with
  | none => 0
  | some e => e.bytes

/-- cache_model.cpp:48 `clear`. -/
def CacheModel.clear (_ : CacheModel) : CacheModel := {}

/-! ### Decimal numbers -/

/-- `std::to_string(uint64_t)`: decimal digits, most significant first (`"0"` for 0). -/
def decStr (n : Nat) : List Char :=
  if _h : n < 10 then [Char.ofNat (48 + n)] else decStr (n / 10) ++ [Char.ofNat (48 + n % 10)]
termination_by n
decreasing_by omega

/-- C `isspace` in the "C" locale. -/
def isSpaceC (c : Char) : Bool := c = ' ' || (9 ≤ c.toNat && c.toNat ≤ 13)

/-- C `isdigit`. -/
def isDigitC (c : Char) : Bool := 48 ≤ c.toNat && c.toNat ≤ 57

/-- Value of a digit run. -/
def digitsVal (cs : List Char) : Nat := cs.foldl (fun a c => a * 10 + (c.toNat - 48)) 0

/-- The optional sign accepted by `strtoull`: (negative?, rest). -/
def signOf : List Char → Bool × List Char
  | [] => (false, [])
  | c :: t => if c = '-' then (true, t) else if c = '+' then (false, t) else (false, c :: t)

/-- `std::strtoull(q, &numend, 10)` applied inside a token: `none` if no conversion (`numend == q`), else the
value and the unread rest of the token.  Leading white space, one optional sign, digits; overflow gives
`ULLONG_MAX`; a minus sign negates modulo 2^64.  A conversion can never run past the token's end since
`','` and NUL are neither space, sign nor digit (cache_model.cpp:161-166). -/
def strtoull (cs : List Char) : Option (Nat × List Char) :=
  let cs1 := cs.dropWhile isSpaceC
  let neg := (signOf cs1).1
  let cs2 := (signOf cs1).2
  let ds := cs2.takeWhile isDigitC
  if ds.isEmpty then none
  else
    let v := digitsVal ds
    let w := if v ≥ 2 ^ 64 then 2 ^ 64 - 1 else if neg then (2 ^ 64 - v) % 2 ^ 64 else v
    some (w, cs2.dropWhile isDigitC)

/-- `strtoull(q, nullptr, 10)`: 0 when no conversion can be performed. -/
def strtoullVal (cs : List Char) : Nat :=
  match strtoull cs with
  | none => 0
  | some (v, _) => v

/-! ### Model strings -/

/-- jpp_message.hpp class numbers used by the model grammar. -/
def kMsgClassPrecinct : Nat := 0
def kMsgClassTileHeader : Nat := 2
def kMsgClassMainHeader : Nat := 6
def kMsgClassMetadata : Nat := 8

/-- cache_model.cpp:55-63 `class_prefix`. -/
def classPrefix (cls : Nat) : Option (List Char) :=
  if cls = kMsgClassMainHeader then some ['H', 'm']
  else if cls = kMsgClassTileHeader then some ['H']
  else if cls = kMsgClassPrecinct then some ['P']
  else if cls = kMsgClassMetadata then some ['M']
  else none

/-- cache_model.cpp:65-78 `prefix_to_class`: class and rest of the token (`none` for 0xFF). -/
def prefixToClass : List Char → Option (Nat × List Char)
  | 'H' :: 'm' :: t => some (kMsgClassMainHeader, t)
  | 'H' :: 't' :: t => some (kMsgClassTileHeader, t)
  | 'H' :: 'p' :: t => some (kMsgClassPrecinct, t)
  | 'P' :: t => some (kMsgClassPrecinct, t)
  | 'H' :: t => some (kMsgClassTileHeader, t)
  | 'M' :: t => some (kMsgClassMetadata, t)
  | _ => none

/-- cache_model.cpp:23 `kMaxModelBinOps`. -/
def kMaxModelBinOps : Nat := 2 ^ 22

/-- One bin operation of a statement (cache_model.cpp:221-223). -/
def CacheModel.binOp (m : CacheModel) (subtractive : Bool) (partialBytes : Option Nat) (cls id : Nat) :
    CacheModel :=
  if subtractive then m.unmark cls id
  else
    match partialBytes with
    | some b => m.markPartial cls id b
    | none => m.mark cls id

/-- cache_model.cpp:218-224: the loop over the ids of a range, `n` iterations from `id`; `++id` is a
`uint64_t` increment. -/
def CacheModel.rangeOps (m : CacheModel) (sub : Bool) (pb : Option Nat) (cls id : Nat) : Nat → CacheModel
  | 0 => m
  | n + 1 => (m.binOp sub pb cls id).rangeOps sub pb cls ((id + 1) % 2 ^ 64) n

/-- What one token asks for: class, first id, number of ids, subtractive flag, partial byte count.
cache_model.cpp:177-217.  A main-header token addresses id 0 only and does not consume budget
(`countsBudget`); `none` for tokens that are skipped by `continue`. -/
structure Stmt where
  cls : Nat
  first : Nat
  count : Nat
  sub : Bool
  pb : Option Nat
  countsBudget : Bool

/-- cache_model.cpp:179-180: the subtractive prefix. -/
def splitMinus : List Char → Bool × List Char
  | [] => (false, [])
  | c :: t => if c = '-' then (true, t) else (false, c :: t)

/-- cache_model.cpp:209-214: the optional `-end` of a range; `none` when the token is skipped. -/
def parseRangeEnd (start : Nat) : List Char → Option (Nat × List Char)
  | [] => some (start, [])
  | c :: hs =>
    if c = '-' then
      match strtoull hs with
      | none => none
      | some (endId, r') => if endId < start then none else some (endId, r')
    else some (start, c :: hs)

/-- cache_model.cpp:187-192, 215-217: the optional `:bytes` qualifier. -/
def parsePartial : List Char → Option Nat
  | [] => none
  | c :: t => if c = ':' then some (strtoullVal t) else none

/-- cache_model.cpp:177-217: parse one token. -/
def parseToken (tok : List Char) : Option Stmt :=
  let sub := (splitMinus tok).1
  match prefixToClass (splitMinus tok).2 with
  | none => none
  | some (cls, q) =>
    if cls = kMsgClassMainHeader then
      some ⟨cls, 0, 1, sub, parsePartial (q.dropWhile (· ≠ ':')), false⟩
    else if q.isEmpty then none
    else
      match strtoull q with
      | none => none
      | some (start, r) =>
        match parseRangeEnd start r with
        | none => none
        | some (endId, r) =>
          -- `id <= UINT64_MAX` never becomes false: the loop then only ends when the budget is spent
          let count := if endId = 2 ^ 64 - 1 then 2 ^ 64 else endId - start + 1
          some ⟨cls, start, count, sub, parsePartial r, true⟩

/-- cache_model.cpp:186-224: execute a statement; returns the new model and the remaining budget, or
`none` in the second component when the budget ran out (`return`). -/
def CacheModel.exec (m : CacheModel) (s : Stmt) (budget : Nat) : CacheModel × Option Nat :=
  if s.countsBudget then
    if s.count ≤ budget then (m.rangeOps s.sub s.pb s.cls s.first s.count, some (budget - s.count))
    else (m.rangeOps s.sub s.pb s.cls s.first budget, none)
  else (m.binOp s.sub s.pb s.cls s.first, some budget)

/-- cache_model.cpp:171-175: split at commas.  (The trailing empty token of a string ending in `','` or of the
empty string is never visited by the C++ loop; visiting it is a no-op since it has no class prefix.) -/
def splitCommas : List Char → List (List Char)
  | [] => [[]]
  | c :: cs =>
    if c = ',' then [] :: splitCommas cs
    else
      match splitCommas cs with
      | [] => [[c]]
      | t :: ts => (c :: t) :: ts

/-- cache_model.cpp:170-225: the token loop. -/
def CacheModel.applyTokens (m : CacheModel) (budget : Nat) : List (List Char) → CacheModel
  | [] => m
  | t :: ts =>
    match parseToken t with
    | none => m.applyTokens budget ts
    | some s =>
      match m.exec s budget with
      | (m', none) => m'
      | (m', some b) => m'.applyTokens b ts

/-- cache_model.cpp:157-226 `apply`. -/
def CacheModel.apply (m : CacheModel) (s : List Char) : CacheModel :=
  m.applyTokens kMaxModelBinOps (splitCommas s)

/-- cache_model.cpp:151-155 `parse`. -/
def CacheModel.parse (s : List Char) : CacheModel := ({} : CacheModel).apply s

/-! ### Formatting

`format` iterates an `unordered_map`, whose order is unspecified, so the model takes the entries as a list in
arbitrary order. -/

/-- cache_model.cpp:84-104: one `ClassGroup`. -/
structure ClassGroup where
  cls : Nat
  completeIds : List Nat
  partials : List (Nat × Nat)

/-- cache_model.cpp:90-104: add one map entry to the groups (first-seen group order). -/
def addToGroups (gs : List ClassGroup) (cls id : Nat) (e : CacheEntry) : List ClassGroup :=
  match gs with
  | [] =>
    if e.complete then [⟨cls, [id], []⟩]
    else if e.bytes > 0 then [⟨cls, [], [(id, e.bytes)]⟩]
    else [⟨cls, [], []⟩]
  | g :: rest =>
    if g.cls = cls then
      (if e.complete then { g with completeIds := g.completeIds ++ [id] }
       else if e.bytes > 0 then { g with partials := g.partials ++ [(id, e.bytes)] }
       else g) :: rest
    else g :: addToGroups rest cls id e

/-- cache_model.cpp:90-104 over all entries `(key, entry)`. -/
def buildGroups (es : List (Nat × CacheEntry)) : List ClassGroup :=
  es.foldl (fun gs p => addToGroups gs ((p.1 >>> 56) % 2 ^ 8) (p.1 &&& 0x00FFFFFFFFFFFFFF) p.2) []

/-- cache_model.cpp:129-139: compress a sorted id list into maximal runs `(start, end)`. -/
def runs : List Nat → List (Nat × Nat)
  | [] => []
  | x :: xs =>
    match runs xs with
    | [] => [(x, x)]
    | (a, b) :: rs => if a = x + 1 then (x, b) :: rs else (x, x) :: (a, b) :: rs

/-- cache_model.cpp:107-147: the token strings of one group.  `std::sort` (lines 110-111) is represented by
insertion sort; the elements are distinct map keys, so every sorting algorithm gives the same list. -/
def groupTokens (g : ClassGroup) : List (List Char) :=
  match classPrefix g.cls with
  | none => []
  | some pfx =>
    if g.cls = kMsgClassMainHeader then
      (if g.completeIds.isEmpty then [] else [pfx]) ++
        (g.partials.insertionSort (fun a b => a.1 < b.1 ∨ a.1 = b.1 ∧ a.2 ≤ b.2)).map
          fun p => pfx ++ [':'] ++ decStr p.2
    else
      (runs (g.completeIds.insertionSort (· ≤ ·))).map
          (fun r => if r.2 ≠ r.1 then pfx ++ decStr r.1 ++ ['-'] ++ decStr r.2 else pfx ++ decStr r.1) ++
        (g.partials.insertionSort (fun a b => a.1 < b.1 ∨ a.1 = b.1 ∧ a.2 ≤ b.2)).map
          fun p => pfx ++ decStr p.1 ++ [':'] ++ decStr p.2

/-- Tokens joined with `','` (the `if (!out.empty()) out += ','` idiom; tokens are never empty). -/
def joinCommas : List (List Char) → List Char
  | [] => []
  | [t] => t
  | t :: ts => t ++ ',' :: joinCommas ts

/-- cache_model.cpp:80-149 `format`, entries in iteration order. -/
def formatModel (es : List (Nat × CacheEntry)) : List Char :=
  joinCommas ((buildGroups es).flatMap groupTokens)

end Verif.Jpip
