import Verif.Jpip.View
import Verif.Jpip.CacheModel
/-
Model of the JPIP request line: the client's query formatter and the server's parser.
Source: /repo/source/core/jpip/jpip_request.cpp, jpip_request.hpp, and jpip_client.cpp:17-49, 178-184.
Strings are lists of characters.  `unsigned long` has 64 bits (LP64), so `strtoul` is `strtoull` of CacheModel.lean.
-/
namespace Verif.Jpip

/-- The pieces of a string between occurrences of a delimiter (the `find` / `substr` loops of
jpip_request.cpp:22-37, 117-152, 184-190); always at least one piece. -/
def splitOnC (d : Char) : List Char → List (List Char)
  | [] => [[]]
  | c :: cs =>
    if c = d then [] :: splitOnC d cs
    else
      match splitOnC d cs with
      | [] => [[c]]
      | t :: ts => (c :: t) :: ts

/-- `find` of one character followed by the two `substr` calls: what is before it and, if it occurs, what is after. -/
def cutAt (d : Char) : List Char → List Char × Option (List Char)
  | [] => ([], none)
  | c :: cs => if c = d then ([], some cs) else (c :: (cutAt d cs).1, (cutAt d cs).2)

/-- `std::strtoul(s, &end, 10)`: the value and the string from `end` on; 0 and all of `s` if there is no number. -/
def strtoulE (s : List Char) : Nat × List Char :=
  match strtoull s with
  | none => (0, s)
  | some r => r

/-- `*end == '\0'`: the string ends here, or holds a NUL character here. -/
def atEnd : List Char → Bool
  | [] => true
  | c :: _ => c = '\x00'

/-- jpip_request.hpp:82-88 `RequestParseStatus` (`UnknownField` is never produced). -/
inductive Status | ok | emptyQuery | unsupportedType | malformedField
  deriving DecidableEq, Repr

/-- jpip_request.hpp:30-80 `JpipRequest`. -/
structure JpipRequest where
  target : List Char := []
  vw : ViewWindow := {}
  hasFsiz : Bool := false
  hasRoff : Bool := false
  hasRsiz : Bool := false
  hasComps : Bool := false
  type : List Char := []
  model : List Char := []
  len : Nat := 0
  hasLen : Bool := false
  quality : Nat := 0
  hasQuality : Bool := false
  cnew : List Char := []
  hasCnew : Bool := false
  cid : List Char := []
  hasCid : Bool := false
  cclose : List Char := []
  hasCclose : Bool := false
  qid : Nat := 0
  hasQid : Bool := false
  deriving DecidableEq, Repr

/-- jpip_request.cpp:40-50 `parse_pair`: the two values as far as they were assigned, and success. -/
def parsePair (val : List Char) (a0 b0 : Nat) : Nat × Nat × Bool :=
  match cutAt ',' val with
  | (_, none) => (a0, b0, false)
  | (_, some r) =>
    let p := strtoulE val
    let a := p.1 % 2 ^ 32
    if p.2.length ≠ r.length + 1 then (a, b0, false)
    else
      let q := strtoulE r
      (a, q.1 % 2 ^ 32, atEnd q.2)

/-- Blank characters trimmed by `is_acceptable_return_type`. -/
def isBlank (c : Char) : Bool := c = ' ' || c = '\t'

/-- "jpp-stream". -/
def jppStream : List Char := ['j', 'p', 'p', '-', 's', 't', 'r', 'e', 'a', 'm']

/-- jpip_request.cpp:55-65 `is_acceptable_return_type`. -/
def acceptableType (item : List Char) : Bool :=
  let t := (((item.dropWhile isBlank).reverse.dropWhile isBlank).reverse).takeWhile (· ≠ ';')
  t = jppStream || t = ['i', 'm', 'a', 'g', 'e', '/'] ++ jppStream

/-- jpip_request.cpp:18. -/
def kMaxComponents : Nat := 16384

/-- jpip_request.cpp:136-144: the loop `for (v = lo; v <= hi; ++v)` with its cap; `v` is a 64-bit counter that wraps. -/
def pushRange (hi v : Nat) (acc : List Nat) : List Nat × Bool :=
  if v ≤ hi then
    if _h : kMaxComponents ≤ acc.length then (acc, false)
    else pushRange hi ((v + 1) % 2 ^ 64) (acc ++ [v % 2 ^ 16])
  else (acc, true)
termination_by kMaxComponents - acc.length
decreasing_by simp; omega

/-- jpip_request.cpp:121-145: one non-empty item of a component list. -/
def compItem (item : List Char) (acc : List Nat) : List Nat × Bool :=
  match strtoull item with
  | none => (acc, false)
  | some (lo, e) =>
    match e with
    | [] => pushRange lo lo acc
    | c :: hs =>
      if c = '-' then
        match strtoull hs with
        | none => (acc, false)
        | some (hi, e2) => if atEnd e2 = false ∨ hi < lo then (acc, false) else pushRange hi lo acc
      else if c ≠ '\x00' then (acc, false)
      else pushRange lo lo acc

/-- jpip_request.cpp:116-149: the loop over the items. -/
def compItems : List (List Char) → List Nat → List Nat × Bool
  | [], acc => (acc, true)
  | it :: its, acc =>
    if it.isEmpty then compItems its acc
    else
      match compItem it acc with
      | (acc, false) => (acc, false)
      | (acc, true) => compItems its acc

/-- jpip_request.cpp:80-102: the field `fsiz`. -/
def parseFsiz (r : JpipRequest) (val : List Char) : JpipRequest × Status :=
  match cutAt ',' val with
  | (_, none) => (r, .malformedField)
  | (_, some rest) =>
    let p := strtoulE val
    let r := { r with vw := { r.vw with fx := p.1 % 2 ^ 32 } }
    if p.2.length ≠ rest.length + 1 then (r, .malformedField)
    else
      let q := strtoulE rest
      let r := { r with vw := { r.vw with fy := q.1 % 2 ^ 32 } }
      match cutAt ',' rest with
      | (_, none) => if atEnd q.2 then ({ r with hasFsiz := true }, .ok) else (r, .malformedField)
      | (_, some rd) =>
        if q.2.length ≠ rd.length + 1 then (r, .malformedField)
        else if rd = ['r', 'o', 'u', 'n', 'd', '-', 'u', 'p'] then
          ({ r with vw := { r.vw with round := .up }, hasFsiz := true }, .ok)
        else if rd = ['r', 'o', 'u', 'n', 'd', '-', 'd', 'o', 'w', 'n'] then
          ({ r with vw := { r.vw with round := .down }, hasFsiz := true }, .ok)
        else if rd = ['c', 'l', 'o', 's', 'e', 's', 't'] then
          ({ r with vw := { r.vw with round := .closest }, hasFsiz := true }, .ok)
        else (r, .malformedField)

/-- jpip_request.cpp:154-161, 166-173, 204-212: a number that must be the whole value. -/
def parseNumber (val : List Char) : Option Nat :=
  match strtoull val with
  | none => none
  | some (n, e) => if atEnd e then some n else none

/-- jpip_request.cpp:75-214: the body of the lambda for one `key=value`. -/
def applyParam (r : JpipRequest) (key val : List Char) : JpipRequest × Status :=
  if key = ['t', 'a', 'r', 'g', 'e', 't'] then ({ r with target := val }, .ok)
  else if key = ['f', 's', 'i', 'z'] then parseFsiz r val
  else if key = ['r', 'o', 'f', 'f'] then
    let p := parsePair val r.vw.ox r.vw.oy
    let r := { r with vw := { r.vw with ox := p.1, oy := p.2.1 } }
    if p.2.2 then ({ r with hasRoff := true }, .ok) else (r, .malformedField)
  else if key = ['r', 's', 'i', 'z'] then
    let p := parsePair val r.vw.sx r.vw.sy
    let r := { r with vw := { r.vw with sx := p.1, sy := p.2.1 } }
    if p.2.2 then ({ r with hasRsiz := true }, .ok) else (r, .malformedField)
  else if key = ['c', 'o', 'm', 'p', 's'] then
    let p := compItems (splitOnC ',' val) []
    let r := { r with vw := { r.vw with comps := p.1 } }
    if p.2 then ({ r with hasComps := true }, .ok) else (r, .malformedField)
  else if key = ['m', 'o', 'd', 'e', 'l'] then ({ r with model := val }, .ok)
  else if key = ['l', 'e', 'n'] then
    match parseNumber val with
    | none => (r, .malformedField)
    | some n => ({ r with len := n, hasLen := true }, .ok)
  else if key = ['q', 'u', 'a', 'l', 'i', 't', 'y'] then
    match parseNumber val with
    | none => (r, .malformedField)
    | some n => ({ r with quality := n % 2 ^ 32, hasQuality := true }, .ok)
  else if key = ['t', 'y', 'p', 'e'] then
    if (splitOnC ',' val).any acceptableType then ({ r with type := jppStream }, .ok)
    else ({ r with type := val }, .unsupportedType)
  else if key = ['c', 'n', 'e', 'w'] then ({ r with cnew := val, hasCnew := true }, .ok)
  else if key = ['c', 'i', 'd'] then ({ r with cid := val, hasCid := true }, .ok)
  else if key = ['c', 'c', 'l', 'o', 's', 'e'] then ({ r with cclose := val, hasCclose := true }, .ok)
  else if key = ['q', 'i', 'd'] then
    match parseNumber val with
    | none => (r, .malformedField)
    | some n => ({ r with qid := n, hasQid := true }, .ok)
  else (r, .ok)

/-- jpip_request.cpp:22-37, 75-76: the parameters in turn; empty ones are skipped and nothing is done after a failure. -/
def applyParams : List (List Char) → JpipRequest → JpipRequest × Status
  | [], r => (r, .ok)
  | p :: ps, r =>
    if p.isEmpty then applyParams ps r
    else
      match applyParam r (cutAt '=' p).1 ((cutAt '=' p).2.getD []) with
      | (r, .ok) => applyParams ps r
      | (r, st) => (r, st)

/-- jpip_request.cpp:67-219 `parse_jpip_query` (with `out` not null). -/
def parseQuery (q : List Char) : JpipRequest × Status :=
  let q := match q with
    | [] => []
    | c :: cs => if c = '?' then cs else c :: cs
  if q.isEmpty then ({}, .emptyQuery) else applyParams (splitOnC '&' q) {}

/-- jpip_request.cpp:221-238 `split_http_get_line`: path and query. -/
def splitGetLine (line : List Char) : Option (List Char × List Char) :=
  if line.length < 14 then none
  else if line.take 4 ≠ ['G', 'E', 'T', ' '] then none
  else
    match cutAt ' ' (line.drop 4) with
    | (_, none) => none
    | (uri, some _) => some ((cutAt '?' uri).1, (cutAt '?' uri).2.getD [])

/-- jpip_client.cpp:23-27: the text after the two sizes. -/
def roundText : Round → List Char
  | .up => [',', 'r', 'o', 'u', 'n', 'd', '-', 'u', 'p']
  | .closest => [',', 'c', 'l', 'o', 's', 'e', 's', 't']
  | .down => []

/-- jpip_client.cpp:17-49 `format_view_window_query`. -/
def formatQuery (vw : ViewWindow) : List Char :=
  ['f', 's', 'i', 'z', '='] ++ decStr vw.fx ++ [','] ++ decStr vw.fy ++
  roundText vw.round ++
  (if vw.ox ≠ 0 ∨ vw.oy ≠ 0 then ['&', 'r', 'o', 'f', 'f', '='] ++ decStr vw.ox ++ [','] ++ decStr vw.oy else []) ++
  (if vw.sx ≠ 0 ∨ vw.sy ≠ 0 then ['&', 'r', 's', 'i', 'z', '='] ++ decStr vw.sx ++ [','] ++ decStr vw.sy else []) ++
  (if vw.comps ≠ [] then ['&', 'c', 'o', 'm', 'p', 's', '='] ++ joinCommas (vw.comps.map decStr) else []) ++
  ['&', 't', 'y', 'p', 'e', '='] ++ jppStream

/-- jpip_client.cpp:178-183: the first line of the request; `model` is `model->format()`, or `none` when there is no
model or it is empty. -/
def requestLine (vw : ViewWindow) (model : Option (List Char)) : List Char :=
  ['G', 'E', 'T', ' ', '/', 'j', 'p', 'i', 'p', '?'] ++ formatQuery vw ++
  (match model with
   | none => []
   | some m => ['&', 'm', 'o', 'd', 'e', 'l', '='] ++ m) ++
  [' ', 'H', 'T', 'T', 'P', '/', '1', '.', '1']

end Verif.Jpip
