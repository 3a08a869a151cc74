import Verif.Jpip.Transport

/-!
# The POST request of the server

Models source/apps/jpip_server/main.cpp:265-301 (`find_header`) and 303-387 (`handle_connection` up to the query).  Bytes are natural numbers; a buffer is walked as the list of
what is left of it, so that every read is inside by the form of the definitions (the code reads at indices below `end`, which is at most `len`).
-/

namespace Verif.Jpip

/-- main.cpp:283, 296: CR or LF. -/
def isEol (c : Nat) : Bool := decide (c = 13 ∨ c = 10)

/-- main.cpp:291, 293: blank or tabulator. -/
def isBlankB (c : Nat) : Bool := decide (c = 32 ∨ c = 9)

/-- `std::tolower` in the C locale. -/
def lowerB (c : Nat) : Nat := if 65 ≤ c ∧ c ≤ 90 then c + 32 else c

/-- main.cpp:290-294: the value without the blanks around it. -/
def trimB (v : List Nat) : List Nat := ((v.dropWhile isBlankB).reverse.dropWhile isBlankB).reverse

/-- main.cpp:281-299: the loop over the lines; `l` is the buffer from `i` on. -/
def findLoop (name l : List Nat) : List Nat :=
  if name.length + 1 < l.length then
    let line := l.takeWhile fun c => !isEol c
    if name.length + 1 ≤ line.length ∧ line[name.length]? = some 58 ∧ (line.take name.length).map lowerB = name.map lowerB then trimB (line.drop (name.length + 1))
    else
      let rest := (l.drop line.length).dropWhile isEol
      if _h : rest.length = l.length then [] else findLoop name rest
  else []
termination_by l.length
decreasing_by
  exact lt_of_le_of_ne (le_trans (List.dropWhile_sublist _).length_le (by simp only [List.length_drop]; omega)) _h

/-- main.cpp:271-301 `find_header`. -/
def findHeader (name buf : List Nat) : List Nat := findLoop name ((buf.dropWhile (· ≠ 10)).drop 1)

/-- main.cpp:356-361: `strtoull` of the value as a C string, which has to be used up.  `none` is the answer 400. -/
def postLength (v : List Nat) : Option Nat :=
  let l := (cStr v).dropWhile isWs
  let d := if l.head? = some 43 ∨ l.head? = some 45 then l.drop 1 else l
  let ds := d.takeWhile fun c => decide (48 ≤ c ∧ c ≤ 57)
  if ds = [] then none
  else if d.drop ds.length ≠ [] then none
  else
    let x := ds.foldl (fun a c => 10 * a + (c - 48)) 0
    some (if 2 ^ 64 ≤ x then 2 ^ 64 - 1 else if l.head? = some 45 then (2 ^ 64 - x) % 2 ^ 64 else x)

/-- What becomes of a request: the connection is closed, it is no POST, it is answered 400, 411 or 413, or there is a path and a query. -/
inductive PostAnswer where
  | closed
  | other
  | bad
  | noLength
  | tooLarge
  | query (path body : List Nat)
deriving DecidableEq

/-- main.cpp:308-314: the request line. -/
def reqLine (raw : List Nat) : Option (List Nat) :=
  if 13 ∈ raw then some (raw.takeWhile (· ≠ 13)) else if 10 ∈ raw then some (raw.takeWhile (· ≠ 10)) else none

/-- main.cpp:306-366: everything that is decided from the head buffer alone: an answer, or the path and the length of the body. -/
def admit (raw : List Nat) : Except PostAnswer (List Nat × Nat) :=
  if raw.length = 0 then .error .closed
  else match reqLine raw with
    | none => .error .bad
    | some line =>
      if line.take 8 = asc "OPTIONS " then .error .other
      else if line.take 5 ≠ asc "POST " then .error .other
      else if 32 ∈ line.drop 5 then
        let v := findHeader (asc "Content-Length") raw
        if v = [] then .error .noLength
        else match postLength v with
          | none => .error .bad
          | some n => if 16 * 1024 * 1024 < n then .error .tooLarge else .ok ((line.drop 5).takeWhile (· ≠ 32), n)
      else .error .bad

/-- main.cpp:303-387.  The first blank of a line that starts with `POST ` is the one after it. -/
def post (s : Net) : Option PostAnswer := do
  let (raw, s) ← recvHead 65536 [] s
  match admit raw with
  | .error a => some a
  | .ok (path, n) =>
    let body := raw.drop (match headEnd raw with
      | none => 0
      | some b => b + 4)
    if body.length < n then
      match recvAll n body s with
      | none => some .bad
      | some q => some (.query path q)
    else some (.query path (body.take n))

end Verif.Jpip
