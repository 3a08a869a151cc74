import Verif.Jpip.Chunked
import Verif.Jpip.Request

/-!
# The head of an HTTP response

Models source/core/jpip/jpip_response.cpp:12-82 (`format_jpp_response`, `format_jpp_response_headers_chunked`),
109-140 (`parse_http_content_length`) and 142-179 (`parse_http_chunked`).  Bytes are natural
numbers.  `none` is a read outside of a buffer.
-/

namespace Verif.Jpip

/-- The bytes of a text. -/
def asc (s : String) : List Nat := s.toList.map Char.toNat

/-- What `%s` prints of `std::string::c_str()`: everything up to the first zero. -/
def cStr (s : List Nat) : List Nat := s.takeWhile (· ≠ 0)

/-- jpip_response.cpp:17-27, 29-32, 35-38: `n = snprintf(buf, size, ...)` with the text `t`, then a copy of `n` bytes of
`buf`.  `snprintf` returns the length of the whole text but stores `size - 1` bytes of it and a zero. -/
def printed (size : Nat) (t : List Nat) : Option (List Nat) :=
  if t.length < size then some t
  else if t.length = size then some (t.take (size - 1) ++ [0])
  else none

/-- jpip_response.cpp:28-33, 34-39: a line with a value, if the value is not empty. -/
def optPrinted (size : Nat) (name : String) (v : List Nat) : Option (List Nat) :=
  if v = [] then some [] else printed size (asc name ++ cStr v ++ [13, 10])

/-- jpip_response.cpp:28-42: the lines JPIP-tid and JPIP-cnew, further lines and the end of the head. -/
def headTail (tid cnew extra : List Nat) : Option (List Nat) := do
  let a ← optPrinted 256 "JPIP-tid: " tid
  let b ← optPrinted 512 "JPIP-cnew: " cnew
  some (a ++ b ++ extra ++ [13, 10])

/-- jpip_response.cpp:12-47 `format_jpp_response`. -/
def formatResponse (body tid cnew extra : List Nat) : Option (List Nat) := do
  let h ← printed 512 (asc "HTTP/1.1 200 OK\r\nContent-Type: image/jpp-stream\r\nContent-Length: " ++
    (decStr body.length).map Char.toNat ++ asc "\r\nAccess-Control-Allow-Origin: *\r\nConnection: close\r\n")
  let t ← headTail tid cnew extra
  some (h ++ t ++ body)

/-- jpip_response.cpp:49-82 `format_jpp_response_headers_chunked`. -/
def formatChunkedHead (tid cnew extra : List Nat) : Option (List Nat) := do
  let h ← printed 512 (asc ("HTTP/1.1 200 OK\r\nContent-Type: image/jpp-stream\r\nTransfer-Encoding: chunked\r\n" ++
    "Access-Control-Allow-Origin: *\r\nConnection: close\r\n"))
  let t ← headTail tid cnew extra
  some (h ++ t)

/-- jpip_response.cpp:113-121, 146-154: where the first CR LF CR LF starts. -/
def headEnd : List Nat → Option Nat
  | [] => none
  | c :: t => if (c :: t).take 4 = [13, 10, 13, 10] then some 0 else (headEnd t).map (· + 1)

/-- `isspace` of the C locale. -/
def isWs (c : Nat) : Bool := decide (c = 32 ∨ (9 ≤ c ∧ c ≤ 13))

/-- `strtoull`: leading white space.  The buffer has no final zero, so the end of the list is the end of the buffer. -/
def skipWs : List Nat → Option (List Nat)
  | [] => none
  | c :: t => if isWs c then skipWs t else some (c :: t)

/-- `strtoull`: the digits, up to the first other byte. -/
def readDigits : List Nat → Nat → Option Nat
  | [], _ => none
  | c :: t, a => if 48 ≤ c ∧ c ≤ 57 then readDigits t (10 * a + (c - 48)) else some a

/-- `strtoull(val, nullptr, 10)`: too large values become the largest one, after a minus sign the value is negated. -/
def strtoullBuf (l : List Nat) : Option Nat := do
  match ← skipWs l with
  | [] => none
  | c :: t =>
    let v ← readDigits (if c = 43 ∨ c = 45 then t else c :: t) 0
    if 2 ^ 64 ≤ v then some (2 ^ 64 - 1) else some (if c = 45 then (2 ^ 64 - v) % 2 ^ 64 else v)

/-- jpip_response.cpp:124-138: the loop over the lines of the head.  `full` is what is in memory from the line on, `head` the
part of it before the end of the head. -/
def lengthLoop (full head : List Nat) : Option Nat :=
  if head = [] then some (2 ^ 64 - 1)
  else
    let line := head.takeWhile (· ≠ 10)
    if 16 < line.length ∧ (line.take 15 = asc "Content-Length:" ∨ line.take 15 = asc "content-length:") then
      strtoullBuf (full.drop (15 + ((line.drop 15).takeWhile fun c => decide (c = 32 ∨ c = 9)).length))
    else lengthLoop (full.drop (line.length + 1)) (head.drop (line.length + 1))
termination_by head.length
decreasing_by
  rename_i h _
  have := List.length_pos_iff.2 h
  simp only [List.length_drop]; omega

/-- jpip_response.cpp:109-140 `parse_http_content_length`: the length, `SIZE_MAX` if there is none, and the end of the head. -/
def contentLength (d : List Nat) : Option (Nat × Option Nat) :=
  match headEnd d with
  | none => some (2 ^ 64 - 1, none)
  | some b => do
    let n ← lengthLoop d (d.take b)
    some (n, some (b + 4))

/-- jpip_response.cpp:166-174: "chunked" in either case somewhere in the value. -/
def hasChunked : List Nat → Bool
  | [] => false
  | c :: t => decide (((c :: t).take 7).map (fun x => if 65 ≤ x ∧ x ≤ 90 then x + 32 else x) = asc "chunked") || hasChunked t

/-- jpip_response.cpp:156-177: the loop over the lines of the head. -/
def chunkedLoop (head : List Nat) : Bool :=
  if head = [] then false
  else
    let line := head.takeWhile (· ≠ 10)
    if 18 < line.length ∧ (line.take 18 = asc "Transfer-Encoding:" ∨ line.take 18 = asc "transfer-encoding:") ∧
      hasChunked (line.drop 18) then true
    else chunkedLoop (head.drop (line.length + 1))
termination_by head.length
decreasing_by
  rename_i h _
  have := List.length_pos_iff.2 h
  simp only [List.length_drop]; omega

/-- jpip_response.cpp:142-179 `parse_http_chunked`: whether the body is chunked, and the end of the head.  The blanks skipped
before the value do not matter for the search. -/
def isChunked (d : List Nat) : Bool × Option Nat :=
  match headEnd d with
  | none => (false, none)
  | some b => (chunkedLoop (d.take b), some (b + 4))

end Verif.Jpip
