import Verif.Tactics

/-!
# HTTP chunked transfer coding

Models the encoder of source/core/jpip/jpip_response.cpp:84-94 and of source/apps/jpip_server/main.cpp:479-495, the
decoder for a complete body jpip_response.cpp:181-236, and the streaming decoder jpip_client.cpp:66-161.  Bytes are
natural numbers.  In the decoder for a complete body, `none` is a read outside the buffer (or a loop that does not end).
-/

namespace Verif.Jpip

/-- One digit of `%zx`. -/
def hexDigit (v : Nat) : Nat := if v < 10 then 48 + v else 87 + v

/-- `%zx`. -/
def hexStr (n : Nat) : List Nat := if n < 16 then [hexDigit n] else hexStr (n / 16) ++ [hexDigit (n % 16)]

/-- jpip_response.cpp:84-89 `format_chunk_header`; the buffer of 24 bytes holds the 16 digits, CR, LF and the final zero. -/
def chunkHeader (n : Nat) : List Nat := hexStr n ++ [13, 10]

/-- jpip_response.cpp:91-94 `format_last_chunk`. -/
def lastChunk : List Nat := [48, 13, 10, 13, 10]

/-- jpip_server/main.cpp:481-495: the messages as chunks, then the last chunk; an empty message is not sent. -/
def sendChunks : List (List Nat) → List Nat
  | [] => lastChunk
  | c :: cs => if c.length = 0 then sendChunks cs else chunkHeader c.length ++ c ++ [13, 10] ++ sendChunks cs

/-- jpip_response.cpp:201-204 and jpip_client.cpp:144-147: the value of a hex digit. -/
def hexVal (c : Nat) : Option Nat :=
  if 48 ≤ c ∧ c ≤ 57 then some (c - 48)
  else if 97 ≤ c ∧ c ≤ 102 then some (10 + (c - 97))
  else if 65 ≤ c ∧ c ≤ 70 then some (10 + (c - 65))
  else none

/-! ## The decoder for a complete body -/

/-- `data[i] == '\r' && data[i + 1] == '\n'`. -/
def crlfAt (d : List Nat) (i : Nat) : Option Bool := do
  let a ← d[i]?
  if a ≠ 13 then some false
  else do
    let b ← d[i + 1]?
    some (b = 10)

/-- jpip_response.cpp:189-192 and 218: the end of the line; the first argument bounds the number of rounds. -/
def lineEnd (d : List Nat) : Nat → Nat → Option Nat
  | 0, _ => none
  | f + 1, p =>
    if p + 1 < d.length then do
      if ← crlfAt d p then some p else lineEnd d f (p + 1)
    else some p

/-- jpip_response.cpp:194-195: the end of the size within the line ending at `lim`. -/
def sizeEnd (d : List Nat) (lim : Nat) : Nat → Nat → Option Nat
  | 0, _ => none
  | f + 1, p =>
    if p < lim then do
      let c ← d[p]?
      if c ≠ 59 then sizeEnd d lim f (p + 1) else some p
    else some p

/-- jpip_response.cpp:198-210: the size from the digits at the given places; `some none` is a rejection. -/
def chunkSize (d : List Nat) : List Nat → Nat → Option (Option Nat)
  | [], acc => some (some acc)
  | j :: js, acc => do
    let c ← d[j]?
    match hexVal c with
    | none => some none
    | some v => if (2 ^ 64 - 1) >>> 4 < acc then some none else chunkSize d js (((acc <<< 4) ||| v) % 2 ^ 64)

/-- jpip_response.cpp:215-222: skip the trailer lines. -/
def trailers (d : List Nat) : Nat → Nat → Option Bool
  | 0, _ => none
  | f + 1, i =>
    if i + 1 < d.length then do
      if ← crlfAt d i then some true
      else do
        let te ← lineEnd d (d.length + 1) i
        if d.length ≤ te + 1 then some false else trailers d f (te + 2)
    else some false

/-- jpip_response.cpp:186-235: the main loop at `i` with `out` decoded so far; `some none` is `return false`. -/
def chunkLoop (d : List Nat) : Nat → Nat → List Nat → Option (Option (List Nat))
  | 0, _, _ => none
  | f + 1, i, out =>
    if i < d.length then do
      let le ← lineEnd d (d.length + 1) i
      if d.length ≤ le + 1 then some none
      else do
        let se ← sizeEnd d le (d.length + 1) i
        match ← chunkSize d (List.range' i (se - i)) 0 with
        | none => some none
        | some n =>
          if se ≤ i then some none
          else
            let i := le + 2
            if n = 0 then do
              let ok ← trailers d (d.length + 1) i
              some (if ok then some out else none)
            else if d.length - i < n ∨ d.length - i - n < 2 then some none
            else do
              let out := out ++ (d.drop i).take n
              let i := i + n
              let a ← d[i]?
              if a ≠ 13 then some none
              else do
                let b ← d[i + 1]?
                if b ≠ 10 then some none else chunkLoop d f (i + 2) out
    else some none

/-- jpip_response.cpp:181-236 `decode_chunked_body`. -/
def decodeChunked (d : List Nat) : Option (Option (List Nat)) := chunkLoop d (d.length + 1) 0 []

/-! ## The streaming decoder -/

/-- jpip_client.cpp:70-74: what comes next.  The code has a flag for each of the last three, never two at once. -/
inductive Mode where
  | size
  | payload (left : Nat)
  | crlf
  | final
deriving DecidableEq

/-- How a run over the buffered bytes ends: waiting for more with some bytes unread, in error, or at the end. -/
inductive Outcome where
  | wait (m : Mode) (rest : List Nat)
  | fail
  | done (rest : List Nat)
deriving DecidableEq

/-- `memchr(line, '\n', rem)`: the bytes before and after the first newline. -/
def splitNl : List Nat → Option (List Nat × List Nat)
  | [] => none
  | c :: cs => if c = 10 then some ([], cs) else (splitNl cs).map fun p => (c :: p.1, p.2)

/-- jpip_client.cpp:139-150: the size; `size_val << 4` drops high bits. -/
def hexWrap : List Nat → Nat → Option Nat
  | [], acc => some acc
  | c :: cs, acc =>
    match hexVal c with
    | none => none
    | some v => hexWrap cs (((acc <<< 4) ||| v) % 2 ^ 64)

/-- jpip_client.cpp:131-151: the size from a line without its newline. -/
def sizeLine (line : List Nat) : Option Nat :=
  if line.getLast? ≠ some 13 then none
  else
    let ds := line.dropLast.takeWhile (· ≠ 59)
    if ds.isEmpty then none else hexWrap ds 0

theorem splitNl_length {l a b : List Nat} (h : splitNl l = some (a, b)) : b.length < l.length := by
  induction l generalizing a b with
  | nil => simp [splitNl] at h
  | cons c cs ih =>
    unfold splitNl at h
    split_ifs at h
    · simp only [Option.some.injEq, Prod.mk.injEq] at h
      rw [← h.2]; simp
    · cases hs : splitNl cs with
      | none => rw [hs] at h; simp at h
      | some p =>
        rw [hs] at h
        simp only [Option.map_some, Option.some.injEq, Prod.mk.injEq] at h
        have := ih (a := p.1) (b := p.2) hs
        rw [← h.2, List.length_cons]
        omega

/-- Orders the modes within a round of the loop; only used to show that the loop ends. -/
def Mode.weight : Mode → Nat
  | .payload _ => 1
  | _ => 0

/-- jpip_client.cpp:80-159: the loop over the unread bytes, with the payload handed to the sink.  The sink is taken to
accept everything; the order of the tests in the code is that of the modes. -/
def runDec (m : Mode) (r : List Nat) : List Nat × Outcome :=
  match m with
  | .payload left =>
    if r.length = 0 then ([], .wait (.payload left) r)
    else
      let take := min left r.length
      if left - take = 0 then
        let x := runDec .crlf (r.drop take)
        (r.take take ++ x.1, x.2)
      else (r.take take, .wait (.payload (left - take)) (r.drop take))
  | .crlf =>
    if r.length < 2 then ([], .wait .crlf r)
    else if r.take 2 ≠ [13, 10] then ([], .fail)
    else runDec .size (r.drop 2)
  | .final =>
    if r.length < 2 then ([], .wait .final r)
    else if r.take 2 ≠ [13, 10] then ([], .fail)
    else ([], .done (r.drop 2))
  | .size =>
    match h : splitNl r with
    | none => ([], .wait .size r)
    | some (line, rest) =>
      match sizeLine line with
      | none => ([], .fail)
      | some n => if n = 0 then runDec .final rest else runDec (.payload n) rest
termination_by 2 * r.length + m.weight
decreasing_by
  · simp only [List.length_drop, Mode.weight]; omega
  · simp only [List.length_drop, Mode.weight]; omega
  · have := splitNl_length h; simp only [Mode.weight]; omega
  · have := splitNl_length h; simp only [Mode.weight]; omega

/-- jpip_client.cpp:67-74: the decoder; `rest` are the bytes of `buf` from `consumed` on, `out` what the sink got.  `ended`
is `some true` once the last chunk was seen and `some false` after an error; `feed` is not called after that. -/
structure Dec where
  mode : Mode := .size
  rest : List Nat := []
  out : List Nat := []
  ended : Option Bool := none
deriving DecidableEq

/-- jpip_client.cpp:77-160 `feed`. -/
def Dec.feed (s : Dec) (data : List Nat) : Dec :=
  match s.ended with
  | some _ => s
  | none =>
    let x := runDec s.mode (s.rest ++ data)
    match x.2 with
    | .wait m r => ⟨m, r, s.out ++ x.1, none⟩
    | .fail => ⟨s.mode, s.rest, s.out ++ x.1, some false⟩
    | .done r => ⟨s.mode, r, s.out ++ x.1, some true⟩

end Verif.Jpip
