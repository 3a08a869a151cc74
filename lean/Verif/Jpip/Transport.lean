import Verif.Jpip.Http

/-!
# Reading requests and responses from a TCP connection

Models source/core/jpip/tcp_socket.cpp:155-195 (`recv_all`, `recv_until_header_end`, `recv_some`), the transport part of
jpip_client.cpp:192-269 (`fetch_streaming`) and jpip_server/main.cpp:303-382 (the head of a request and the body of a POST).
Bytes are natural numbers; `none` is a read outside of a buffer.

* A connection is what the peer sends before closing, together with a plan of how much the system hands out at each call of
  `recv`.  Failing calls are not modelled in the readers of heads (they treat them like the end); `fetch` and `postBody` see a
  connection that ends by being closed.
* The sink of the client (the parser of the JPP stream) accepts everything, as in `Verif.Jpip.Chunked`; what it does with
  the bytes is C05.
-/

namespace Verif.Jpip

/-- A connection: the bytes to come, and how many of them each `recv` hands out at most. -/
structure Net where
  data : List Nat
  plan : List Nat

/-- How many bytes `recv(fd, buf, k, 0)` gives: at least one unless the peer has closed or `k = 0`, and not more than `k`. -/
def Net.count (s : Net) (k : Nat) : Nat := min (min k s.data.length) (max 1 (s.plan.headD k))

/-- `recv(fd, buf, k, 0)`. -/
def Net.recv (s : Net) (k : Nat) : List Nat × Net := (s.data.take (s.count k), ⟨s.data.drop (s.count k), s.plan.tail⟩)

/-- tcp_socket.cpp:175-183: looks for CR LF CR LF from `i` on.  The reads are checked. -/
def scan (buf : List Nat) (i : Nat) : Option Bool :=
  if i + 4 ≤ buf.length then do
    let a ← buf[i]?
    let b ← buf[i + 1]?
    let c ← buf[i + 2]?
    let d ← buf[i + 3]?
    if a = 13 ∧ b = 10 ∧ c = 13 ∧ d = 10 then some true else scan buf (i + 1)
  else some false
termination_by buf.length - i

/-- tcp_socket.cpp:174-185 after `n` new bytes. -/
def headSeen (buf : List Nat) (n : Nat) : Option Bool :=
  if 4 ≤ buf.length then scan buf (if n + 3 < buf.length then buf.length - n - 3 else 0) else some false

/-- tcp_socket.cpp:170-187, the loop of `recv_until_header_end`. -/
def recvHead (max : Nat) (buf : List Nat) (s : Net) : Option (List Nat × Net) :=
  if buf.length < max then
    let n := s.count (min 4096 (max - buf.length))
    if n = 0 then some (buf, s)
    else
      let r := s.recv (min 4096 (max - buf.length))
      let buf' := buf ++ r.1
      do if ← headSeen buf' n then some (buf', r.2) else recvHead max buf' r.2
  else some (buf, s)
termination_by max - buf.length
decreasing_by
  simp only [Net.recv, List.length_append, List.length_take]
  have : s.count (min 4096 (max - buf.length)) ≤ s.data.length := by unfold Net.count; omega
  omega

/-! ### The client -/

/-- jpip_client.cpp:252-258 for a chunked body: until the decoder is done, in error, or the peer has closed. -/
def readChunks (d : Dec) (s : Net) : Dec :=
  if d.ended ≠ none then d
  else if s.count 16384 = 0 then d
  else readChunks (d.feed (s.recv 16384).1) (s.recv 16384).2
termination_by s.data.length
decreasing_by
  simp only [Net.recv, List.length_drop]
  have : s.count 16384 ≤ s.data.length := by unfold Net.count; omega
  omega

/-- jpip_client.cpp:236-258 for a body of known length: `got` has been handed to the sink. -/
def readLength (len : Nat) (got : List Nat) (s : Net) : List Nat :=
  if len ≤ got.length then got
  else if s.count 16384 = 0 then got
  else
    let p := (s.recv 16384).1
    readLength len (got ++ p.take (min p.length (len - got.length))) (s.recv 16384).2
termination_by s.data.length
decreasing_by
  simp only [Net.recv, List.length_drop]
  have : s.count 16384 ≤ s.data.length := by unfold Net.count; omega
  omega

/-- jpip_client.cpp:192-269, without the parser: the bytes handed to it and whether no error is reported.  `none` is a read outside of a
buffer.  After an empty answer, or without a length, it reports an error. -/
def fetch (s : Net) : Option (List Nat × Bool) := do
  let (raw, s) ← recvHead 65536 [] s
  if raw.length = 0 then some ([], false)
  else
    match isChunked raw with
    | (true, e) =>
      let rest := raw.drop (e.getD 0)
      let d := readChunks (if 0 < rest.length then ({} : Dec).feed rest else {}) s
      some (d.out, decide (d.ended ≠ some false))
    | (false, _) => do
      let (n, e) ← contentLength raw
      if n = 2 ^ 64 - 1 then some ([], false)
      else
        let rest := raw.drop (e.getD 0)
        some (readLength n (rest.take (min rest.length n)) s, true)

/-! ### The server -/

/-- tcp_socket.cpp:155-164 `recv_all`: `none` is `return false`. -/
def recvAll (len : Nat) (got : List Nat) (s : Net) : Option (List Nat) :=
  if got.length < len then
    if s.count (len - got.length) = 0 then none
    else recvAll len (got ++ (s.recv (len - got.length)).1) (s.recv (len - got.length)).2
  else some got
termination_by s.data.length
decreasing_by
  simp only [Net.recv, List.length_drop]
  have : s.count (len - got.length) ≤ s.data.length := by unfold Net.count; omega
  omega

/-- jpip_server/main.cpp:303-318, 363-381: the body of a POST whose head announces `clen` bytes (how the server finds that number is not
modelled here, see `Verif.Jpip.Post`).  `some none` is the answer 400. -/
def postBody (clen : Nat) (s : Net) : Option (Option (List Nat)) := do
  let (raw, s) ← recvHead 65536 [] s
  let off := match headEnd raw with
    | none => 0
    | some b => b + 4
  let body := raw.drop off
  if body.length < clen then some (recvAll clen body s) else some (some (body.take clen))

end Verif.Jpip
