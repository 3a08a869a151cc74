import Verif.Jpip.Head
import Verif.Jpip.PropsTransport
import Verif.Jpip.PropsChannel

/-!
# C88: every response of the server arrives

The specification: the lines of the head, written out.  What is granted is a channel of the server (`cidOf`) with the transport `http`, the only one `negotiateTransport` answers (`negotiate_http`).
-/

namespace Verif.Jpip

/-- The lines that depend on the request. -/
def requestLines (channel : Option Nat) (qid : Option Nat) (inChannel : Bool) : List (List Nat) :=
  (match channel with
    | none => []
    | some n => [asc "JPIP-cnew: cid=JPH" ++ (decStr n).map Char.toNat ++ asc ",path=jpip,transport=http"]) ++
  (match qid with
    | none => []
    | some q => [asc "JPIP-qid: " ++ (decStr q).map Char.toNat]) ++ if inChannel then [asc "Cache-Control: no-cache"] else []

/-! ### Lemmas -/

/-- The further lines. -/
def extraLines (qid : Option Nat) (inChannel : Bool) : List (List Nat) :=
  (match qid with
    | none => []
    | some q => [asc "JPIP-qid: " ++ (decStr q).map Char.toNat]) ++ if inChannel then [asc "Cache-Control: no-cache"] else []

theorem extra_lines (qid : Option Nat) (inChannel : Bool) : extraHeaders qid inChannel = joinLines (extraLines qid inChannel) := by
  unfold extraHeaders extraLines joinLines
  cases qid <;> cases inChannel <;> simp

/-- What a channel of the server is granted as. -/
def grantOf (channel : Option Nat) : Option (List Char × List Char) := channel.map fun n => (cidOf n, "http".toList)

theorem negotiate_http (s t : List Char) (h : negotiateTransport s = some t) : t = "http".toList := by
  unfold negotiateTransport at h
  obtain ⟨tok, -, h2⟩ := List.exists_of_findSome?_eq_some h
  split_ifs at h2
  exact (Option.some.inj h2).symm

theorem cnew_value (n : Nat) : cnewValue (grantOf (some n)) = asc "cid=JPH" ++ (decStr n).map Char.toNat ++ asc ",path=jpip,transport=http" := by
  have a : asc "cid=JPH" = asc "cid=" ++ ['J', 'P', 'H'].map Char.toNat := by decide +kernel
  have b : asc ",path=jpip,transport=http" = asc ",path=jpip,transport=" ++ "http".toList.map Char.toNat := by decide +kernel
  rw [a, b]
  simp [cnewValue, grantOf, cidOf]

theorem dec_plain (n : Nat) : ∀ c ∈ (decStr n).map Char.toNat, c ≠ 0 ∧ c ≠ 10 ∧ c ≠ 13 := by
  intro c hc
  have := decStr_bytes n c hc
  omega

theorem server_headOk (tid : List Nat) (ht : ∀ c ∈ tid, c ≠ 0 ∧ c ≠ 10 ∧ c ≠ 13) (hl : tid.length ≤ 243) (channel qid : Option Nat) (inChannel : Bool) (hc : ∀ n, channel = some n → n < 2 ^ 64) :
    HeadOk tid (cnewValue (grantOf channel)) (extraLines qid inChannel) := by
  refine ⟨ht, hl, ?_, ?_, ?_, ?_⟩
  · cases channel with
    | none => intro c h; simp [cnewValue, grantOf] at h
    | some n =>
      rw [cnew_value]
      intro c h
      rcases List.mem_append.1 h with h | h
      · rcases List.mem_append.1 h with h | h
        · exact (show ∀ c ∈ asc "cid=JPH", c ≠ 0 ∧ c ≠ 10 ∧ c ≠ 13 by decide +kernel) c h
        · exact dec_plain n c h
      · exact (show ∀ c ∈ asc ",path=jpip,transport=http", c ≠ 0 ∧ c ≠ 10 ∧ c ≠ 13 by decide +kernel) c h
  · cases channel with
    | none => simp [cnewValue, grantOf]
    | some n =>
      rw [cnew_value]
      have h1 : (asc "cid=JPH").length = 7 := by decide +kernel
      have h2 : (asc ",path=jpip,transport=http").length = 25 := by decide +kernel
      have h3 := decStr_length n 20 (by omega) (lt_trans (hc n rfl) (by norm_num))
      simp only [List.length_append, List.length_map, h1, h2]
      omega
  · intro l hl
    unfold extraLines at hl
    rcases List.mem_append.1 hl with hl | hl
    · cases qid with
      | none => simp at hl
      | some q =>
        rw [List.mem_singleton] at hl
        subst hl
        have e : PlainLine (asc "JPIP-qid: ") := by decide +kernel
        refine ⟨by simp [e.1], fun c h => ?_⟩
        rcases List.mem_append.1 h with h | h
        · exact e.2 c h
        · exact dec_plain q c h
    · split_ifs at hl
      · rw [List.mem_singleton] at hl
        subst hl
        decide +kernel
      · simp at hl
  · intro l hl
    unfold extraLines at hl
    rcases List.mem_append.1 hl with hl | hl
    · cases qid with
      | none => simp at hl
      | some q =>
        rw [List.mem_singleton] at hl
        have e : asc "JPIP-qid: " = 74 :: (asc "JPIP-qid: ").tail := by decide +kernel
        rw [hl, e, List.cons_append]
        exact notTransfer_of_head (by decide)
    · split_ifs at hl
      · rw [List.mem_singleton] at hl
        have e : asc "Cache-Control: no-cache" = 67 :: (asc "Cache-Control: no-cache").tail := by decide +kernel
        rw [hl, e]
        exact notTransfer_of_head (by decide)
      · simp at hl

theorem more_requestLines (tid : List Nat) (channel qid : Option Nat) (inChannel : Bool) :
    moreLines tid (cnewValue (grantOf channel)) (extraLines qid inChannel) = optLine "JPIP-tid: " tid ++ requestLines channel qid inChannel := by
  unfold moreLines requestLines extraLines
  cases channel with
  | none => simp [cnewValue, grantOf, optLine]
  | some n =>
    have a : asc "JPIP-cnew: cid=JPH" = asc "JPIP-cnew: " ++ asc "cid=JPH" := by decide +kernel
    have b : asc "cid=JPH" ≠ [] := by decide +kernel
    rw [cnew_value, a]
    simp [optLine, b]

theorem tail_length (tid : List Nat) (hl : tid.length ≤ 243) (channel qid : Option Nat) (inChannel : Bool) (hc : ∀ n, channel = some n → n < 2 ^ 64) (hq : ∀ q, qid = some q → q < 2 ^ 64) :
    (joinLines (optLine "JPIP-tid: " tid ++ requestLines channel qid inChannel) ++ [13, 10]).length ≤ 400 := by
  have l1 : (asc "JPIP-tid: ").length = 10 := by decide +kernel
  have l2 : (asc "JPIP-cnew: cid=JPH").length = 18 := by decide +kernel
  have l3 : (asc ",path=jpip,transport=http").length = 25 := by decide +kernel
  have l4 : (asc "JPIP-qid: ").length = 10 := by decide +kernel
  have l5 : (asc "Cache-Control: no-cache").length = 23 := by decide +kernel
  have a : (joinLines (optLine "JPIP-tid: " tid)).length ≤ 255 := by
    unfold optLine
    split_ifs
    · simp [joinLines]
    · simp [joinLines, l1]; omega
  have b : (joinLines (requestLines channel qid inChannel)).length ≤ 67 + 32 + 25 := by
    have d1 : ∀ n, channel = some n → (decStr n).length ≤ 20 := fun n hn => decStr_length n 20 (by omega) (lt_trans (hc n hn) (by norm_num))
    have d2 : ∀ q, qid = some q → (decStr q).length ≤ 20 := fun q hn => decStr_length q 20 (by omega) (lt_trans (hq q hn) (by norm_num))
    clear hc hq
    unfold requestLines
    cases channel with
    | none =>
      cases qid with
      | none => cases inChannel <;> simp [joinLines, l5]
      | some q =>
        have := d2 q rfl
        cases inChannel <;> simp [joinLines, l4, l5] <;> omega
    | some n =>
      have := d1 n rfl
      cases qid with
      | none => cases inChannel <;> simp [joinLines, l2, l3, l5] <;> omega
      | some q =>
        have := d2 q rfl
        cases inChannel <;> simp [joinLines, l2, l3, l4, l5] <;> omega
  rw [joinLines_append]
  simp only [List.length_append, List.length_cons, List.length_nil]
  omega

/-! ### The property -/

/-- **C88.** The head of a response in chunks, written out: the target, the channel if one is granted, the number of the request if it has one, and that the response is not to be kept if the
request has a channel. -/
theorem C88_lines (tid : List Nat) (ht : ∀ c ∈ tid, c ≠ 0 ∧ c ≠ 10 ∧ c ≠ 13) (hl : tid.length ≤ 243) (channel qid : Option Nat) (inChannel : Bool) (hc : ∀ n, channel = some n → n < 2 ^ 64)
    (msgs : List (List Nat)) (body : List Nat) :
    respondChunked tid (grantOf channel) qid inChannel msgs =
      some (joinLines ([asc "HTTP/1.1 200 OK", asc "Content-Type: image/jpp-stream", asc "Transfer-Encoding: chunked", asc "Access-Control-Allow-Origin: *", asc "Connection: close"] ++
        (if tid = [] then [] else [asc "JPIP-tid: " ++ tid]) ++ requestLines channel qid inChannel) ++ [13, 10] ++ sendChunks msgs) ∧
    (body.length < 2 ^ 64 → respondBuffered tid (grantOf channel) qid inChannel body =
      some (joinLines ([asc "HTTP/1.1 200 OK", asc "Content-Type: image/jpp-stream", asc "Content-Length: " ++ (decStr body.length).map Char.toNat, asc "Access-Control-Allow-Origin: *",
        asc "Connection: close"] ++ (if tid = [] then [] else [asc "JPIP-tid: " ++ tid]) ++ requestLines channel qid inChannel) ++ [13, 10] ++ body)) := by
  have h := headTail_more (server_headOk tid ht hl channel qid inChannel hc)
  rw [more_requestLines, ← extra_lines] at h
  constructor
  · unfold respondChunked formatChunkedHead
    rw [h, asc_chunked, printed_short (by decide +kernel)]
    simp only [Option.bind_eq_bind, Option.bind_some, Option.some.injEq]
    rw [joinLines_append, joinLines_append, joinLines_append]
    simp [optLine]
  · intro hb
    unfold respondBuffered formatResponse
    have hlen := decStr_length body.length 20 (by omega) (by omega)
    have hl' : ((decStr body.length).map Char.toNat).length ≤ 20 := by simpa using hlen
    rw [h, asc_fixed]
    generalize (decStr body.length).map Char.toNat = v at *
    have hshort : (joinLines [asc "HTTP/1.1 200 OK", asc "Content-Type: image/jpp-stream", asc "Content-Length: " ++ v,
        asc "Access-Control-Allow-Origin: *", asc "Connection: close"]).length < 512 := by
      have l1 : (asc "HTTP/1.1 200 OK").length = 15 := by decide +kernel
      have l2 : (asc "Content-Type: image/jpp-stream").length = 30 := by decide +kernel
      have l3 : (asc "Content-Length: ").length = 16 := by decide +kernel
      have l4 : (asc "Access-Control-Allow-Origin: *").length = 30 := by decide +kernel
      have l5 : (asc "Connection: close").length = 17 := by decide +kernel
      simp only [joinLines, List.flatMap_cons, List.flatMap_nil, List.length_append, l1, l2, l3, l4, l5, List.length_cons, List.length_nil]
      omega
    rw [printed_short hshort]
    simp only [Option.bind_eq_bind, Option.bind_some, Option.some.injEq]
    rw [joinLines_append, joinLines_append, joinLines_append]
    simp [optLine]

/-- **C88.** Every response in chunks arrives at the client, however the connection is cut. -/
theorem C88_chunked_arrives (tid : List Nat) (ht : ∀ c ∈ tid, c ≠ 0 ∧ c ≠ 10 ∧ c ≠ 13) (hl : tid.length ≤ 243) (channel qid : Option Nat) (inChannel : Bool) (hc : ∀ n, channel = some n → n < 2 ^ 64)
    (hq : ∀ q, qid = some q → q < 2 ^ 64) (msgs : List (List Nat)) (hm : ∀ m ∈ msgs, m.length < 2 ^ 64) :
    ∃ r, respondChunked tid (grantOf channel) qid inChannel msgs = some r ∧ ∀ plan, fetch ⟨r, plan⟩ = some (msgs.flatten, true) := by
  have hok := server_headOk tid ht hl channel qid inChannel hc
  obtain ⟨head, b, h1, h2, h3⟩ := C84_server_to_client msgs tid _ _ hok hm
  refine ⟨head ++ sendChunks msgs, by unfold respondChunked; rw [extra_lines, h1]; rfl, h3 ?_⟩
  have ht' := tail_length tid hl channel qid inChannel hc hq
  have hh := headTail_more hok
  rw [more_requestLines] at hh
  unfold formatChunkedHead at h1
  rw [hh, asc_chunked, printed_short (by decide +kernel)] at h1
  simp only [Option.bind_eq_bind, Option.bind_some, Option.some.injEq] at h1
  have lf : (joinLines [asc "HTTP/1.1 200 OK", asc "Content-Type: image/jpp-stream", asc "Transfer-Encoding: chunked", asc "Access-Control-Allow-Origin: *", asc "Connection: close"]).length = 128 := by
    decide +kernel
  have e : EndAt (head ++ sendChunks msgs) (head.length - 4) := by
    have hj : joinLines [asc "HTTP/1.1 200 OK", asc "Content-Type: image/jpp-stream", asc "Transfer-Encoding: chunked", asc "Access-Control-Allow-Origin: *", asc "Connection: close"] ++
        (joinLines (optLine "JPIP-tid: " tid ++ requestLines channel qid inChannel) ++ [13, 10]) =
        joinLines ([asc "HTTP/1.1 200 OK", asc "Content-Type: image/jpp-stream", asc "Transfer-Encoding: chunked", asc "Access-Control-Allow-Origin: *", asc "Connection: close"] ++
          (optLine "JPIP-tid: " tid ++ requestLines channel qid inChannel)) ++ [13, 10] := by
      rw [joinLines_append [asc "HTTP/1.1 200 OK", asc "Content-Type: image/jpp-stream", asc "Transfer-Encoding: chunked", asc "Access-Control-Allow-Origin: *", asc "Connection: close"]]
      rw [List.append_assoc]
    rw [hj] at h1
    generalize hL : [asc "HTTP/1.1 200 OK", asc "Content-Type: image/jpp-stream", asc "Transfer-Encoding: chunked", asc "Access-Control-Allow-Origin: *", asc "Connection: close"] ++
      (optLine "JPIP-tid: " tid ++ requestLines channel qid inChannel) = L at h1
    have hne : L ≠ [] := by rw [← hL]; simp
    rw [← List.dropLast_append_getLast hne, joinLines_append] at h1
    have hs : joinLines [L.getLast hne] = L.getLast hne ++ [13, 10] := by simp [joinLines]
    rw [hs] at h1
    unfold EndAt
    rw [← h1]
    have : joinLines L.dropLast ++ (L.getLast hne ++ [13, 10]) ++ [13, 10] = (joinLines L.dropLast ++ L.getLast hne) ++ [13, 10, 13, 10] := by simp
    rw [this]
    generalize joinLines L.dropLast ++ L.getLast hne = X
    have hX : (X ++ [13, 10, 13, 10]).length - 4 = X.length := by simp
    rw [hX, List.append_assoc, List.drop_left' rfl]
    rfl
  have hb : b ≤ head.length - 4 := by
    by_contra hlt
    exact h2.2 _ (by omega) e
  have : head.length ≤ 528 := by
    rw [← h1, List.length_append, lf]
    omega
  omega

/-- **C88.** Every response in one buffer arrives at the client, however the connection is cut. -/
theorem C88_buffered_arrives (tid : List Nat) (ht : ∀ c ∈ tid, c ≠ 0 ∧ c ≠ 10 ∧ c ≠ 13) (hl : tid.length ≤ 243) (channel qid : Option Nat) (inChannel : Bool) (hc : ∀ n, channel = some n → n < 2 ^ 64)
    (hq : ∀ q, qid = some q → q < 2 ^ 64) (body : List Nat) (hb : body.length < 2 ^ 64 - 1) :
    ∃ r, respondBuffered tid (grantOf channel) qid inChannel body = some r ∧ ∀ plan, fetch ⟨r, plan⟩ = some (body, true) := by
  have hok := server_headOk tid ht hl channel qid inChannel hc
  obtain ⟨r0, e, h1, h2, h3, h4⟩ := head_roundtrip body.length [] tid _ _ hok (by omega)
  obtain ⟨b, hbb⟩ : ∃ b, headEnd r0 = some b := by
    unfold isChunked at h2
    cases hh : headEnd r0 with
    | none => rw [hh] at h2; simp at h2
    | some b => exact ⟨b, rfl⟩
  have he : e = b + 4 := by
    unfold isChunked at h2
    rw [hbb] at h2
    simp at h2
    exact h2.2.symm
  subst he
  have hF := headEnd_some hbb
  have hlen : b + 4 = r0.length := by
    have h5 := List.drop_eq_nil_iff.1 h4
    have h6 := congrArg List.length hF.1
    simp only [List.length_take, List.length_drop, List.length_cons, List.length_nil] at h6
    omega
  have hbound : r0.length ≤ 912 := by
    have ht' := tail_length tid hl channel qid inChannel hc hq
    have hh := headTail_more hok
    rw [more_requestLines] at hh
    rw [hh] at h1
    cases hp : printed 512 (asc "HTTP/1.1 200 OK\r\nContent-Type: image/jpp-stream\r\nContent-Length: " ++
        (decStr body.length).map Char.toNat ++ asc "\r\nAccess-Control-Allow-Origin: *\r\nConnection: close\r\n") with
    | none => rw [hp] at h1; simp at h1
    | some x =>
      have hx : x.length ≤ 512 := by
        unfold printed at hp
        split_ifs at hp with c1 c2
        · cases hp; omega
        · cases hp
          simp only [List.length_append, List.length_take, List.length_cons, List.length_nil]
          omega
      rw [hp] at h1
      simp only [Option.bind_eq_bind, Option.bind_some, Option.some.injEq, List.append_nil] at h1
      rw [← h1, List.length_append]
      omega
  have hr : respondBuffered tid (grantOf channel) qid inChannel body = some (r0 ++ body) := by
    unfold respondBuffered formatResponse
    rw [extra_lines]
    cases hp : printed 512 (asc "HTTP/1.1 200 OK\r\nContent-Type: image/jpp-stream\r\nContent-Length: " ++
        (decStr body.length).map Char.toNat ++ asc "\r\nAccess-Control-Allow-Origin: *\r\nConnection: close\r\n") with
    | none => rw [hp] at h1; simp at h1
    | some x =>
      rw [hp] at h1
      cases hy : headTail tid (cnewValue (grantOf channel)) (joinLines (extraLines qid inChannel)) with
      | none => rw [hy] at h1; simp at h1
      | some y =>
        rw [hy] at h1
        simp only [Option.bind_eq_bind, Option.bind_some, Option.some.injEq, List.append_nil] at h1 ⊢
        rw [h1]
  refine ⟨r0 ++ body, hr, fun plan => ?_⟩
  have htk : (r0 ++ body).take (b + 4) = r0 := by rw [hlen, List.take_left' rfl]
  rw [C84_fetch_length (r0 ++ body) plan b body.length (firstEnd_extend hF) (by omega) ?_ (by rw [htk]; exact h3) (by omega)]
  · rw [hlen, List.drop_left' rfl, List.take_of_length_le (le_refl _)]
  · unfold isChunked at h2 ⊢
    rw [headEnd_of (firstEnd_extend hF)]
    rw [hbb] at h2
    simp only [Prod.mk.injEq] at h2 ⊢
    rw [List.take_append_of_le_length (by omega)]
    exact h2.1

/-- Non-vacuity: a new channel, a request with a number. -/
example : ∃ r, respondChunked (asc "photo.j2c") (grantOf (some 7)) (some 12) true [[1, 2], [3]] = some r ∧ ∀ plan, fetch ⟨r, plan⟩ = some ([1, 2, 3], true) :=
  C88_chunked_arrives (asc "photo.j2c") (by decide +kernel) (by decide +kernel) (some 7) (some 12) true (by simp) (by simp) [[1, 2], [3]] (by simp)

end Verif.Jpip
