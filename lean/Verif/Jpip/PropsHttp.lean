import Verif.Jpip.Http
import Verif.Jpip.PropsChunked
import Verif.Jpip.CacheModelLemmas

/-!
# C73: the head of an HTTP response

What the server puts before a response is found again by the client: the end of the head, and whether and how the length of the
body is given.  The head is a list of lines, each ended by CR LF, and an empty line.
-/

namespace Verif.Jpip

/-- A line of a head: not empty, without CR, LF and zero bytes. -/
def PlainLine (l : List Nat) : Prop := l ≠ [] ∧ ∀ c ∈ l, c ≠ 0 ∧ c ≠ 10 ∧ c ≠ 13

/-- Lines, each with its CR LF. -/
def joinLines (ls : List (List Nat)) : List Nat := ls.flatMap (· ++ [13, 10])

theorem takeWhile_id {p : Nat → Bool} {l : List Nat} (h : ∀ c ∈ l, p c = true) : l.takeWhile p = l := by
  induction l with
  | nil => rfl
  | cons c t ih => rw [List.takeWhile_cons, if_pos (h c (by simp)), ih fun d hd => h d (by simp [hd])]

theorem headEnd_skip (l x : List Nat) (h : ∀ c ∈ l, c ≠ 13) : headEnd (l ++ x) = (headEnd x).map (· + l.length) := by
  induction l with
  | nil => simp
  | cons c t ih =>
    have hc := h c (by simp)
    rw [List.cons_append, headEnd, if_neg (by simp [hc]), ih fun d hd => h d (by simp [hd])]
    rw [Option.map_map]
    rcases headEnd x with _ | k
    · rfl
    · simp only [Option.map_some, Function.comp_apply, List.length_cons]; congr 1

theorem headEnd_crlf (y : Nat) (r : List Nat) (h : y ≠ 13) : headEnd (13 :: 10 :: y :: r) = (headEnd (y :: r)).map (· + 2) := by
  rw [headEnd, if_neg (by simp [h]), headEnd, if_neg (by simp)]
  rw [Option.map_map]
  rfl

theorem headEnd_lines : ∀ (ls : List (List Nat)) (rest : List Nat), ls ≠ [] → (∀ l ∈ ls, PlainLine l) →
    headEnd (joinLines ls ++ [13, 10] ++ rest) = some ((joinLines ls).length - 2) := by
  intro ls
  induction ls with
  | nil => intro rest h; exact absurd rfl h
  | cons l ls ih =>
    intro rest _ hp
    have hl := hp l (by simp)
    have e : joinLines (l :: ls) ++ [13, 10] ++ rest = l ++ (13 :: 10 :: (joinLines ls ++ [13, 10] ++ rest)) := by
      simp [joinLines]
    rw [e, headEnd_skip l _ fun c hc => (hl.2 c hc).2.2]
    cases ls with
    | nil =>
      simp [joinLines, headEnd]
    | cons m ms =>
      have hm := hp m (by simp)
      obtain ⟨y, t, rfl⟩ := List.exists_cons_of_ne_nil hm.1
      have hy := (hm.2 y (by simp)).2.2
      have ih' := ih rest (by simp) fun k hk => hp k (by simp [hk])
      have e2 : joinLines ((y :: t) :: ms) ++ [13, 10] ++ rest =
          y :: (t ++ [13, 10] ++ joinLines ms ++ [13, 10] ++ rest) := by simp [joinLines]
      rw [e2] at ih' ⊢
      rw [headEnd_crlf _ _ hy, ih']
      simp only [Option.map_some, joinLines, List.flatMap_cons, List.length_append, List.length_cons, List.length_nil]
      congr 1
      omega

/-- The bytes before the end of the head. -/
theorem head_take (ls : List (List Nat)) (l : List Nat) (rest : List Nat) :
    (joinLines (ls ++ [l]) ++ [13, 10] ++ rest).take ((joinLines (ls ++ [l])).length - 2) = joinLines ls ++ l := by
  have e : joinLines (ls ++ [l]) = joinLines ls ++ l ++ [13, 10] := by simp [joinLines]
  rw [e]
  have e2 : (joinLines ls ++ l ++ [13, 10]).length - 2 = (joinLines ls ++ l).length := by
    simp only [List.length_append, List.length_cons, List.length_nil]; omega
  rw [e2]
  simp only [List.append_assoc]
  rw [← List.append_assoc (joinLines ls) l, List.take_left']
  rfl

theorem takeWhile_line (l r : List Nat) (h : ∀ c ∈ l, c ≠ 10) : (l ++ 10 :: r).takeWhile (· ≠ 10) = l := by
  induction l with
  | nil => simp
  | cons c t ih =>
    rw [List.cons_append, List.takeWhile_cons, if_pos (by simp [h c (by simp)]), ih fun d hd => h d (by simp [hd])]

theorem lengthLoop_skip (l full head : List Nat) (h : ∀ c ∈ l, c ≠ 10)
    (hn : l.take 15 ≠ asc "Content-Length:" ∧ l.take 15 ≠ asc "content-length:") (h15 : 15 ≤ l.length) :
    lengthLoop (l ++ [13, 10] ++ full) (l ++ [13, 10] ++ head) = lengthLoop full head := by
  have hw : (l ++ [13, 10] ++ head).takeWhile (· ≠ 10) = l ++ [13] := by
    have := takeWhile_line (l ++ [13]) head (by
      intro c hc
      simp only [List.mem_append, List.mem_singleton] at hc
      rcases hc with hc | rfl
      · exact h c hc
      · decide)
    simpa using this
  have ht : (l ++ [13]).take 15 = l.take 15 := List.take_append_of_le_length h15
  rw [lengthLoop, if_neg (by simp)]
  simp only [hw, ht]
  rw [if_neg (by rintro ⟨-, h | h⟩; exacts [hn.1 h, hn.2 h])]
  have e : ∀ x, (l ++ [13, 10] ++ x).drop ((l ++ [13]).length + 1) = x := by
    intro x
    have : (l ++ [13]).length + 1 = (l ++ [13, 10]).length := by simp
    rw [this, List.drop_left']
    rfl
  rw [e, e]

theorem chunkedLoop_skip (l head : List Nat) (h : ∀ c ∈ l, c ≠ 10)
    (hn : ∀ t, (l ++ t).take 18 ≠ asc "Transfer-Encoding:" ∧ (l ++ t).take 18 ≠ asc "transfer-encoding:") :
    chunkedLoop (l ++ [13, 10] ++ head) = chunkedLoop head := by
  have hw : (l ++ [13, 10] ++ head).takeWhile (· ≠ 10) = l ++ [13] := by
    have := takeWhile_line (l ++ [13]) head (by
      intro c hc
      simp only [List.mem_append, List.mem_singleton] at hc
      rcases hc with hc | rfl
      · exact h c hc
      · decide)
    simpa using this
  rw [chunkedLoop, if_neg (by simp)]
  simp only [hw]
  rw [if_neg (by rintro ⟨-, h | h, -⟩; exacts [(hn [13]).1 h, (hn [13]).2 h])]
  have e : (l ++ [13, 10] ++ head).drop ((l ++ [13]).length + 1) = head := by
    have : (l ++ [13]).length + 1 = (l ++ [13, 10]).length := by simp
    rw [this, List.drop_left']
    rfl
  rw [e]

theorem readDigits_dec (n : Nat) : ∀ (r : List Nat) (a : Nat), ∃ k,
    readDigits ((decStr n).map Char.toNat ++ r) a = readDigits r (a * 10 ^ k + n) := by
  induction n using Nat.strongRecOn with
  | ind n ih =>
    intro r a
    rw [decStr]
    split
    · rename_i h
      obtain ⟨h1, -⟩ := digitChar n h
      refine ⟨1, ?_⟩
      simp only [List.map_cons, List.map_nil, h1, List.cons_append, List.nil_append, readDigits]
      rw [if_pos (by omega)]
      congr 1; omega
    · rename_i h
      obtain ⟨h1, -⟩ := digitChar (n % 10) (by omega)
      obtain ⟨k, hk⟩ := ih (n / 10) (by omega) ((48 + n % 10) :: r) a
      refine ⟨k + 1, ?_⟩
      simp only [List.map_append, List.map_cons, List.map_nil, h1, List.append_assoc, List.cons_append, List.nil_append]
      rw [hk, readDigits, if_pos (by omega)]
      congr 1
      rw [pow_succ, ← mul_assoc]
      generalize a * 10 ^ k = q
      omega

theorem decStr_bytes (n : Nat) : ∀ c ∈ (decStr n).map Char.toNat, 48 ≤ c ∧ c ≤ 57 := by
  intro c hc
  obtain ⟨d, hd, rfl⟩ := List.mem_map.1 hc
  have := (decStr_spec n).1 d hd
  unfold isDigitC at this
  simpa using this

theorem decStr_length (n : Nat) : ∀ k, 0 < k → n < 10 ^ k → (decStr n).length ≤ k := by
  induction n using Nat.strongRecOn with
  | ind n ih =>
    intro k hk h
    rw [decStr]
    split
    · simp only [List.length_singleton]; omega
    · rename_i h10
      obtain ⟨j, rfl⟩ : ∃ j, k = j + 1 := ⟨k - 1, by omega⟩
      rw [pow_succ] at h
      have hj : 0 < j := by
        rcases Nat.eq_zero_or_pos j with rfl | h'
        · simp at h; omega
        · exact h'
      have := ih (n / 10) (by omega) j hj (by omega)
      simp only [List.length_append, List.length_singleton]
      omega

/-- The number printed, followed by a byte that is no digit, is read back. -/
theorem strtoull_dec (n : Nat) (h : n < 2 ^ 64) (r : List Nat) : strtoullBuf ((decStr n).map Char.toNat ++ 13 :: r) = some n := by
  obtain ⟨k, hk⟩ := readDigits_dec n (13 :: r) 0
  have hb := decStr_bytes n
  have hne : (decStr n).map Char.toNat ≠ [] := by simpa using (decStr_spec n).2.2.1
  generalize (decStr n).map Char.toNat = l at hk hb hne
  obtain ⟨c, t, rfl⟩ := List.exists_cons_of_ne_nil hne
  have hc := hb c (by simp)
  have hw : skipWs ((c :: t) ++ 13 :: r) = some ((c :: t) ++ 13 :: r) := by
    rw [List.cons_append, skipWs, if_neg (by simp [isWs]; omega)]
  unfold strtoullBuf
  rw [hw]
  simp only [List.cons_append, Option.bind_eq_bind, Option.bind_some]
  rw [if_neg (by omega)]
  rw [List.cons_append] at hk
  rw [hk]
  simp only [readDigits, zero_mul, zero_add]
  rw [if_neg (by omega)]
  simp only [Option.bind_some]
  rw [if_neg (by omega), if_neg (by omega)]

/-! ### The head as lines -/

/-- The line with a name and a value, if there is a value. -/
def optLine (name : String) (v : List Nat) : List (List Nat) := if v = [] then [] else [asc name ++ v]

theorem printed_short {size : Nat} {t : List Nat} (h : t.length < size) : printed size t = some t := by
  rw [printed, if_pos h]

theorem cStr_eq {s : List Nat} (h : ∀ c ∈ s, c ≠ 0) : cStr s = s := by
  exact takeWhile_id fun c hc => by simpa using h c hc

theorem asc_tid : asc "JPIP-tid: " = [74, 80, 73, 80, 45, 116, 105, 100, 58, 32] := by decide +kernel
theorem asc_cnew : asc "JPIP-cnew: " = [74, 80, 73, 80, 45, 99, 110, 101, 119, 58, 32] := by decide +kernel

theorem headTail_eq (tid cnew : List Nat) (ext : List (List Nat)) (ht : ∀ c ∈ tid, c ≠ 0) (htl : tid.length ≤ 243)
    (hc : ∀ c ∈ cnew, c ≠ 0) (hcl : cnew.length ≤ 498) :
    headTail tid cnew (joinLines ext) =
      some (joinLines (optLine "JPIP-tid: " tid ++ optLine "JPIP-cnew: " cnew ++ ext) ++ [13, 10]) := by
  have a : optPrinted 256 "JPIP-tid: " tid = some (joinLines (optLine "JPIP-tid: " tid)) := by
    unfold optLine optPrinted
    split_ifs
    · rfl
    · rw [cStr_eq ht, printed_short (by rw [asc_tid]; simp; omega)]
      simp [joinLines]
  have b : optPrinted 512 "JPIP-cnew: " cnew = some (joinLines (optLine "JPIP-cnew: " cnew)) := by
    unfold optLine optPrinted
    split_ifs
    · rfl
    · rw [cStr_eq hc, printed_short (by rw [asc_cnew]; simp; omega)]
      simp [joinLines]
  unfold headTail
  rw [a, b]
  simp [joinLines]

theorem optLine_plain {name : String} {v : List Nat} (hn : PlainLine (asc name)) (hv : ∀ c ∈ v, c ≠ 0 ∧ c ≠ 10 ∧ c ≠ 13) :
    ∀ l ∈ optLine name v, PlainLine l := by
  intro l hl
  unfold optLine at hl
  split_ifs at hl
  · simp at hl
  · rw [List.mem_singleton] at hl
    subst hl
    refine ⟨by simp [hn.1], fun c hc => ?_⟩
    rcases List.mem_append.1 hc with h | h
    exacts [hn.2 c h, hv c h]

instance (l : List Nat) : Decidable (PlainLine l) := by unfold PlainLine; infer_instance

/-- A line that does not ask for another transfer coding. -/
def NotTransfer (l : List Nat) : Prop :=
  ∀ t, (l ++ t).take 18 ≠ asc "Transfer-Encoding:" ∧ (l ++ t).take 18 ≠ asc "transfer-encoding:"

theorem asc_te : asc "Transfer-Encoding:" = [84, 114, 97, 110, 115, 102, 101, 114, 45, 69, 110, 99, 111, 100, 105, 110, 103, 58] ∧
    asc "transfer-encoding:" = [116, 114, 97, 110, 115, 102, 101, 114, 45, 101, 110, 99, 111, 100, 105, 110, 103, 58] := by
  decide +kernel

/-- It is enough that the first byte is neither `T` nor `t`. -/
theorem notTransfer_of_head {c : Nat} {t : List Nat} (h : c ≠ 84 ∧ c ≠ 116) : NotTransfer (c :: t) := by
  intro x
  rw [asc_te.1, asc_te.2]
  simp [h.1, h.2]

theorem chunkedLoop_lines : ∀ (ls : List (List Nat)) (l : List Nat), (∀ k ∈ ls ++ [l], PlainLine k ∧ NotTransfer k) →
    chunkedLoop (joinLines ls ++ l) = false := by
  intro ls
  induction ls with
  | nil =>
    intro l h
    obtain ⟨hp, hn⟩ := h l (by simp)
    have hw : l.takeWhile (· ≠ 10) = l := by
      exact takeWhile_id fun c hc => by simp [(hp.2 c hc).2.1]
    have hn0 := hn []
    rw [List.append_nil] at hn0
    simp only [joinLines, List.flatMap_nil, List.nil_append]
    rw [chunkedLoop, if_neg hp.1]
    simp only [hw]
    rw [if_neg (by rintro ⟨-, h | h, -⟩; exacts [hn0.1 h, hn0.2 h])]
    rw [List.drop_of_length_le (by omega), chunkedLoop, if_pos rfl]
  | cons k ls ih =>
    intro l h
    obtain ⟨hp, hn⟩ := h k (by simp)
    have e : joinLines (k :: ls) ++ l = k ++ [13, 10] ++ (joinLines ls ++ l) := by simp [joinLines]
    rw [e, chunkedLoop_skip k _ (fun c hc => (hp.2 c hc).2.1) hn, ih l fun x hx => h x (by simp at hx ⊢; tauto)]

/-! ### The property -/

/-- The values the server puts into a head: printable, and short enough for the buffers they are printed to; `ext` are the lines
it adds (`JPIP-qid`, `Cache-Control`). -/
structure HeadOk (tid cnew : List Nat) (ext : List (List Nat)) : Prop where
  tid_plain : ∀ c ∈ tid, c ≠ 0 ∧ c ≠ 10 ∧ c ≠ 13
  tid_short : tid.length ≤ 243
  cnew_plain : ∀ c ∈ cnew, c ≠ 0 ∧ c ≠ 10 ∧ c ≠ 13
  cnew_short : cnew.length ≤ 498
  ext_plain : ∀ l ∈ ext, PlainLine l
  ext_transfer : ∀ l ∈ ext, NotTransfer l

theorem optLine_notTransfer (name : String) (v : List Nat) (h : ∃ t, asc name = 74 :: t) : ∀ l ∈ optLine name v, NotTransfer l := by
  obtain ⟨t, e⟩ := h
  intro l hl
  unfold optLine at hl
  split_ifs at hl
  · simp at hl
  · rw [List.mem_singleton] at hl
    rw [hl, e]
    exact notTransfer_of_head (by decide)

/-- The lines after those which are always there. -/
def moreLines (tid cnew : List Nat) (ext : List (List Nat)) : List (List Nat) :=
  optLine "JPIP-tid: " tid ++ optLine "JPIP-cnew: " cnew ++ ext

theorem moreLines_ok {tid cnew : List Nat} {ext : List (List Nat)} (h : HeadOk tid cnew ext) :
    ∀ l ∈ moreLines tid cnew ext, PlainLine l ∧ NotTransfer l := by
  intro l hl
  simp only [moreLines, List.mem_append] at hl
  rcases hl with (hl | hl) | hl
  · exact ⟨optLine_plain (by decide +kernel) h.tid_plain l hl, optLine_notTransfer _ _ ⟨_, asc_tid⟩ l hl⟩
  · exact ⟨optLine_plain (by decide +kernel) h.cnew_plain l hl, optLine_notTransfer _ _ ⟨_, asc_cnew⟩ l hl⟩
  · exact ⟨h.ext_plain l hl, h.ext_transfer l hl⟩

theorem headTail_more {tid cnew : List Nat} {ext : List (List Nat)} (h : HeadOk tid cnew ext) :
    headTail tid cnew (joinLines ext) = some (joinLines (moreLines tid cnew ext) ++ [13, 10]) :=
  headTail_eq tid cnew ext (fun c hc => (h.tid_plain c hc).1) h.tid_short (fun c hc => (h.cnew_plain c hc).1) h.cnew_short

theorem joinLines_append (a b : List (List Nat)) : joinLines (a ++ b) = joinLines a ++ joinLines b := by simp [joinLines]

/-- The fixed lines around the length. -/
theorem asc_fixed (v : List Nat) :
    asc "HTTP/1.1 200 OK\r\nContent-Type: image/jpp-stream\r\nContent-Length: " ++ v ++
      asc "\r\nAccess-Control-Allow-Origin: *\r\nConnection: close\r\n" =
    joinLines [asc "HTTP/1.1 200 OK", asc "Content-Type: image/jpp-stream", asc "Content-Length: " ++ v,
      asc "Access-Control-Allow-Origin: *", asc "Connection: close"] := by
  have a : asc "HTTP/1.1 200 OK\r\nContent-Type: image/jpp-stream\r\nContent-Length: " =
      asc "HTTP/1.1 200 OK" ++ [13, 10] ++ asc "Content-Type: image/jpp-stream" ++ [13, 10] ++ asc "Content-Length: " := by
    decide +kernel
  have b : asc "\r\nAccess-Control-Allow-Origin: *\r\nConnection: close\r\n" =
      [13, 10] ++ asc "Access-Control-Allow-Origin: *" ++ [13, 10] ++ asc "Connection: close" ++ [13, 10] := by decide +kernel
  rw [a, b]
  simp [joinLines]

theorem take_three (A B C J x y : List Nat) (h : 2 ≤ J.length) :
    (A ++ [13, 10] ++ (B ++ [13, 10] ++ (C ++ [13, 10] ++ J)) ++ x ++ y).take
      ((A ++ [13, 10] ++ (B ++ [13, 10] ++ (C ++ [13, 10] ++ J))).length - 2) =
    A ++ [13, 10] ++ (B ++ [13, 10] ++ (C ++ [13, 10] ++ J.take (J.length - 2))) := by
  have e : A ++ [13, 10] ++ (B ++ [13, 10] ++ (C ++ [13, 10] ++ J)) = (A ++ [13, 10] ++ (B ++ [13, 10] ++ (C ++ [13, 10]))) ++ J := by
    simp
  rw [e]
  generalize hp : A ++ [13, 10] ++ (B ++ [13, 10] ++ (C ++ [13, 10])) = p
  have l : (p ++ J).length - 2 = p.length + (J.length - 2) := by rw [List.length_append]; omega
  rw [l, List.append_assoc, List.append_assoc, List.take_length_add_append, List.take_append_of_le_length (by omega), ← hp]
  simp

/-- The head with the length `n`, and anything after it. -/
theorem head_roundtrip (n : Nat) (body tid cnew : List Nat) (ext : List (List Nat)) (h : HeadOk tid cnew ext) (hb : n < 2 ^ 64) :
    ∃ r e, (do
      let h ← printed 512 (asc "HTTP/1.1 200 OK\r\nContent-Type: image/jpp-stream\r\nContent-Length: " ++
        (decStr n).map Char.toNat ++ asc "\r\nAccess-Control-Allow-Origin: *\r\nConnection: close\r\n")
      let t ← headTail tid cnew (joinLines ext)
      some (h ++ t ++ body)) = some r ∧ isChunked r = (false, some e) ∧ contentLength r = some (n, some e) ∧ r.drop e = body := by
  have hd := decStr_bytes n
  have hlen := decStr_length n 20 (by omega) (by omega)
  have hst := strtoull_dec n hb
  have hl' : ((decStr n).map Char.toNat).length ≤ 20 := by simpa using hlen
  rw [headTail_more h, asc_fixed]
  generalize (decStr n).map Char.toNat = v at *
  have hmore := moreLines_ok h
  generalize moreLines tid cnew ext = more at *
  have hv : PlainLine (asc "Content-Length: " ++ v) := by
    refine ⟨by have : asc "Content-Length: " ≠ [] := by decide +kernel
               simp [this], fun c hc => ?_⟩
    rcases List.mem_append.1 hc with h | h
    · exact (show PlainLine (asc "Content-Length: ") by decide +kernel).2 c h
    · have := hd c h; omega
  have hshort : (joinLines [asc "HTTP/1.1 200 OK", asc "Content-Type: image/jpp-stream", asc "Content-Length: " ++ v,
      asc "Access-Control-Allow-Origin: *", asc "Connection: close"]).length < 512 := by
    have l1 : (asc "HTTP/1.1 200 OK").length = 15 := by decide +kernel
    have l2 : (asc "Content-Type: image/jpp-stream").length = 30 := by decide +kernel
    have l3 : (asc "Content-Length: ").length = 16 := by decide +kernel
    have l4 : (asc "Access-Control-Allow-Origin: *").length = 30 := by decide +kernel
    have l5 : (asc "Connection: close").length = 17 := by decide +kernel
    simp only [joinLines, List.flatMap_cons, List.flatMap_nil, List.length_append, l1, l2, l3, l4, l5, List.length_cons,
      List.length_nil]
    omega
  rw [printed_short hshort]
  have hT : NotTransfer (asc "Content-Length: " ++ v) := by
    have e : asc "Content-Length: " = 67 :: (asc "Content-Length: ").tail := by decide +kernel
    rw [e, List.cons_append]
    exact notTransfer_of_head (by decide)
  have hN : ∀ s : String, (∃ c t, asc s = c :: t ∧ c ≠ 84 ∧ c ≠ 116) → NotTransfer (asc s) := by
    rintro s ⟨c, t, e, hc⟩
    rw [e]; exact notTransfer_of_head hc
  have hall : ∀ l ∈ [asc "HTTP/1.1 200 OK", asc "Content-Type: image/jpp-stream", asc "Content-Length: " ++ v,
      asc "Access-Control-Allow-Origin: *", asc "Connection: close"] ++ more, PlainLine l ∧ NotTransfer l := by
    intro l hl
    simp only [List.mem_append, List.mem_cons, List.not_mem_nil, or_false] at hl
    rcases hl with (rfl | rfl | rfl | rfl | rfl) | hl
    · exact ⟨by decide +kernel, hN _ ⟨72, (asc "HTTP/1.1 200 OK").tail, by decide +kernel⟩⟩
    · exact ⟨by decide +kernel, hN _ ⟨67, (asc "Content-Type: image/jpp-stream").tail, by decide +kernel⟩⟩
    · exact ⟨hv, hT⟩
    · exact ⟨by decide +kernel, hN _ ⟨65, (asc "Access-Control-Allow-Origin: *").tail, by decide +kernel⟩⟩
    · exact ⟨by decide +kernel, hN _ ⟨67, (asc "Connection: close").tail, by decide +kernel⟩⟩
    · exact hmore l hl
  set fixed := [asc "HTTP/1.1 200 OK", asc "Content-Type: image/jpp-stream", asc "Content-Length: " ++ v,
      asc "Access-Control-Allow-Origin: *", asc "Connection: close"] with hfix
  have hne : fixed ++ more ≠ [] := by simp [hfix]
  have er : joinLines fixed ++ (joinLines more ++ [13, 10]) ++ body = joinLines (fixed ++ more) ++ [13, 10] ++ body := by
    rw [joinLines_append]; simp
  have he := headEnd_lines (fixed ++ more) body hne fun l hl => (hall l hl).1
  obtain ⟨init, last, hil⟩ : ∃ init last, fixed ++ more = init ++ [last] :=
    ⟨_, _, (List.dropLast_append_getLast hne).symm⟩
  have htake : (joinLines (fixed ++ more) ++ [13, 10] ++ body).take ((joinLines (fixed ++ more)).length - 2) =
      joinLines init ++ last := by rw [hil]; exact head_take init last body
  have h2 : 2 ≤ (joinLines (fixed ++ more)).length := by rw [hil, joinLines_append]; simp [joinLines]; omega
  refine ⟨_, (joinLines (fixed ++ more)).length - 2 + 4, by simp only [Option.bind_eq_bind, Option.bind_some]; rw [er], ?_, ?_, ?_⟩
  · unfold isChunked
    rw [he]
    simp only
    rw [htake, chunkedLoop_lines init last (by rw [← hil]; exact hall)]
  · unfold contentLength
    rw [he]
    simp only
    have hlen3 : ∃ s, (joinLines (fixed ++ more) ++ [13, 10] ++ body).take ((joinLines (fixed ++ more)).length - 2) =
        asc "HTTP/1.1 200 OK" ++ [13, 10] ++ (asc "Content-Type: image/jpp-stream" ++ [13, 10] ++
          (asc "Content-Length: " ++ v ++ [13, 10] ++ s)) := by
      have e : joinLines (fixed ++ more) = asc "HTTP/1.1 200 OK" ++ [13, 10] ++ (asc "Content-Type: image/jpp-stream" ++ [13, 10] ++
          (asc "Content-Length: " ++ v ++ [13, 10] ++ joinLines ([asc "Access-Control-Allow-Origin: *", asc "Connection: close"] ++ more))) := by
        rw [joinLines_append]; simp [joinLines, hfix]
      have hge : 2 ≤ (joinLines ([asc "Access-Control-Allow-Origin: *", asc "Connection: close"] ++ more)).length := by
        rw [joinLines_append]; simp [joinLines]; omega
      refine ⟨(joinLines ([asc "Access-Control-Allow-Origin: *", asc "Connection: close"] ++ more)).take
        ((joinLines ([asc "Access-Control-Allow-Origin: *", asc "Connection: close"] ++ more)).length - 2), ?_⟩
      rw [e]
      exact take_three _ _ _ _ _ _ hge
    obtain ⟨s, hs⟩ := hlen3
    rw [hs]
    have ef : ∃ f, joinLines (fixed ++ more) ++ [13, 10] ++ body = asc "HTTP/1.1 200 OK" ++ [13, 10] ++
        (asc "Content-Type: image/jpp-stream" ++ [13, 10] ++ (asc "Content-Length: " ++ v ++ [13, 10] ++ f)) := by
      rw [joinLines_append]
      refine ⟨joinLines [asc "Access-Control-Allow-Origin: *", asc "Connection: close"] ++ joinLines more ++ [13, 10] ++ body, ?_⟩
      simp [joinLines, hfix]
    obtain ⟨f, hf⟩ := ef
    rw [hf, lengthLoop_skip _ _ _ (by decide +kernel) (by decide +kernel) (by decide +kernel),
      lengthLoop_skip _ _ _ (by decide +kernel) (by decide +kernel) (by decide +kernel)]
    have hw : (asc "Content-Length: " ++ v ++ [13, 10] ++ s).takeWhile (· ≠ 10) = asc "Content-Length: " ++ v ++ [13] := by
      have := takeWhile_line (asc "Content-Length: " ++ v ++ [13]) s (by
        intro c hc
        rcases List.mem_append.1 hc with h | h
        · exact (hv.2 c h).2.1
        · rw [List.mem_singleton] at h; omega)
      simpa using this
    have ecl : asc "Content-Length: " = asc "Content-Length:" ++ [32] := by decide +kernel
    have lcl : (asc "Content-Length:").length = 15 := by decide +kernel
    have hblank : ((asc "Content-Length: " ++ v ++ [13]).drop 15).takeWhile (fun c => decide (c = 32 ∨ c = 9)) = [32] := by
      rw [ecl]
      have : (asc "Content-Length:" ++ [32] ++ v ++ [13]).drop 15 = 32 :: (v ++ [13]) := by
        rw [List.append_assoc, List.append_assoc, List.drop_left' lcl]; rfl
      rw [this, List.takeWhile_cons, if_pos (by simp)]
      congr 1
      rcases v with _ | ⟨c, t⟩
      · simp
      · have := hd c (by simp)
        rw [List.cons_append, List.takeWhile_cons, if_neg (by simp; omega)]
    rw [lengthLoop, if_neg (by rw [ecl]; simp)]
    simp only [hw, hblank]
    rw [if_pos ⟨by rw [ecl]; simp only [List.length_append, lcl, List.length_singleton]; omega, Or.inl (by
      rw [ecl, List.append_assoc, List.append_assoc, List.take_left' lcl])⟩]
    have hdrop : (asc "Content-Length: " ++ v ++ [13, 10] ++ f).drop (15 + [32].length) = v ++ 13 :: (10 :: f) := by
      rw [List.append_assoc, List.append_assoc, List.drop_left' (by rw [ecl]; simp [lcl])]
      simp
    rw [hdrop, hst]
    rfl
  · have : (joinLines (fixed ++ more)).length - 2 + 4 = (joinLines (fixed ++ more) ++ [13, 10]).length := by
      simp only [List.length_append, List.length_cons, List.length_nil]; omega
    rw [this, List.drop_left']
    rfl

/-- C73: a response with a length.  For every body and all admissible values the server does not read outside of its buffers; in
what it sends the client finds that the body is not chunked, its length, and where it starts, and from there on there is the
body. -/
theorem C73_response_roundtrip (body tid cnew : List Nat) (ext : List (List Nat)) (h : HeadOk tid cnew ext)
    (hb : body.length < 2 ^ 64) :
    ∃ r e, formatResponse body tid cnew (joinLines ext) = some r ∧ isChunked r = (false, some e) ∧
      contentLength r = some (body.length, some e) ∧ r.drop e = body := by
  exact head_roundtrip body.length body tid cnew ext h hb

theorem asc_chunked :
    asc ("HTTP/1.1 200 OK\r\nContent-Type: image/jpp-stream\r\nTransfer-Encoding: chunked\r\n" ++
      "Access-Control-Allow-Origin: *\r\nConnection: close\r\n") =
    joinLines [asc "HTTP/1.1 200 OK", asc "Content-Type: image/jpp-stream", asc "Transfer-Encoding: chunked",
      asc "Access-Control-Allow-Origin: *", asc "Connection: close"] := by decide +kernel

theorem fixed_plain : ∀ l ∈ [asc "HTTP/1.1 200 OK", asc "Content-Type: image/jpp-stream", asc "Transfer-Encoding: chunked",
    asc "Access-Control-Allow-Origin: *", asc "Connection: close"], PlainLine l := by decide +kernel

/-- C73: a chunked response.  For all admissible values and any messages the client finds that the body is chunked and where it
starts, and its decoder, fed with what follows in any pieces, delivers the messages and sees the end. -/
theorem C73_chunked_roundtrip (msgs : List (List Nat)) (tid cnew : List Nat) (ext : List (List Nat)) (h : HeadOk tid cnew ext)
    (hm : ∀ c ∈ msgs, c.length < 2 ^ 64) :
    ∃ head e, formatChunkedHead tid cnew (joinLines ext) = some head ∧ isChunked (head ++ sendChunks msgs) = (true, some e) ∧
      ∀ frags : List (List Nat), frags.flatten = (head ++ sendChunks msgs).drop e →
        (frags.foldl Dec.feed {}).seen = (msgs.flatten, some true) := by
  unfold formatChunkedHead
  rw [headTail_more h, asc_chunked, printed_short (by decide +kernel)]
  have hmore := moreLines_ok h
  generalize moreLines tid cnew ext = more at *
  have hall : ∀ l ∈ [asc "HTTP/1.1 200 OK", asc "Content-Type: image/jpp-stream", asc "Transfer-Encoding: chunked",
      asc "Access-Control-Allow-Origin: *", asc "Connection: close"] ++ more, PlainLine l := by
    intro l hl
    rcases List.mem_append.1 hl with hl | hl
    · exact fixed_plain l hl
    · exact (hmore l hl).1
  set fixed := [asc "HTTP/1.1 200 OK", asc "Content-Type: image/jpp-stream", asc "Transfer-Encoding: chunked",
      asc "Access-Control-Allow-Origin: *", asc "Connection: close"] with hfix
  have hne : fixed ++ more ≠ [] := by simp [hfix]
  have er : joinLines fixed ++ (joinLines more ++ [13, 10]) = joinLines (fixed ++ more) ++ [13, 10] := by
    rw [joinLines_append]; simp
  have h2 : 2 ≤ (joinLines (fixed ++ more)).length := by rw [joinLines_append]; simp [joinLines, hfix]; omega
  have he := headEnd_lines (fixed ++ more) (sendChunks msgs) hne hall
  refine ⟨joinLines (fixed ++ more) ++ [13, 10], (joinLines (fixed ++ more)).length - 2 + 4,
    by simp only [Option.bind_eq_bind, Option.bind_some]; rw [er], ?_, ?_⟩
  · unfold isChunked
    rw [he]
    simp only
    have e : joinLines (fixed ++ more) = asc "HTTP/1.1 200 OK" ++ [13, 10] ++ (asc "Content-Type: image/jpp-stream" ++ [13, 10] ++
        (asc "Transfer-Encoding: chunked" ++ [13, 10] ++
          joinLines ([asc "Access-Control-Allow-Origin: *", asc "Connection: close"] ++ more))) := by
      rw [joinLines_append]; simp [joinLines, hfix]
    have hge : 2 ≤ (joinLines ([asc "Access-Control-Allow-Origin: *", asc "Connection: close"] ++ more)).length := by
      rw [joinLines_append]; simp [joinLines]; omega
    rw [e, take_three _ _ _ _ _ _ hge]
    have hN : ∀ s : String, (∃ c t, asc s = c :: t ∧ c ≠ 84 ∧ c ≠ 116) → NotTransfer (asc s) := by
      rintro s ⟨c, t, e, hc⟩
      rw [e]; exact notTransfer_of_head hc
    rw [chunkedLoop_skip _ _ (by decide +kernel) (hN _ ⟨72, (asc "HTTP/1.1 200 OK").tail, by decide +kernel⟩),
      chunkedLoop_skip _ _ (by decide +kernel) (hN _ ⟨67, (asc "Content-Type: image/jpp-stream").tail, by decide +kernel⟩)]
    generalize (joinLines ([asc "Access-Control-Allow-Origin: *", asc "Connection: close"] ++ more)).take _ = s
    have hw : (asc "Transfer-Encoding: chunked" ++ [13, 10] ++ s).takeWhile (· ≠ 10) = asc "Transfer-Encoding: chunked" ++ [13] := by
      have := takeWhile_line (asc "Transfer-Encoding: chunked" ++ [13]) s (by decide +kernel)
      simpa using this
    rw [chunkedLoop, if_neg (by simp)]
    simp only [hw]
    rw [if_pos (by decide +kernel)]
  · intro frags hf
    have : (joinLines (fixed ++ more)).length - 2 + 4 = (joinLines (fixed ++ more) ++ [13, 10]).length := by
      simp only [List.length_append, List.length_cons, List.length_nil]; omega
    rw [this, List.drop_left' rfl] at hf
    exact C16_stream_roundtrip msgs hm [] frags (by simpa using hf)

/-- Values as the server has them. -/
example : HeadOk (asc "photo.j2c") (asc "cid=JPH1,path=jpip,transport=http") [asc "JPIP-qid: 3", asc "Cache-Control: no-cache"] where
  tid_plain := by decide +kernel
  tid_short := by decide +kernel
  cnew_plain := by decide +kernel
  cnew_short := by decide +kernel
  ext_plain := by decide +kernel
  ext_transfer := by
    intro l hl
    simp only [List.mem_cons, List.not_mem_nil, or_false] at hl
    rcases hl with rfl | rfl
    · have e : asc "JPIP-qid: 3" = 74 :: (asc "JPIP-qid: 3").tail := by decide +kernel
      rw [e]; exact notTransfer_of_head (by decide)
    · have e : asc "Cache-Control: no-cache" = 67 :: (asc "Cache-Control: no-cache").tail := by decide +kernel
      rw [e]; exact notTransfer_of_head (by decide)

example : (formatResponse [1, 2, 3] (asc "photo.j2c") [] (joinLines [asc "JPIP-qid: 3"])).map contentLength =
    some (some (3, some 155)) := by decide +kernel

/-! ### Findings -/

/-- The target id is the name of the image file (jpip_server/main.cpp:632-636).  The server reads beyond the end of the buffer of
the JPIP-tid line, and sends what it finds there, exactly if the name has more than 244 bytes; Linux allows 255. -/
theorem C73_tid_overrun_iff (tid : List Nat) (h : ∀ c ∈ tid, c ≠ 0) (extra : List Nat) :
    formatChunkedHead tid [] extra = none ↔ 244 < tid.length := by
  unfold formatChunkedHead headTail
  rw [asc_chunked, printed_short (by decide +kernel)]
  have hc : optPrinted 512 "JPIP-cnew: " [] = some [] := by simp [optPrinted]
  have ht : optPrinted 256 "JPIP-tid: " tid = none ↔ 244 < tid.length := by
    unfold optPrinted printed
    rw [cStr_eq h, asc_tid]
    by_cases h0 : tid = []
    · simp [h0]
    · rw [if_neg h0]
      have hl : ([74, 80, 73, 80, 45, 116, 105, 100, 58, 32] ++ tid ++ [13, 10]).length = tid.length + 12 := by simp
      rw [hl]
      split_ifs with h1 h2
      · simp; omega
      · simp; omega
      · simp; omega
  rw [hc, ← ht]
  cases optPrinted 256 "JPIP-tid: " tid <;> simp

/-- With 244 bytes the line feed of the line is lost: the head has no end and the client finds neither a length nor a body. -/
theorem C73_tid_cut : ∃ r, formatResponse [1, 2, 3] (List.replicate 244 97) [] [] = some r ∧ headEnd r = none ∧
    contentLength r = some (2 ^ 64 - 1, none) := by
  have e3 : decStr 3 = ['3'] := by rw [decStr]; rfl
  have hn : headEnd (asc "HTTP/1.1 200 OK\r\nContent-Type: image/jpp-stream\r\nContent-Length: " ++ ['3'].map Char.toNat ++
      asc "\r\nAccess-Control-Allow-Origin: *\r\nConnection: close\r\n" ++
      ((asc "JPIP-tid: " ++ List.replicate 244 97 ++ [13, 10]).take 255 ++ [0] ++ [] ++ [] ++ [13, 10]) ++ [1, 2, 3]) = none := by
    decide +kernel
  refine ⟨_, ?_, hn, ?_⟩
  · unfold formatResponse headTail
    rw [show [1, 2, 3].length = 3 from rfl, e3, printed_short (by decide +kernel)]
    have a : optPrinted 256 "JPIP-tid: " (List.replicate 244 97) =
        some ((asc "JPIP-tid: " ++ List.replicate 244 97 ++ [13, 10]).take 255 ++ [0]) := by decide +kernel
    rw [a]
    rfl
  · unfold contentLength
    rw [hn]

/-- The client lets `strtoull` skip line ends: a length of blanks in the last line of the head is read from the body, or beyond
the end of the buffer if there is no body yet. -/
theorem C73_length_from_body :
    contentLength (asc "HTTP/1.1 200 OK\r\nContent-Length:  \r\n\r\n77x") = some (77, some 38) ∧
    contentLength (asc "HTTP/1.1 200 OK\r\nContent-Length:  \r\n\r\n") = none := by
  have step : ∀ t b, headEnd (asc "HTTP/1.1 200 OK" ++ [13, 10] ++ (asc "Content-Length:  " ++ t)) = some b →
      (asc "HTTP/1.1 200 OK" ++ [13, 10] ++ (asc "Content-Length:  " ++ t)).take b =
        asc "HTTP/1.1 200 OK" ++ [13, 10] ++ asc "Content-Length:  " →
      contentLength (asc "HTTP/1.1 200 OK" ++ [13, 10] ++ (asc "Content-Length:  " ++ t)) =
        (strtoullBuf t).bind fun n => some (n, some (b + 4)) := by
    intro t b h1 h2
    unfold contentLength
    rw [h1]
    simp only
    rw [h2, lengthLoop_skip _ _ _ (by decide +kernel) (by decide +kernel) (by decide +kernel), lengthLoop,
      if_neg (by decide +kernel)]
    rw [if_pos (by decide +kernel)]
    rw [List.drop_left' (by decide +kernel)]
    rfl
  have e1 : asc "HTTP/1.1 200 OK\r\nContent-Length:  \r\n\r\n77x" =
      asc "HTTP/1.1 200 OK" ++ [13, 10] ++ (asc "Content-Length:  " ++ asc "\r\n\r\n77x") := by decide +kernel
  have e2 : asc "HTTP/1.1 200 OK\r\nContent-Length:  \r\n\r\n" =
      asc "HTTP/1.1 200 OK" ++ [13, 10] ++ (asc "Content-Length:  " ++ asc "\r\n\r\n") := by decide +kernel
  rw [e1, e2, step _ 34 (by decide +kernel) (by decide +kernel), step _ 34 (by decide +kernel) (by decide +kernel)]
  decide +kernel

/-- A length of one digit without a blank before it in the last line of the head is not found: the test for more than 16 bytes
counts the CR, which is not there in the last line. -/
theorem C73_short_length_missed :
    contentLength (asc "HTTP/1.1 200 OK\r\nContent-Length:5\r\n\r\n") = some (2 ^ 64 - 1, some 37) := by
  have e : asc "HTTP/1.1 200 OK\r\nContent-Length:5\r\n\r\n" =
      asc "HTTP/1.1 200 OK" ++ [13, 10] ++ (asc "Content-Length:5" ++ asc "\r\n\r\n") := by decide +kernel
  have h1 : headEnd (asc "HTTP/1.1 200 OK" ++ [13, 10] ++ (asc "Content-Length:5" ++ asc "\r\n\r\n")) = some 33 := by decide +kernel
  have h2 : (asc "HTTP/1.1 200 OK" ++ [13, 10] ++ (asc "Content-Length:5" ++ asc "\r\n\r\n")).take 33 =
      asc "HTTP/1.1 200 OK" ++ [13, 10] ++ asc "Content-Length:5" := by decide +kernel
  rw [e]
  unfold contentLength
  rw [h1]
  simp only
  rw [h2, lengthLoop_skip _ _ _ (by decide +kernel) (by decide +kernel) (by decide +kernel), lengthLoop,
    if_neg (by decide +kernel)]
  rw [if_neg (by decide +kernel)]
  rw [show (asc "Content-Length:5").drop (((asc "Content-Length:5").takeWhile (· ≠ 10)).length + 1) = [] from by decide +kernel,
    lengthLoop, if_pos rfl]
  rfl

end Verif.Jpip
