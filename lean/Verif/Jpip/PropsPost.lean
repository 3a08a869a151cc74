import Mathlib.Data.List.TakeWhile
import Verif.Jpip.Post
import Verif.Jpip.PropsTransport

/-!
# C85: the query of a POST

The specification: a request is a list of lines, an empty line and a body; `Names n l` (the line `l` is a header of the name `n`, in either case).
-/

namespace Verif.Jpip

/-- The line has the name, in either case, before a colon. -/
def Names (n l : List Nat) : Prop := ∃ a v, l = a ++ 58 :: v ∧ a.map lowerB = n.map lowerB

/-! ### Lemmas -/

theorem takeWhile_stop {p : Nat → Bool} {l t : List Nat} (h : ∃ c ∈ l, p c = false) : (l ++ t).takeWhile p = l.takeWhile p := by
  induction l with
  | nil => simp at h
  | cons c l ih =>
    rw [List.cons_append, List.takeWhile_cons, List.takeWhile_cons]
    split_ifs with hp
    · rw [ih]
      obtain ⟨d, hd, hpd⟩ := h
      rcases List.mem_cons.1 hd with rfl | hd
      · rw [hp] at hpd; cases hpd
      · exact ⟨d, hd, hpd⟩
    · rfl

theorem dropWhile_stop {p : Nat → Bool} {l t : List Nat} (h : ∃ c ∈ l, p c = false) : (l ++ t).dropWhile p = l.dropWhile p ++ t ∧ l.dropWhile p ≠ [] := by
  induction l with
  | nil => simp at h
  | cons c l ih =>
    rw [List.cons_append, List.dropWhile_cons, List.dropWhile_cons]
    split_ifs with hp
    · apply ih
      obtain ⟨d, hd, hpd⟩ := h
      rcases List.mem_cons.1 hd with rfl | hd
      · rw [hp] at hpd; cases hpd
      · exact ⟨d, hd, hpd⟩
    · simp

theorem suffix_last {r l : List Nat} {x : Nat} (hs : r <:+ l) (hr : r ≠ []) (hl : l.getLast? = some x) : r.getLast? = some x := by
  obtain ⟨p, rfl⟩ := hs
  rwa [List.getLast?_append_of_ne_nil _ hr] at hl

theorem dropWhile_ne {p : Nat → Bool} {l : List Nat} (h : l.dropWhile p ≠ []) : ∃ c ∈ l, p c = false := by
  by_contra hn
  push Not at hn
  apply h
  clear h
  induction l with
  | nil => rfl
  | cons c l ih =>
    rw [List.dropWhile_cons, if_pos (by simpa using hn c (by simp))]
    exact ih fun x hx => hn x (by simp [hx])

/-- A header found before the last line feed is found with anything after it. -/
theorem findLoop_mono (name t : List Nat) (c : Nat) : ∀ l : List Nat, l.length ≤ c → l.getLast? = some 10 → findLoop name l ≠ [] → findLoop name (l ++ t) = findLoop name l := by
  induction c with
  | zero =>
    intro l hc _ h
    rw [findLoop, if_neg (by omega)] at h
    exact absurd rfl h
  | succ c ih =>
    intro l hc hl h
    have h10 : (10 : Nat) ∈ l := List.mem_of_getLast? hl
    have hw : (l ++ t).takeWhile (fun c => !isEol c) = l.takeWhile fun c => !isEol c := takeWhile_stop ⟨10, h10, by decide⟩
    rw [findLoop] at h
    conv_lhs => rw [findLoop]
    conv_rhs => rw [findLoop]
    by_cases h1 : name.length + 1 < l.length
    · rw [if_pos h1] at h ⊢
      rw [if_pos (by rw [List.length_append]; omega), hw]
      simp only at h ⊢
      by_cases h2 : name.length + 1 ≤ (l.takeWhile fun c => !isEol c).length ∧ (l.takeWhile fun c => !isEol c)[name.length]? = some 58 ∧
          ((l.takeWhile fun c => !isEol c).take name.length).map lowerB = name.map lowerB
      · rw [if_pos h2, if_pos h2]
      · rw [if_neg h2] at h
        rw [if_neg h2, if_neg h2]
        by_cases h3 : ((l.drop (l.takeWhile fun c => !isEol c).length).dropWhile isEol).length = l.length
        · rw [dif_pos h3] at h
          exact absurd rfl h
        · rw [dif_neg h3] at h
          have hle : (l.takeWhile fun c => !isEol c).length ≤ l.length := (List.takeWhile_sublist _).length_le
          have hne : (l.drop (l.takeWhile fun c => !isEol c).length).dropWhile isEol ≠ [] := by
            intro he
            rw [he, findLoop, if_neg (by simp)] at h
            exact h rfl
          have hd : (List.drop (l.takeWhile fun c => !isEol c).length (l ++ t)).dropWhile isEol = (l.drop (l.takeWhile fun c => !isEol c).length).dropWhile isEol ++ t := by
            rw [List.drop_append_of_le_length hle]
            exact (dropWhile_stop (dropWhile_ne hne)).1
          rw [dif_neg h3, dif_neg (by rw [hd]; simp only [List.length_append]; omega), hd]
          refine ih _ ?_ (suffix_last ((List.dropWhile_suffix _).trans (List.drop_suffix _ _)) hne hl) h
          have := (List.dropWhile_suffix (l := l.drop (l.takeWhile fun c => !isEol c).length) isEol).length_le
          simp only [List.length_drop] at this
          omega
    · rw [if_neg h1] at h
      exact absurd rfl h

theorem findHeader_mono {name head t : List Nat} (hl : head.getLast? = some 10) (h : findHeader name head ≠ []) : findHeader name (head ++ t) = findHeader name head := by
  unfold findHeader at h ⊢
  obtain ⟨h1, h2⟩ := dropWhile_stop (p := fun c => decide (c ≠ 10)) (l := head) (t := t) ⟨10, List.mem_of_getLast? hl, by decide⟩
  rw [h1]
  have hp : 1 ≤ (head.dropWhile fun c => decide (c ≠ 10)).length := List.length_pos_iff.2 h2
  rw [List.drop_append_of_le_length hp]
  have hne : (head.dropWhile fun c => decide (c ≠ 10)).drop 1 ≠ [] := by
    intro he
    rw [he, findLoop, if_neg (by simp)] at h
    exact h rfl
  exact findLoop_mono name t _ _ (le_refl _) (suffix_last ((List.drop_suffix _ _).trans (List.dropWhile_suffix _)) hne hl) h

theorem admit_mono {head t : List Nat} (h13 : 13 ∈ head) (hl : head.getLast? = some 10) (h : findHeader (asc "Content-Length") head ≠ []) : admit (head ++ t) = admit head := by
  have hr : reqLine (head ++ t) = reqLine head := by
    unfold reqLine
    rw [if_pos h13, if_pos (by simp [h13]), takeWhile_stop ⟨13, h13, by decide⟩]
  have hp := List.length_pos_of_mem h13
  unfold admit
  rw [if_neg (by rw [List.length_append]; omega), if_neg (by omega), hr, findHeader_mono hl h]

theorem head_last {d : List Nat} {b : Nat} (h : EndAt d b) : 13 ∈ d.take (b + 4) ∧ (d.take (b + 4)).getLast? = some 10 := by
  have e : d.take (b + 4) = d.take b ++ [13, 10, 13, 10] := by rw [List.take_add, h]
  rw [e]
  exact ⟨by simp, by simp⟩

/-! ### Any request -/

/-- **C85.** If the header Content-Length is in the head, the server does the same for every way in which the request arrives: the answer depends on the head, and if that admits a
body of `n` bytes, the query is the first `n` bytes after the head; when fewer come, the answer is 400. -/
theorem C85_post_cut (data plan : List Nat) (b : Nat) (hb : FirstEnd data b) (hm : b + 4 ≤ 65536) (hv : findHeader (asc "Content-Length") (data.take (b + 4)) ≠ []) :
    post ⟨data, plan⟩ = some (match admit (data.take (b + 4)) with
      | .error a => a
      | .ok (path, n) => if n ≤ (data.drop (b + 4)).length then .query path ((data.drop (b + 4)).take n) else .bad) := by
  obtain ⟨buf, s, e, h1, hf, hl, hd⟩ := head_read plan hb hm
  have ht : data.take (b + 4) = buf.take (b + 4) := by rw [← h1, List.take_append_of_le_length hl]
  have ha : admit buf = admit (data.take (b + 4)) := by
    rw [ht] at hv ⊢
    obtain ⟨h13, hlast⟩ := head_last hf.1
    conv_lhs => rw [← List.take_append_drop (b + 4) buf]
    exact admit_mono h13 hlast hv
  simp only [post, e, Option.bind_eq_bind, Option.bind_some, ha, headEnd_of hf]
  cases admit (data.take (b + 4)) with
  | error a => rfl
  | ok x =>
    obtain ⟨path, n⟩ := x
    simp only
    rw [← hd]
    split_ifs with h h2 h2
    · rw [recvAll_spec _ _ _ _ (le_refl _) (by omega), if_pos (by rwa [List.length_append] at h2)]
    · rw [recvAll_spec _ _ _ _ (le_refl _) (by omega), if_neg (by rwa [List.length_append] at h2)]
    · rw [List.take_append_of_le_length (by omega)]
    · rw [List.length_append] at h2
      omega

/-- **C85.** The claim for all requests is false: `find_header` looks at all bytes that came with the head, also those of the body.  A POST without length is answered 411 if its
head arrives alone, and accepted if the body, which has a line that looks like the header, arrives with it. -/
theorem C85_length_from_body : ∃ data p q, FirstEnd data 9 ∧ findHeader (asc "Content-Length") (data.take 13) = [] ∧ post ⟨data, p⟩ = some .noLength ∧
    post ⟨data, q⟩ = some (.query (asc "/x") (asc "Con")) := by
  refine ⟨asc "POST /x H\r\n\r\nContent-Length: 3\r\n", [13], [], headEnd_some ?_, ?_, ?_, ?_⟩ <;> decide +kernel

/-! ### A well-formed request -/

theorem line_takeWhile {l r : List Nat} (h : PlainLine l) : (l ++ 13 :: r).takeWhile (fun c => !isEol c) = l := by
  rw [List.takeWhile_append_of_pos (fun c hc => by have := h.2 c hc; simp [isEol, this])]
  simp [isEol]

theorem findLoop_skip {name l next : List Nat} (h : PlainLine l) (hn : ¬ Names name l) (hx : ∃ y t, next = y :: t ∧ isEol y = false) (hlen : name.length + 1 < next.length) :
    findLoop name (l ++ [13, 10] ++ next) = findLoop name next := by
  obtain ⟨y, t, rfl, hy⟩ := hx
  have e : l ++ [13, 10] ++ y :: t = l ++ 13 :: (10 :: y :: t) := by simp
  rw [findLoop, if_pos (by simp only [List.length_append]; omega), e, line_takeWhile h]
  simp only
  rw [if_neg]
  · have hd : (List.drop l.length (l ++ 13 :: 10 :: y :: t)).dropWhile isEol = y :: t := by
      rw [List.drop_left]
      simp [List.dropWhile_cons, isEol]
      intro h
      simp [isEol] at hy
      omega
    rw [hd, dif_neg (by simp only [List.length_append, List.length_cons]; omega)]
  · rintro ⟨h1, h2, h3⟩
    refine hn ⟨l.take name.length, l.drop (name.length + 1), ?_, h3⟩
    obtain ⟨hlt, he⟩ := List.getElem?_eq_some_iff.1 h2
    rw [← he, ← List.drop_eq_getElem_cons hlt, List.take_append_drop]

theorem findLoop_found {name a v r : List Nat} (h : PlainLine (a ++ 58 :: v)) (ha : a.map lowerB = name.map lowerB) : findLoop name ((a ++ 58 :: v) ++ 13 :: r) = trimB v := by
  have hl : a.length = name.length := by simpa using congrArg List.length ha
  rw [findLoop, if_pos (by simp only [List.length_append, List.length_cons]; omega), line_takeWhile h]
  simp only
  rw [if_pos ⟨by simp only [List.length_append, List.length_cons]; omega, by rw [← hl]; simp, by rw [← hl, List.take_left]; exact ha⟩]
  congr 1
  rw [← hl]
  simp

theorem findLoop_lines {name a v r : List Nat} (ha : a.map lowerB = name.map lowerB) (hc : PlainLine (a ++ 58 :: v)) (before : List (List Nat)) (hb : ∀ l ∈ before, PlainLine l ∧ ¬ Names name l) :
    findLoop name (joinLines before ++ (a ++ 58 :: v) ++ 13 :: r) = trimB v := by
  have hl : a.length = name.length := by simpa using congrArg List.length ha
  induction before with
  | nil => exact findLoop_found hc ha
  | cons l ls ih =>
    have e : joinLines (l :: ls) ++ (a ++ 58 :: v) ++ 13 :: r = l ++ [13, 10] ++ (joinLines ls ++ (a ++ 58 :: v) ++ 13 :: r) := by simp [joinLines]
    have plain : ∀ k : List Nat, PlainLine k → ∀ z, ∃ y t, k ++ z = y :: t ∧ isEol y = false := by
      intro k hk z
      obtain ⟨y, t, rfl⟩ := List.exists_cons_of_ne_nil hk.1
      have := hk.2 y (by simp)
      exact ⟨y, t ++ z, rfl, by simp [isEol, this]⟩
    rw [e, findLoop_skip (hb l (by simp)).1 (hb l (by simp)).2, ih fun k hk => hb k (by simp [hk])]
    · cases ls with
      | nil => simpa [joinLines] using plain _ hc (13 :: r)
      | cons m ms =>
        have := plain m (hb m (by simp)).1 ([13, 10] ++ (joinLines ms ++ (a ++ 58 :: v) ++ 13 :: r))
        simpa [joinLines] using this
    · simp only [List.length_append, List.length_cons]
      omega

theorem dropWhile_id {p : Nat → Bool} {l : List Nat} (h : ∀ c ∈ l, p c = false) : l.dropWhile p = l := by
  cases l with
  | nil => rfl
  | cons c l => rw [List.dropWhile_cons, if_neg (by rw [h c (by simp)]; simp)]

theorem trimB_value {v : List Nat} (h : ∀ c ∈ v, isBlankB c = false) : trimB (32 :: v) = v := by
  unfold trimB
  rw [List.dropWhile_cons, if_pos (by decide), dropWhile_id h, dropWhile_id (fun c hc => h c (by simpa using hc)), List.reverse_reverse]

theorem foldl_dec (n : Nat) : ((decStr n).map Char.toNat).foldl (fun a c => 10 * a + (c - 48)) 0 = n := by
  have key : ∀ l : List Nat, (∀ c ∈ l, 48 ≤ c ∧ c ≤ 57) → ∀ a, readDigits (l ++ [0]) a = some (l.foldl (fun a c => 10 * a + (c - 48)) a) := by
    intro l
    induction l with
    | nil => intro _ a; rfl
    | cons c l ih =>
      intro h a
      rw [List.cons_append, readDigits, if_pos (h c (by simp)), ih fun d hd => h d (by simp [hd])]
      rfl
  obtain ⟨k, hk⟩ := readDigits_dec n [0] 0
  rw [key _ (decStr_bytes n)] at hk
  simpa [readDigits] using hk

theorem postLength_dec (n : Nat) (sign : List Nat) (hs : sign = [] ∨ sign = [43] ∨ sign = [45]) :
    postLength (sign ++ (decStr n).map Char.toNat) = some (if 2 ^ 64 ≤ n then 2 ^ 64 - 1 else if sign = [45] then (2 ^ 64 - n) % 2 ^ 64 else n) := by
  have hf := foldl_dec n
  have hb := decStr_bytes n
  have hne : (decStr n).map Char.toNat ≠ [] := by simpa using (decStr_spec n).2.2.1
  generalize (decStr n).map Char.toNat = l at hf hb hne
  have ht : l.takeWhile (fun c => decide (48 ≤ c ∧ c ≤ 57)) = l := takeWhile_id fun c hc => by simpa using hb c hc
  obtain ⟨c, r, rfl⟩ := List.exists_cons_of_ne_nil hne
  have hc := hb c (by simp)
  have hz : ∀ d ∈ sign ++ c :: r, d ≠ 0 := by
    intro d hd
    rcases List.mem_append.1 hd with h | h
    · rcases hs with rfl | rfl | rfl <;> simp at h <;> omega
    · have := hb d h; omega
  have hw : ∀ d, (sign ++ c :: r).head? = some d → isWs d = false := by
    intro d hd
    rcases hs with rfl | rfl | rfl <;> simp at hd <;> subst hd <;> simp [isWs]
    omega
  have hdw : (sign ++ c :: r).dropWhile isWs = sign ++ c :: r := by
    cases hl : sign ++ c :: r with
    | nil => rfl
    | cons d t => rw [List.dropWhile_cons, if_neg (by rw [hw d (by rw [hl]; rfl)]; simp)]
  unfold postLength
  rw [cStr_eq hz, hdw]
  rcases hs with rfl | rfl | rfl
  · have h1 : c ≠ 43 := by omega
    have h2 : c ≠ 45 := by omega
    simp only [List.nil_append, List.head?_cons, Option.some.injEq, h1, h2, or_self, if_false, ht, List.drop_length, hf]
    simp
  · simp only [List.cons_append, List.nil_append, List.head?_cons, true_or, if_true, List.drop_succ_cons, List.drop_zero, ht, List.drop_length, hf]
    simp
  · simp only [List.cons_append, List.nil_append, List.head?_cons, or_true, if_true, List.drop_succ_cons, List.drop_zero, ht, List.drop_length, hf]
    simp

/-- A POST request: a path, lines before and after the header with the length, and a body. -/
structure Request where
  path : List Nat
  version : List Nat
  before : List (List Nat)
  name : List Nat
  after : List (List Nat)
  body : List Nat

/-- The bytes of the head with the given value of the length, without the empty line. -/
def Request.lines (r : Request) (v : List Nat) : List (List Nat) := (asc "POST " ++ r.path ++ 32 :: r.version) :: (r.before ++ [r.name ++ 58 :: 32 :: v] ++ r.after)

/-- The bytes of the request. -/
def Request.bytes (r : Request) (v : List Nat) : List Nat := joinLines (r.lines v) ++ [13, 10] ++ r.body

/-- What makes it a request: no blank in the path, no line breaks in lines, the header has its name in either case, no other header of the name comes before it, and the head fits. -/
structure Request.Ok (r : Request) (v : List Nat) : Prop where
  path_plain : ∀ c ∈ r.path, c ≠ 0 ∧ c ≠ 10 ∧ c ≠ 13 ∧ c ≠ 32
  version_plain : ∀ c ∈ r.version, c ≠ 0 ∧ c ≠ 10 ∧ c ≠ 13
  before_plain : ∀ l ∈ r.before, PlainLine l ∧ ¬ Names (asc "Content-Length") l
  name_ok : (∀ c ∈ r.name, c ≠ 0 ∧ c ≠ 10 ∧ c ≠ 13) ∧ r.name.map lowerB = asc "content-length"
  after_plain : ∀ l ∈ r.after, PlainLine l
  fits : (joinLines (r.lines v)).length + 2 ≤ 65536

theorem asc_post : asc "POST " = [80, 79, 83, 84, 32] ∧ asc "OPTIONS " = [79, 80, 84, 73, 79, 78, 83, 32] := by decide +kernel

theorem request_head (r : Request) (v : List Nat) (h : r.Ok v) (hv : ∀ c ∈ v, c ≠ 0 ∧ c ≠ 10 ∧ c ≠ 13 ∧ isBlankB c = false) :
    ∃ b, FirstEnd (r.bytes v) b ∧ b + 4 ≤ 65536 ∧ (r.bytes v).drop (b + 4) = r.body ∧ findHeader (asc "Content-Length") ((r.bytes v).take (b + 4)) = v ∧
      reqLine ((r.bytes v).take (b + 4)) = some (80 :: 79 :: 83 :: 84 :: 32 :: (r.path ++ 32 :: r.version)) ∧ (r.bytes v).take (b + 4) ≠ [] := by
  have hcl : PlainLine (r.name ++ 58 :: 32 :: v) := by
    refine ⟨by simp, fun c hc => ?_⟩
    simp only [List.mem_append, List.mem_cons] at hc
    rcases hc with hc | rfl | rfl | hc
    · exact h.name_ok.1 c hc
    · omega
    · omega
    · have := hv c hc
      exact ⟨this.1, this.2.1, this.2.2.1⟩
  have hrl : PlainLine (asc "POST " ++ r.path ++ 32 :: r.version) := by
    refine ⟨by simp, fun c hc => ?_⟩
    rw [asc_post.1] at hc
    simp only [List.mem_append, List.mem_cons, List.not_mem_nil, or_false] at hc
    rcases hc with (hc | hc) | hc | hc
    · omega
    · have := h.path_plain c hc
      exact ⟨this.1, this.2.1, this.2.2.1⟩
    · omega
    · exact h.version_plain c hc
  have hall : ∀ l ∈ r.lines v, PlainLine l := by
    intro l hl
    unfold Request.lines at hl
    simp only [List.mem_cons, List.mem_append, List.not_mem_nil, or_false] at hl
    rcases hl with rfl | (hl | rfl) | hl
    · exact hrl
    · exact (h.before_plain l hl).1
    · exact hcl
    · exact h.after_plain l hl
  have he := headEnd_lines (r.lines v) r.body (by simp [Request.lines]) hall
  have hlen : 2 ≤ (joinLines (r.lines v)).length := by simp [Request.lines, joinLines]; omega
  have hb4 : (joinLines (r.lines v)).length - 2 + 4 = (joinLines (r.lines v) ++ [13, 10]).length := by simp; omega
  refine ⟨_, headEnd_some he, by have := h.fits; omega, ?_⟩
  unfold Request.bytes
  rw [hb4, List.drop_left, List.take_left]
  have hsplit : joinLines (r.lines v) ++ [13, 10] = (asc "POST " ++ r.path ++ 32 :: r.version) ++ 13 :: 10 :: (joinLines r.before ++ (r.name ++ 58 :: 32 :: v) ++ 13 :: (10 :: (joinLines r.after ++ [13, 10]))) := by
    simp [Request.lines, joinLines]
  refine ⟨rfl, ?_, ?_, by simp⟩
  · unfold findHeader
    rw [hsplit]
    have hd : ((asc "POST " ++ r.path ++ 32 :: r.version) ++ 13 :: 10 :: (joinLines r.before ++ (r.name ++ 58 :: 32 :: v) ++ 13 :: (10 :: (joinLines r.after ++ [13, 10])))).dropWhile (fun c => decide (c ≠ 10)) =
        10 :: (joinLines r.before ++ (r.name ++ 58 :: 32 :: v) ++ 13 :: (10 :: (joinLines r.after ++ [13, 10]))) := by
      rw [List.dropWhile_append_of_pos (fun c hc => by simpa using (hrl.2 c hc).2.1)]
      simp
    rw [hd, List.drop_succ_cons, List.drop_zero, findLoop_lines (by rw [h.name_ok.2]; decide +kernel) hcl _ h.before_plain, trimB_value fun c hc => (hv c hc).2.2.2]
  · unfold reqLine
    rw [if_pos (by simp), hsplit, List.takeWhile_append_of_pos (fun c hc => by simpa using (hrl.2 c hc).2.2), asc_post.1]
    simp

theorem admit_request (raw path version v : List Nat) (hraw : raw ≠ []) (hl : reqLine raw = some (80 :: 79 :: 83 :: 84 :: 32 :: (path ++ 32 :: version))) (hp : ∀ c ∈ path, c ≠ 32)
    (hv : findHeader (asc "Content-Length") raw = v) (hv0 : v ≠ []) :
    admit raw = match postLength v with
      | none => .error .bad
      | some n => if 16 * 1024 * 1024 < n then .error .tooLarge else .ok (path, n) := by
  unfold admit
  rw [if_neg (by simpa using hraw), hl]
  simp only
  rw [asc_post.1, asc_post.2, if_neg (by simp), if_neg (by simp), if_pos (by simp), hv, if_neg hv0]
  have : (List.drop 5 (80 :: 79 :: 83 :: 84 :: 32 :: (path ++ 32 :: version))).takeWhile (fun c => decide (c ≠ 32)) = path := by
    simp only [List.drop_succ_cons, List.drop_zero]
    rw [List.takeWhile_append_of_pos (fun c hc => by simpa using hp c hc)]
    simp
  rw [this]
  cases postLength v <;> rfl

theorem post_request (r : Request) (n : Nat) (sign : List Nat) (hs : sign = [] ∨ sign = [43] ∨ sign = [45]) (h : r.Ok (sign ++ (decStr n).map Char.toNat)) (m : Nat)
    (hm : m = if 2 ^ 64 ≤ n then 2 ^ 64 - 1 else if sign = [45] then (2 ^ 64 - n) % 2 ^ 64 else n) (plan : List Nat) :
    post ⟨r.bytes (sign ++ (decStr n).map Char.toNat), plan⟩ =
      some (if 16 * 1024 * 1024 < m then .tooLarge else if m ≤ r.body.length then .query r.path (r.body.take m) else .bad) := by
  have hne : sign ++ (decStr n).map Char.toNat ≠ [] := by
    have : (decStr n).map Char.toNat ≠ [] := by simpa using (decStr_spec n).2.2.1
    simp [this]
  have hv : ∀ c ∈ sign ++ (decStr n).map Char.toNat, c ≠ 0 ∧ c ≠ 10 ∧ c ≠ 13 ∧ isBlankB c = false := by
    intro c hc
    rcases List.mem_append.1 hc with hc | hc
    · rcases hs with rfl | rfl | rfl <;> simp at hc <;> subst hc <;> decide
    · have := decStr_bytes n c hc
      refine ⟨by omega, by omega, by omega, ?_⟩
      simp [isBlankB]
      omega
  obtain ⟨b, h1, h2, h3, h4, h5, h6⟩ := request_head r _ h hv
  rw [C85_post_cut _ plan b h1 h2 (by rw [h4]; exact hne), admit_request _ _ _ _ h6 h5 (fun c hc => (h.path_plain c hc).2.2.2) h4 hne, postLength_dec n sign hs, ← hm, h3]
  by_cases a : 16 * 1024 * 1024 < m
  · simp only [if_pos a]
  · simp only [if_neg a]

/-- **C85.** A POST request with a length of at most 16 MB: however it arrives, the query is the announced number of bytes of the body; if the body is shorter, the answer is 400, and 413 for
larger lengths, whatever comes. -/
theorem C85_post_request (r : Request) (n : Nat) (h : r.Ok ((decStr n).map Char.toNat)) (plan : List Nat) :
    post ⟨r.bytes ((decStr n).map Char.toNat), plan⟩ =
      some (if 16 * 1024 * 1024 < n then .tooLarge else if n ≤ r.body.length then .query r.path (r.body.take n) else .bad) := by
  have := post_request r n [] (Or.inl rfl) (by simpa using h) _ rfl plan
  simp only [List.nil_append] at this
  rw [this]
  by_cases hn : 2 ^ 64 ≤ n
  · rw [if_pos hn, if_pos (by decide), if_pos (by omega)]
  · rw [if_neg hn]
    simp only [reduceCtorEq, if_false]

/-- **C85.** The length may be negative: `-n` is taken for `2^64 - n`, so that `-18446744073709551613` announces three bytes. -/
theorem C85_negative_length (r : Request) (n : Nat) (hn : 2 ^ 64 - 16 * 1024 * 1024 ≤ n) (hn' : n < 2 ^ 64) (h : r.Ok (45 :: (decStr n).map Char.toNat)) (hb : 2 ^ 64 - n ≤ r.body.length) (plan : List Nat) :
    post ⟨r.bytes (45 :: (decStr n).map Char.toNat), plan⟩ = some (.query r.path (r.body.take (2 ^ 64 - n))) := by
  have := post_request r n [45] (Or.inr (Or.inr rfl)) h (2 ^ 64 - n) (by rw [if_neg (by omega), if_pos rfl]; omega) plan
  simp only [List.cons_append, List.nil_append] at this
  rw [this, if_neg (by omega), if_pos hb]

/-- **C85.** Only a number is accepted as the length: up to a zero byte, the value is white space, a sign or none, and digits. -/
theorem C85_length_is_number (v : List Nat) (n : Nat) (h : postLength v = some n) :
    ∃ w s ds, v.takeWhile (· ≠ 0) = w ++ s ++ ds ∧ (∀ c ∈ w, isWs c = true) ∧ (s = [] ∨ s = [43] ∨ s = [45]) ∧ ds ≠ [] ∧ ∀ c ∈ ds, 48 ≤ c ∧ c ≤ 57 := by
  unfold postLength at h
  simp only at h
  have hw := List.takeWhile_append_dropWhile (p := isWs) (l := cStr v)
  generalize hl : (cStr v).dropWhile isWs = l at h hw
  generalize hd : (if l.head? = some 43 ∨ l.head? = some 45 then l.drop 1 else l) = d at h
  have hs : ∃ s, (s = [] ∨ s = [43] ∨ s = [45]) ∧ l = s ++ d := by
    subst hd
    cases l with
    | nil => exact ⟨[], Or.inl rfl, by simp⟩
    | cons a l =>
      by_cases ha : a = 43 ∨ a = 45
      · exact ⟨[a], by rcases ha with rfl | rfl <;> simp, by rw [if_pos (by simpa using ha)]; rfl⟩
      · exact ⟨[], Or.inl rfl, by rw [if_neg (by simpa using ha)]; rfl⟩
  obtain ⟨s, h1, h2⟩ := hs
  by_cases e1 : d.takeWhile (fun c => decide (48 ≤ c ∧ c ≤ 57)) = []
  · rw [if_pos e1] at h
    cases h
  · rw [if_neg e1] at h
    by_cases e2 : d.drop (d.takeWhile (fun c => decide (48 ≤ c ∧ c ≤ 57))).length ≠ []
    · rw [if_pos e2] at h
      cases h
    · push Not at e2
      have hall : d.takeWhile (fun c => decide (48 ≤ c ∧ c ≤ 57)) = d := (List.takeWhile_prefix _).eq_of_length_le (List.drop_eq_nil_iff.1 e2)
      refine ⟨(cStr v).takeWhile isWs, s, d, ?_, fun c hc => List.mem_takeWhile_imp hc, h1, by rwa [hall] at e1, fun c hc => ?_⟩
      · rw [List.append_assoc, ← h2, hw]
        rfl
      · rw [← hall] at hc
        simpa using List.mem_takeWhile_imp hc

/-- **C85.** What follows a zero byte in the value is not looked at. -/
theorem C85_zero_in_length (a b : List Nat) : postLength (a ++ 0 :: b) = postLength a := by
  have : cStr (a ++ 0 :: b) = cStr a := by
    unfold cStr
    induction a with
    | nil => simp
    | cons c a ih =>
      rw [List.cons_append, List.takeWhile_cons, List.takeWhile_cons, ih]
  unfold postLength
  rw [this]

/-! ### The hypotheses are met -/

/-- A request with another header before the length. -/
def sampleRequest : Request := ⟨asc "/jpip", asc "HTTP/1.1", [asc "Host: a"], asc "content-LENGTH", [asc "Accept: b"], asc "fsiz=1,1&more"⟩

theorem sample_ok (v : List Nat) (hv : v.length ≤ 30) : sampleRequest.Ok v := by
  refine ⟨by decide +kernel, by decide +kernel, ?_, by decide +kernel, by decide +kernel, ?_⟩
  · intro l hl
    obtain rfl : l = asc "Host: a" := by simpa [sampleRequest] using hl
    refine ⟨by decide +kernel, ?_⟩
    rintro ⟨a, w, h1, h2⟩
    have h3 := congrArg List.length h1
    have h4 := congrArg List.length h2
    have h5 : (asc "Host: a").length = 7 := by decide +kernel
    have h6 : (asc "Content-Length").length = 14 := by decide +kernel
    simp only [List.length_map, List.length_append, List.length_cons] at h3 h4
    omega
  · have e : (joinLines (sampleRequest.lines v)).length = 59 + v.length := by
      have h1 : sampleRequest.path.length = 5 := by decide +kernel
      have h2 : sampleRequest.version.length = 8 := by decide +kernel
      have h3 : (joinLines sampleRequest.before).length = 9 := by decide +kernel
      have h4 : (joinLines sampleRequest.after).length = 11 := by decide +kernel
      have h5 : sampleRequest.name.length = 14 := by decide +kernel
      have h6 : (asc "POST ").length = 5 := by decide +kernel
      unfold joinLines at h3 h4
      simp only [joinLines, Request.lines, List.flatMap_cons, List.flatMap_append, List.flatMap_nil, List.length_append, List.length_cons, List.length_nil, h1, h2, h3, h4, h5, h6]
      omega
    omega

example (plan : List Nat) : post ⟨sampleRequest.bytes (asc "8"), plan⟩ = some (.query (asc "/jpip") (asc "fsiz=1,1")) := by
  have e : asc "8" = (decStr 8).map Char.toNat := by decide +kernel
  rw [e, C85_post_request _ 8 (sample_ok _ (by decide +kernel))]
  decide +kernel

example (plan : List Nat) : post ⟨sampleRequest.bytes (asc "-18446744073709551613"), plan⟩ = some (.query (asc "/jpip") (asc "fsi")) := by
  have e : asc "-18446744073709551613" = 45 :: (decStr 18446744073709551613).map Char.toNat := by decide +kernel
  rw [e, C85_negative_length _ _ (by decide) (by decide) (sample_ok _ (by decide +kernel)) (by decide +kernel)]
  decide +kernel

end Verif.Jpip
