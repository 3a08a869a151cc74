import Verif.Jpip.PropsChunked

/-!
# C16, continued: the decoder for a complete body accepts exactly the chunked bodies

The grammar of RFC 7230, section 4.1 is written down here without reference to the decoder.
-/

namespace Verif.Jpip

/-- The byte `c` is the hexadecimal digit of value `v`, in either case. -/
def IsHex (c v : Nat) : Prop :=
  ("0123456789abcdef".toList.map Char.toNat)[v]? = some c ∨ ("0123456789ABCDEF".toList.map Char.toNat)[v]? = some c

/-- The digits `ds` write the number `n` in base 16. -/
def HexNumber (ds : List Nat) (n : Nat) : Prop :=
  ∃ vs, List.Forall₂ IsHex ds vs ∧ vs.foldl (fun a v => 16 * a + v) 0 = n

/-- CR LF. -/
def crlf : List Nat := [13, 10]

/-- A size line without its end: digits, then nothing or an extension. -/
def IsSizeLine (ds ext : List Nat) (n : Nat) : Prop :=
  ds ≠ [] ∧ HexNumber ds n ∧ (ext = [] ∨ ∃ e, ext = 59 :: e) ∧ ¬ crlf <:+: ds ++ ext

/-- `text` begins with a chunked body that carries `data`. -/
inductive ChunkedBody : List Nat → List Nat → Prop
  | last {ds ext : List Nat} {lines : List (List Nat)} {rest : List Nat} (h : IsSizeLine ds ext 0)
      (hl : ∀ l ∈ lines, l ≠ [] ∧ ¬ crlf <:+: l) :
      ChunkedBody (ds ++ ext ++ crlf ++ (lines.flatMap (· ++ crlf)) ++ crlf ++ rest) []
  | chunk {ds ext data text out : List Nat} (h : IsSizeLine ds ext data.length) (hne : data ≠ []) (ht : ChunkedBody text out) :
      ChunkedBody (ds ++ ext ++ crlf ++ data ++ crlf ++ text) (data ++ out)

/-! ### Lines -/

/-- The text before and after the first CR LF. -/
def splitCrlf : List Nat → Option (List Nat × List Nat)
  | [] => none
  | [_] => none
  | a :: b :: r => if a = 13 ∧ b = 10 then some ([], r) else (splitCrlf (b :: r)).map fun p => (a :: p.1, p.2)

theorem splitCrlf_eq (l : List Nat) : ∀ a r, splitCrlf l = some (a, r) → l = a ++ crlf ++ r ∧ ¬ crlf <:+: a := by
  induction l using splitCrlf.induct with
  | case1 => simp [splitCrlf]
  | case2 => simp [splitCrlf]
  | case3 a b r h =>
    intro x y e
    rw [splitCrlf, if_pos h] at e
    cases e
    rw [h.1, h.2]
    exact ⟨rfl, by simp [crlf]⟩
  | case4 a b r h ih =>
    intro x y e
    rw [splitCrlf, if_neg h] at e
    cases hs : splitCrlf (b :: r) with
    | none => rw [hs] at e; simp at e
    | some p =>
      rw [hs] at e
      cases e
      obtain ⟨h1, h2⟩ := ih p.1 p.2 hs
      refine ⟨by rw [h1]; simp, ?_⟩
      rw [List.infix_cons_iff, not_or]
      refine ⟨?_, h2⟩
      intro hp
      rw [crlf, List.cons_prefix_cons] at hp
      cases hq : p.1 with
      | nil => rw [hq] at hp; simp at hp
      | cons c cs =>
        rw [hq] at hp h1
        rw [List.cons_append, List.cons_append, List.cons.injEq] at h1
        rw [List.cons_prefix_cons] at hp
        exact h ⟨hp.1.symm, by rw [h1.1]; exact hp.2.1.symm⟩

theorem splitCrlf_line (a r : List Nat) (h : ¬ crlf <:+: a) : splitCrlf (a ++ crlf ++ r) = some (a, r) := by
  induction a with
  | nil => simp [crlf, splitCrlf]
  | cons c cs ih =>
    rw [List.infix_cons_iff, not_or] at h
    have := ih h.2
    cases cs with
    | nil =>
      rw [List.nil_append] at this
      show splitCrlf (c :: 13 :: 10 :: r) = _
      rw [splitCrlf, if_neg (by omega)]
      rw [show 13 :: 10 :: r = crlf ++ r from rfl, this]
      rfl
    | cons b bs =>
      rw [List.cons_append, List.cons_append] at this
      rw [List.cons_append, List.cons_append, List.cons_append, List.cons_append, splitCrlf, if_neg, this]
      · rfl
      · rintro ⟨rfl, rfl⟩
        exact h.1 (by simp [crlf])

theorem crlfAt_drop (d : List Nat) (p a b : Nat) (r : List Nat) (h : d.drop p = a :: b :: r) :
    crlfAt d p = some (decide (a = 13 ∧ b = 10)) := by
  have h0 : d[p]? = some a := by rw [← List.head?_drop, h]; rfl
  have h1 : d[p + 1]? = some b := by
    have := List.getElem?_drop (xs := d) (i := p) (j := 1)
    rw [← this, h]; rfl
  unfold crlfAt
  rw [h0, h1]
  simp only [Option.bind_eq_bind, Option.bind_some]
  by_cases h : a = 13
  · simp [h]
  · simp [h]

theorem lineEnd_split (d : List Nat) (f p : Nat) (hf : d.length < f + p) (hp : p ≤ d.length) (h0 : 0 < f) :
    (∀ a r, splitCrlf (d.drop p) = some (a, r) → lineEnd d f p = some (p + a.length)) ∧
    (splitCrlf (d.drop p) = none → ∃ e, lineEnd d f p = some e ∧ d.length ≤ e + 1) := by
  induction f generalizing p with
  | zero => omega
  | succ f ih =>
    have hlen : (d.drop p).length = d.length - p := List.length_drop
    match hd : d.drop p with
    | [] =>
      rw [hd] at hlen
      refine ⟨by simp [splitCrlf], fun _ => ⟨p, ?_, ?_⟩⟩
      · rw [lineEnd, if_neg (by simp at hlen; omega)]
      · simp at hlen; omega
    | [x] =>
      rw [hd] at hlen
      refine ⟨by simp [splitCrlf], fun _ => ⟨p, ?_, ?_⟩⟩
      · rw [lineEnd, if_neg (by simp at hlen; omega)]
      · simp at hlen; omega
    | a :: b :: r =>
      rw [hd] at hlen
      simp only [List.length_cons] at hlen
      have hd1 : d.drop (p + 1) = b :: r := by
        rw [← List.drop_drop, hd]; rfl
      rw [lineEnd, if_pos (by omega), crlfAt_drop d p a b r hd, splitCrlf]
      simp only [Option.bind_eq_bind, Option.bind_some]
      by_cases h : a = 13 ∧ b = 10
      · rw [if_pos h, if_pos (by simpa using h)]
        refine ⟨?_, by simp⟩
        intro x y e
        cases e
        rfl
      · rw [if_neg h, if_neg (by simpa using h)]
        obtain ⟨i1, i2⟩ := ih (p + 1) (by omega) (by omega) (by omega)
        rw [hd1] at i1 i2
        cases hs : splitCrlf (b :: r) with
        | none => exact ⟨by simp, fun _ => i2 hs⟩
        | some q =>
          refine ⟨?_, by simp⟩
          intro x y e
          cases e
          rw [i1 q.1 q.2 hs, List.length_cons]
          congr 1
          omega

/-! ### Sizes -/

theorem isHex_iff (c v : Nat) : IsHex c v ↔ hexVal c = some v := by
  have hl : "0123456789abcdef".toList.map Char.toNat = [48, 49, 50, 51, 52, 53, 54, 55, 56, 57, 97, 98, 99, 100, 101, 102] := by decide
  have hu : "0123456789ABCDEF".toList.map Char.toNat = [48, 49, 50, 51, 52, 53, 54, 55, 56, 57, 65, 66, 67, 68, 69, 70] := by decide
  unfold IsHex hexVal
  rw [hl, hu]
  constructor
  · intro h
    have hv : v < 16 := by
      rcases h with h | h <;> exact (List.getElem?_eq_some_iff.1 h).1
    interval_cases v <;> simp at h <;> rcases h with rfl | rfl <;> rfl
  · intro h
    split_ifs at h with h1 h2 h3
    · obtain ⟨h4, h5⟩ := h1
      interval_cases c <;> (cases h; decide)
    · obtain ⟨h4, h5⟩ := h2
      interval_cases c <;> (cases h; decide)
    · obtain ⟨h4, h5⟩ := h3
      interval_cases c <;> (cases h; decide)

theorem hexVal_lt (c v : Nat) (h : hexVal c = some v) : v < 16 := by
  unfold hexVal at h
  split_ifs at h <;> cases h <;> omega

theorem foldl_ge (vs : List Nat) (acc : Nat) : acc ≤ vs.foldl (fun a v => 16 * a + v) acc := by
  induction vs generalizing acc with
  | nil => exact le_rfl
  | cons v vs ih => exact le_trans (by omega) (ih (16 * acc + v))

/-- The size is read exactly when it is below 2^64. -/
theorem sizeOf_iff (ds : List Nat) (acc n : Nat) (ha : acc < 2 ^ 64) :
    sizeOf ds acc = some n ↔ n < 2 ^ 64 ∧ ∃ vs, List.Forall₂ IsHex ds vs ∧ vs.foldl (fun a v => 16 * a + v) acc = n := by
  induction ds generalizing acc with
  | nil =>
    simp only [sizeOf, Option.some.injEq, List.forall₂_nil_left_iff, exists_eq_left, List.foldl_nil]
    constructor
    · rintro rfl; exact ⟨ha, rfl⟩
    · exact fun h => h.2
  | cons c cs ih =>
    rw [sizeOf]
    cases hc : hexVal c with
    | none =>
      simp only [reduceCtorEq, false_iff]
      rintro ⟨-, vs, h, -⟩
      cases h with
      | cons h _ => rw [isHex_iff, hc] at h; simp at h
    | some v =>
      have hv := hexVal_lt c v hc
      simp only
      by_cases hb : (2 ^ 64 - 1) >>> 4 < acc
      · rw [if_pos hb]
        simp only [reduceCtorEq, false_iff]
        rintro ⟨hn, vs, h, e⟩
        cases h with
        | cons h1 h2 =>
          rename_i w ws
          have := foldl_ge ws (16 * acc + w)
          rw [List.foldl_cons] at e
          rw [Nat.shiftRight_eq_div_pow] at hb
          omega
      · rw [if_neg hb, shift_or _ _ hv]
        rw [Nat.shiftRight_eq_div_pow] at hb
        rw [Nat.mod_eq_of_lt (by omega), ih _ (by omega)]
        constructor
        · rintro ⟨hn, vs, h, e⟩
          exact ⟨hn, v :: vs, List.Forall₂.cons ((isHex_iff c v).2 hc) h, e⟩
        · rintro ⟨hn, vs, h, e⟩
          cases h with
          | cons h1 h2 =>
            rw [isHex_iff, hc] at h1
            cases h1
            exact ⟨hn, _, h2, e⟩

/-- The digits of a size line and what follows them. -/
theorem sizeEnd_takeWhile (d line : List Nat) (f p : Nat) (r : List Nat) (h : d.drop p = line ++ r) (hf : line.length < f) :
    sizeEnd d (p + line.length) f p = some (p + (line.takeWhile (· ≠ 59)).length) := by
  induction line generalizing f p with
  | nil =>
    cases f with
    | zero => simp at hf
    | succ f => rw [sizeEnd, if_neg (by simp)]; rfl
  | cons c cs ih =>
    cases f with
    | zero => simp at hf
    | succ f =>
      have h0 : d[p]? = some c := by rw [← List.head?_drop, h]; rfl
      have h1 : d.drop (p + 1) = cs ++ r := by rw [← List.drop_drop, h]; rfl
      rw [sizeEnd, if_pos (by simp), h0]
      simp only [Option.bind_eq_bind, Option.bind_some]
      by_cases hc : c = 59
      · rw [if_neg (by simpa using hc)]
        simp [hc]
      · rw [if_pos (by simpa using hc), List.length_cons, show p + (cs.length + 1) = p + 1 + cs.length by omega,
          ih f (p + 1) h1 (by simpa using hf)]
        simp [hc]
        omega

/-! ### The decoder on the text itself -/

/-- Are there lines up to an empty one? -/
inductive HasTrailer : List Nat → Prop
  | stop {r : List Nat} : HasTrailer (crlf ++ r)
  | line {l r : List Nat} (h0 : l ≠ []) (h : ¬ crlf <:+: l) (hr : HasTrailer r) : HasTrailer (l ++ crlf ++ r)

theorem hasTrailer_iff (t : List Nat) : HasTrailer t ↔ ∃ (lines : List (List Nat)) (rest : List Nat),
    (∀ l ∈ lines, l ≠ [] ∧ ¬ crlf <:+: l) ∧ t = (lines.flatMap (· ++ crlf)) ++ crlf ++ rest := by
  constructor
  · intro h
    induction h with
    | @stop r => exact ⟨[], r, by simp, by simp⟩
    | @line l r h0 h hr ih =>
      obtain ⟨ls, rest, h1, rfl⟩ := ih
      refine ⟨l :: ls, rest, ?_, by simp⟩
      intro x hx
      rcases List.mem_cons.1 hx with rfl | hx
      · exact ⟨h0, h⟩
      · exact h1 x hx
  · rintro ⟨ls, rest, h1, rfl⟩
    induction ls with
    | nil => exact .stop
    | cons l ls ih =>
      have := HasTrailer.line (h1 l (by simp)).1 (h1 l (by simp)).2 (ih fun x hx => h1 x (List.mem_cons_of_mem _ hx))
      simpa using this

theorem hasTrailer_split (t : List Nat) : HasTrailer t ↔ ∃ a r, splitCrlf t = some (a, r) ∧ (a = [] ∨ HasTrailer r) := by
  constructor
  · intro h
    cases h with
    | @stop r => exact ⟨[], r, splitCrlf_line [] r (by simp [crlf]), .inl rfl⟩
    | @line l r h0 h hr => exact ⟨l, r, splitCrlf_line l r h, .inr hr⟩
  · rintro ⟨a, r, h, hr⟩
    obtain ⟨rfl, h2⟩ := splitCrlf_eq t a r h
    by_cases h0 : a = []
    · subst h0; exact .stop
    · rcases hr with h | h
      · exact absurd h h0
      · exact .line h0 h2 h

theorem trailers_iff (d : List Nat) (f i : Nat) (hf : d.length < f + i) (hi : i ≤ d.length) :
    ∃ v, trailers d f i = some v ∧ (v = true ↔ HasTrailer (d.drop i)) := by
  induction f generalizing i with
  | zero => omega
  | succ f ih =>
    have hlen : (d.drop i).length = d.length - i := List.length_drop
    rw [hasTrailer_split]
    match hd : d.drop i with
    | [] =>
      rw [hd] at hlen
      refine ⟨false, ?_, by simp [splitCrlf]⟩
      rw [trailers, if_neg (by simp at hlen; omega)]
    | [x] =>
      rw [hd] at hlen
      refine ⟨false, ?_, by simp [splitCrlf]⟩
      rw [trailers, if_neg (by simp at hlen; omega)]
    | a :: b :: r =>
      rw [hd] at hlen
      simp only [List.length_cons] at hlen
      rw [trailers, if_pos (by omega), crlfAt_drop d i a b r hd]
      simp only [Option.bind_eq_bind, Option.bind_some]
      by_cases h : a = 13 ∧ b = 10
      · rw [if_pos (by simpa using h)]
        exact ⟨true, rfl, by simp [splitCrlf, h]⟩
      · rw [if_neg (by simpa using h)]
        obtain ⟨l1, l2⟩ := lineEnd_split d (d.length + 1) i (by omega) hi (by omega)
        rw [hd] at l1 l2
        cases hs : splitCrlf (a :: b :: r) with
        | none =>
          obtain ⟨e, he, hle⟩ := l2 hs
          rw [he]
          simp only [Option.bind_some]
          rw [if_pos hle]
          exact ⟨false, rfl, by simp⟩
        | some q =>
          rw [l1 q.1 q.2 hs]
          obtain ⟨q1, q2⟩ := splitCrlf_eq _ _ _ hs
          have hl := congrArg List.length q1
          simp only [List.length_cons, List.length_append, crlf, List.length_nil] at hl
          simp only [Option.bind_some]
          rw [if_neg (by omega)]
          obtain ⟨v, hv, hi⟩ := ih (i + q.1.length + 2) (by omega) (by omega)
          refine ⟨v, hv, ?_⟩
          rw [hi]
          have e : d.drop (i + q.1.length + 2) = q.2 := by
            rw [show i + q.1.length + 2 = i + (q.1 ++ crlf).length by simp [crlf]; omega, ← List.drop_drop, hd, q1,
              List.drop_left]
          rw [e]
          have hq : q.1 ≠ [] := by
            intro h0
            rw [h0] at q1
            simp only [List.nil_append, crlf, List.cons_append, List.cons.injEq] at q1
            exact h ⟨q1.1, q1.2.1⟩
          constructor
          · intro ht
            exact ⟨q.1, q.2, rfl, .inr ht⟩
          · rintro ⟨x, y, e, hx⟩
            cases e
            rcases hx with hx | hx
            · exact absurd hx hq
            · exact hx

theorem takeWhile_split (l : List Nat) : ∃ ext, l = l.takeWhile (· ≠ 59) ++ ext ∧ (ext = [] ∨ ∃ e, ext = 59 :: e) := by
  refine ⟨l.dropWhile (· ≠ 59), (List.takeWhile_append_dropWhile).symm, ?_⟩
  cases h : l.dropWhile (· ≠ 59) with
  | nil => exact .inl rfl
  | cons a as =>
    right
    have := List.head?_dropWhile_not (· ≠ 59) l
    rw [h] at this
    simp at this
    exact ⟨as, by rw [this]⟩

theorem isHex_ne (c v : Nat) (h : IsHex c v) : c ≠ 59 := by
  rintro rfl
  rw [isHex_iff] at h
  revert h
  simp [hexVal]

/-- A size line falls apart into digits and extension in one way. -/
theorem takeWhile_digits (ds ext : List Nat) (n : Nat) (h : HexNumber ds n) (he : ext = [] ∨ ∃ e, ext = 59 :: e) :
    (ds ++ ext).takeWhile (· ≠ 59) = ds := by
  obtain ⟨vs, hv, -⟩ := h
  have hd : ∀ c ∈ ds, (decide (c ≠ 59)) = true := by
    intro c hc
    clear he
    induction hv with
    | nil => simp at hc
    | cons h1 h2 ih =>
      rcases List.mem_cons.1 hc with rfl | hc
      · simpa using isHex_ne _ _ h1
      · exact ih hc
  rw [List.takeWhile_append_of_pos hd]
  rcases he with rfl | ⟨e, rfl⟩
  · simp
  · simp

/-- What the decoder does, said on the text: read a line; a line that is a size line of 0 needs a trailer, one of
another size needs as many bytes, CR LF, and so on. -/
theorem chunkedBody_split (t out : List Nat) : ChunkedBody t out ↔ ∃ line r n, splitCrlf t = some (line, r) ∧
    line.takeWhile (· ≠ 59) ≠ [] ∧ HexNumber (line.takeWhile (· ≠ 59)) n ∧
    (n = 0 ∧ out = [] ∧ HasTrailer r ∨
     n ≠ 0 ∧ ∃ data text o, data.length = n ∧ r = data ++ crlf ++ text ∧ out = data ++ o ∧ ChunkedBody text o) := by
  constructor
  · intro h
    cases h with
    | @last ds ext lines rest h hl =>
      obtain ⟨h1, h2, h3, h4⟩ := h
      refine ⟨ds ++ ext, (lines.flatMap (· ++ crlf)) ++ crlf ++ rest, 0, ?_, ?_, ?_, .inl ⟨rfl, rfl, ?_⟩⟩
      · have := splitCrlf_line (ds ++ ext) ((lines.flatMap (· ++ crlf)) ++ crlf ++ rest) h4
        simpa only [List.append_assoc] using this
      · rw [takeWhile_digits ds ext 0 h2 h3]; exact h1
      · rw [takeWhile_digits ds ext 0 h2 h3]; exact h2
      · exact (hasTrailer_iff _).2 ⟨lines, rest, hl, rfl⟩
    | @chunk ds ext data text o h hne ht =>
      obtain ⟨h1, h2, h3, h4⟩ := h
      refine ⟨ds ++ ext, data ++ crlf ++ text, data.length, ?_, ?_, ?_, .inr ⟨by simpa using hne, data, text, o, rfl, rfl, rfl, ht⟩⟩
      · have := splitCrlf_line (ds ++ ext) (data ++ crlf ++ text) h4
        simpa only [List.append_assoc] using this
      · rw [takeWhile_digits ds ext _ h2 h3]; exact h1
      · rw [takeWhile_digits ds ext _ h2 h3]; exact h2
  · rintro ⟨line, r, n, hs, hne, hn, h⟩
    obtain ⟨rfl, hc⟩ := splitCrlf_eq t line r hs
    obtain ⟨ext, he, hx⟩ := takeWhile_split line
    generalize line.takeWhile (· ≠ 59) = ds at he hne hn
    subst he
    rcases h with ⟨rfl, rfl, ht⟩ | ⟨h0, data, text, o, rfl, rfl, rfl, ht⟩
    · obtain ⟨lines, rest, hl, rfl⟩ := (hasTrailer_iff _).1 ht
      have := ChunkedBody.last (rest := rest) (lines := lines) ⟨hne, hn, hx, hc⟩ hl
      simpa only [List.append_assoc] using this
    · have := ChunkedBody.chunk (text := text) ⟨hne, hn, hx, hc⟩ (by rintro rfl; simp at h0) ht
      simpa only [List.append_assoc] using this

theorem hexNumber_unique (ds : List Nat) (m n : Nat) (hm : HexNumber ds m) (hn : HexNumber ds n) : m = n := by
  obtain ⟨vs, hv, rfl⟩ := hm
  obtain ⟨ws, hw, rfl⟩ := hn
  have : vs = ws := by
    induction hv generalizing ws with
    | nil => cases hw; rfl
    | cons h1 h2 ih =>
      cases hw with
      | cons h3 h4 =>
        rw [isHex_iff] at h1 h3
        rw [h1] at h3
        cases h3
        rw [ih _ h4]
  rw [this]

theorem chunkLoop_iff (d : List Nat) (hd64 : d.length < 2 ^ 64) (f i : Nat) (out res : List Nat) (hi : i ≤ d.length)
    (hf : d.length < f + i) :
    chunkLoop d f i out = some (some res) ↔ ∃ o, res = out ++ o ∧ ChunkedBody (d.drop i) o := by
  induction f generalizing i out with
  | zero => omega
  | succ f ih =>
    have hlen : (d.drop i).length = d.length - i := List.length_drop
    obtain ⟨l1, l2⟩ := lineEnd_split d (d.length + 1) i (by omega) hi (by omega)
    rw [exists_congr fun o => and_congr_right' (chunkedBody_split (d.drop i) o), chunkLoop]
    by_cases hi' : i < d.length
    swap
    · rw [if_neg hi']
      simp only [reduceCtorEq, Option.some.injEq, false_iff]
      rintro ⟨o, -, line, r, n, h, -⟩
      rw [List.drop_eq_nil_of_le (by omega)] at h
      simp [splitCrlf] at h
    rw [if_pos hi']
    cases hs : splitCrlf (d.drop i) with
    | none =>
      obtain ⟨e, he, hle⟩ := l2 hs
      rw [he]
      simp only [Option.bind_eq_bind, Option.bind_some]
      rw [if_pos hle]
      simp
    | some q =>
      obtain ⟨line, r⟩ := q
      obtain ⟨q1, q2⟩ := splitCrlf_eq _ _ _ hs
      have hl := congrArg List.length q1
      simp only [List.length_append, crlf, List.length_cons, List.length_nil] at hl
      rw [hlen] at hl
      rw [l1 line r hs]
      simp only [Option.bind_eq_bind, Option.bind_some]
      rw [if_neg (by omega), sizeEnd_takeWhile d line (d.length + 1) i (crlf ++ r) (by rw [q1, List.append_assoc]) (by omega)]
      simp only [Option.bind_some, Nat.add_sub_cancel_left]
      have htw : (line.takeWhile (· ≠ 59)).length ≤ line.length := (List.takeWhile_prefix _).length_le
      obtain ⟨ext, he, -⟩ := takeWhile_split line
      rw [chunkSize_eq d (line.takeWhile (· ≠ 59)) i 0 (by
        intro k hk
        rw [← List.getElem?_drop, q1, List.append_assoc, List.getElem?_append_left (by omega)]
        conv => lhs; rw [he]
        rw [List.getElem?_append_left hk])]
      simp only [Option.bind_some]
      generalize hw : line.takeWhile (· ≠ 59) = ds
      rw [hw] at htw
      have hsz := fun n => sizeOf_iff ds 0 n (by norm_num)
      have key : (∃ o, res = out ++ o ∧ ∃ line' r' n, some (line, r) = some (line', r') ∧
          line'.takeWhile (· ≠ 59) ≠ [] ∧ HexNumber (line'.takeWhile (· ≠ 59)) n ∧
          (n = 0 ∧ o = [] ∧ HasTrailer r' ∨
            n ≠ 0 ∧ ∃ data text p, data.length = n ∧ r' = data ++ crlf ++ text ∧ o = data ++ p ∧ ChunkedBody text p)) ↔
          ds ≠ [] ∧ ∃ n, HexNumber ds n ∧ (n = 0 ∧ res = out ∧ HasTrailer r ∨
            n ≠ 0 ∧ ∃ data text p, data.length = n ∧ r = data ++ crlf ++ text ∧ res = out ++ data ++ p ∧ ChunkedBody text p) := by
        constructor
        · rintro ⟨o, rfl, line', r', n, e, h1, h2, h3⟩
          cases e
          rw [hw] at h1 h2
          refine ⟨h1, n, h2, ?_⟩
          rcases h3 with ⟨rfl, rfl, h⟩ | ⟨h0, data, text, p, h3, h4, rfl, h5⟩
          · exact .inl ⟨rfl, by simp, h⟩
          · exact .inr ⟨h0, data, text, p, h3, h4, by simp, h5⟩
        · rintro ⟨h1, n, h2, h3⟩
          rcases h3 with ⟨rfl, rfl, h⟩ | ⟨h0, data, text, p, h3, h4, rfl, h5⟩
          · exact ⟨[], by simp, line, r, 0, rfl, by rwa [hw], by rwa [hw], .inl ⟨rfl, rfl, h⟩⟩
          · exact ⟨data ++ p, by simp, line, r, n, rfl, by rwa [hw], by rwa [hw], .inr ⟨h0, data, text, p, h3, h4, rfl, h5⟩⟩
      rw [key]
      clear key
      have hr2 : d.drop (i + line.length + 2) = r := by
        rw [show i + line.length + 2 = i + (line ++ crlf).length by simp [crlf]; omega, ← List.drop_drop, q1, List.drop_left]
      cases hso : sizeOf ds 0 with
      | none =>
        simp only [reduceCtorEq, Option.some.injEq, false_iff, not_and, not_exists]
        intro _ n hn h
        have hbig : ¬ n < 2 ^ 64 := by
          intro hb
          have := (hsz n).2 ⟨hb, hn⟩
          rw [hso] at this
          simp at this
        rcases h with ⟨rfl, -, -⟩ | ⟨-, data, text, p, rfl, rfl, -, -⟩
        · omega
        · simp only [List.length_append] at hl
          clear hn hsz
          omega
      | some n =>
        obtain ⟨hn64, hn⟩ : n < 2 ^ 64 ∧ HexNumber ds n := (hsz n).1 hso
        clear hsz
        simp only
        by_cases hds : ds = []
        · rw [if_pos (by simp [hds])]
          simp [hds]
        · have hpos := List.length_pos_iff.2 hds
          rw [if_neg (by omega)]
          have only : (ds ≠ [] ∧ ∃ n', HexNumber ds n' ∧ (n' = 0 ∧ res = out ∧ HasTrailer r ∨
              n' ≠ 0 ∧ ∃ data text p, data.length = n' ∧ r = data ++ crlf ++ text ∧ res = out ++ data ++ p ∧ ChunkedBody text p)) ↔
              (n = 0 ∧ res = out ∧ HasTrailer r ∨
              n ≠ 0 ∧ ∃ data text p, data.length = n ∧ r = data ++ crlf ++ text ∧ res = out ++ data ++ p ∧ ChunkedBody text p) := by
            constructor
            · rintro ⟨-, n', h1, h2⟩
              rw [hexNumber_unique ds n n' hn h1]
              exact h2
            · exact fun h => ⟨hds, n, hn, h⟩
          rw [only]
          clear only
          by_cases hn0 : n = 0
          · rw [if_pos hn0]
            obtain ⟨v, hv, hvi⟩ := trailers_iff d (d.length + 1) (i + line.length + 2) (by omega) (by omega)
            rw [hr2] at hvi
            rw [hv]
            simp only [Option.bind_some, hn0, true_and, ne_eq, not_true_eq_false, false_and, or_false]
            rw [← hvi]
            cases v with
            | false => simp
            | true => simp [eq_comm]
          · rw [if_neg hn0]
            simp only [hn0, false_and, ne_eq, not_false_eq_true, true_and, false_or]
            have hrl : r.length = d.length - (i + line.length + 2) := by omega
            by_cases hb : d.length - (i + line.length + 2) < n ∨ d.length - (i + line.length + 2) - n < 2
            · rw [if_pos hb]
              simp only [reduceCtorEq, Option.some.injEq, false_iff, not_exists]
              rintro data text p ⟨h1, h2, -⟩
              have := congrArg List.length h2
              simp only [List.length_append, crlf, List.length_cons, List.length_nil] at this
              omega
            · rw [if_neg hb, hr2]
              rw [not_or] at hb
              have g0 : d[i + line.length + 2 + n]? = r[n]? := by rw [← List.getElem?_drop, hr2]
              have g1 : d[i + line.length + 2 + n + 1]? = r[n + 1]? := by
                rw [Nat.add_assoc, ← List.getElem?_drop, hr2]
              rw [g0, g1, List.getElem?_eq_getElem (by omega : n < r.length), List.getElem?_eq_getElem (by omega : n + 1 < r.length)]
              simp only [Option.bind_some]
              have split : r = r.take n ++ (r[n] :: r[n + 1] :: r.drop (n + 2)) := by
                conv => lhs; rw [← List.take_append_drop n r]
                rw [List.drop_eq_getElem_cons (by omega : n < r.length), List.drop_eq_getElem_cons (by omega : n + 1 < r.length)]
              have inv : ∀ data text : List Nat, data.length = n → r = data ++ crlf ++ text →
                  data = r.take n ∧ r[n] = 13 ∧ r[n + 1] = 10 ∧ text = r.drop (n + 2) := by
                intro data text h1 h2
                have : r.take n ++ (r[n] :: r[n + 1] :: r.drop (n + 2)) = data ++ (crlf ++ text) := by
                  rw [← split, h2, List.append_assoc]
                obtain ⟨a, b⟩ := List.append_inj this (by rw [List.length_take]; omega)
                simp only [crlf, List.cons_append, List.nil_append, List.cons.injEq] at b
                exact ⟨a.symm, b.1, b.2.1, b.2.2.symm⟩
              have hend : d.drop (i + line.length + 2 + n + 2) = r.drop (n + 2) := by
                rw [Nat.add_assoc (i + line.length + 2), ← List.drop_drop, hr2]
              by_cases h13 : r[n] = 13
              · rw [if_neg (by simpa using h13)]
                by_cases h10 : r[n + 1] = 10
                · rw [if_neg (by simpa using h10), ih _ _ (by omega) (by omega), hend]
                  constructor
                  · rintro ⟨o, h1, h2⟩
                    refine ⟨r.take n, r.drop (n + 2), o, by rw [List.length_take]; omega, ?_, h1, h2⟩
                    conv => lhs; rw [split]
                    simp [crlf, h13, h10]
                  · rintro ⟨data, text, p, h1, h2, h3, h4⟩
                    obtain ⟨rfl, -, -, rfl⟩ := inv data text h1 h2
                    exact ⟨p, h3, h4⟩
                · rw [if_pos (by simpa using h10)]
                  simp only [reduceCtorEq, Option.some.injEq, false_iff, not_exists]
                  rintro data text p ⟨h1, h2, -⟩
                  exact h10 (inv data text h1 h2).2.2.1
              · rw [if_pos (by simpa using h13)]
                simp only [reduceCtorEq, Option.some.injEq, false_iff, not_exists]
                rintro data text p ⟨h1, h2, -⟩
                exact h13 (inv data text h1 h2).2.1

/-- C16: the decoder for a complete body accepts a text if and only if it begins with a chunked body, and delivers the
data of that body; every other text is rejected. -/
theorem C16_body_decoder_exact (d : List Nat) (hd : d.length < 2 ^ 64) (out : List Nat) :
    decodeChunked d = some (some out) ↔ ChunkedBody d out := by
  rw [decodeChunked, chunkLoop_iff d hd _ _ _ _ (by omega) (by omega)]
  simp

theorem C16_body_decoder_rejects (d : List Nat) (hd : d.length < 2 ^ 64) :
    decodeChunked d = some none ↔ ∀ out, ¬ ChunkedBody d out := by
  constructor
  · intro h out ho
    rw [← C16_body_decoder_exact d hd, h] at ho
    simp at ho
  · intro h
    obtain ⟨v, hv, -⟩ := C16_body_decoder_safe d
    cases v with
    | none => exact hv
    | some out => exact absurd ((C16_body_decoder_exact d hd out).1 hv) (h out)

/-- "3;x CRLF abc CRLF 0 CRLF T CRLF CRLF": an extension and a trailer. -/
example : ChunkedBody ([51, 59, 120] ++ crlf ++ [97, 98, 99] ++ crlf ++ ([48] ++ crlf ++ [84] ++ crlf ++ crlf)) [97, 98, 99] := by
  rw [← C16_body_decoder_exact _ (by decide)]
  decide +kernel

/-- A size line without a digit is not a chunk. -/
example : decodeChunked [59, 13, 10, 13, 10] = some none := by decide +kernel

/-! ## The streaming decoder -/

/-- A size line as the streaming decoder sees it: the line ends at the first newline, and only the low 64 bits of the
size count; `P` may restrict the size as written. -/
def IsStreamLine (P : Nat → Prop) (ds ext : List Nat) (n : Nat) : Prop :=
  ds ≠ [] ∧ (∃ m, HexNumber ds m ∧ P m ∧ m % 2 ^ 64 = n) ∧ (ext = [] ∨ ∃ e, ext = 59 :: e) ∧ 10 ∉ ds ++ ext

/-- `text` is a chunked body without trailer lines that carries `data`, followed by `rest`. -/
inductive StreamBody (P : Nat → Prop) : List Nat → List Nat → List Nat → Prop
  | last {ds ext rest : List Nat} (h : IsStreamLine P ds ext 0) : StreamBody P (ds ++ ext ++ crlf ++ crlf ++ rest) [] rest
  | chunk {ds ext data text out rest : List Nat} (h : IsStreamLine P ds ext data.length) (hne : data ≠ [])
      (ht : StreamBody P text out rest) : StreamBody P (ds ++ ext ++ crlf ++ data ++ crlf ++ text) (data ++ out) rest

theorem StreamBody.mono {P : Nat → Prop} {t out rest : List Nat} (h : StreamBody P t out rest) :
    StreamBody (fun _ => True) t out rest := by
  induction h with
  | last h => exact .last ⟨h.1, let ⟨m, a, _, b⟩ := h.2.1; ⟨m, a, trivial, b⟩, h.2.2⟩
  | chunk h hne _ ih => exact .chunk ⟨h.1, let ⟨m, a, _, b⟩ := h.2.1; ⟨m, a, trivial, b⟩, h.2.2⟩ hne ih

theorem hexWrap_iff (ds : List Nat) (acc n : Nat) :
    hexWrap ds (acc % 2 ^ 64) = some n ↔ ∃ vs, List.Forall₂ IsHex ds vs ∧ vs.foldl (fun a v => 16 * a + v) acc % 2 ^ 64 = n := by
  induction ds generalizing acc with
  | nil => simp [hexWrap]
  | cons c cs ih =>
    rw [hexWrap]
    cases hc : hexVal c with
    | none =>
      simp only [reduceCtorEq, false_iff]
      rintro ⟨vs, h, -⟩
      cases h with
      | cons h _ => rw [isHex_iff, hc] at h; simp at h
    | some v =>
      have hv := hexVal_lt c v hc
      simp only
      rw [shift_or _ _ hv, show (16 * (acc % 2 ^ 64) + v) % 2 ^ 64 = (16 * acc + v) % 2 ^ 64 by omega, ih]
      constructor
      · rintro ⟨vs, h, e⟩
        exact ⟨v :: vs, List.Forall₂.cons ((isHex_iff c v).2 hc) h, e⟩
      · rintro ⟨vs, h, e⟩
        cases h with
        | cons h1 h2 =>
          rw [isHex_iff, hc] at h1
          cases h1
          exact ⟨_, h2, e⟩

theorem splitNl_iff (t a r : List Nat) : splitNl t = some (a, r) ↔ t = a ++ 10 :: r ∧ 10 ∉ a := by
  constructor
  · intro h
    refine ⟨splitNl_eq h, ?_⟩
    induction t generalizing a r with
    | nil => simp [splitNl] at h
    | cons c cs ih =>
      rw [splitNl] at h
      by_cases hc : c = 10
      · rw [if_pos hc] at h
        cases h
        simp
      · rw [if_neg hc] at h
        cases hs : splitNl cs with
        | none => rw [hs] at h; simp at h
        | some q =>
          rw [hs] at h
          cases h
          simp only [List.mem_cons, not_or]
          exact ⟨fun h => hc h.symm, ih _ _ hs⟩
  · rintro ⟨rfl, h⟩
    exact splitNl_line a r fun c hc e => h (e ▸ hc)

theorem sizeLine_iff (line : List Nat) (n : Nat) (h10 : 10 ∉ line) :
    sizeLine line = some n ↔ ∃ ds ext, line = ds ++ ext ++ [13] ∧ IsStreamLine (fun _ => True) ds ext n := by
  unfold sizeLine
  by_cases hl : line.getLast? = some 13
  · rw [if_neg (by simpa using hl)]
    have hline : line = line.dropLast ++ [13] := by
      have hne : line ≠ [] := by rintro rfl; simp at hl
      have : line.getLast hne = 13 := by
        rw [List.getLast?_eq_some_getLast hne] at hl
        exact Option.some.inj hl
      conv => lhs; rw [← List.dropLast_append_getLast hne, this]
    generalize line.dropLast = l at hline
    subst hline
    obtain ⟨ext, he, hx⟩ := takeWhile_split l
    simp only
    constructor
    · intro h
      split_ifs at h with h0
      refine ⟨l.takeWhile (· ≠ 59), ext, by rw [← he], ?_, ?_, hx, ?_⟩
      · intro e
        apply h0
        rw [List.isEmpty_iff]
        exact e
      · have := (hexWrap_iff (l.takeWhile (· ≠ 59)) 0 n).1 (by simpa using h)
        obtain ⟨vs, h1, h2⟩ := this
        exact ⟨_, ⟨vs, h1, rfl⟩, trivial, h2⟩
      · rw [← he]
        intro hm
        exact h10 (List.mem_append_left _ hm)
    · rintro ⟨ds, ext', e, h1, ⟨m, hm, -, hmn⟩, h3, -⟩
      have e' : l = ds ++ ext' := List.append_cancel_right e
      have htw := takeWhile_digits ds ext' m hm h3
      rw [← e'] at htw
      rw [htw, if_neg (by simpa using h1)]
      obtain ⟨vs, h4, rfl⟩ := hm
      exact (hexWrap_iff ds 0 n).2 ⟨vs, h4, hmn⟩
  · rw [if_pos (by simpa using hl)]
    simp only [reduceCtorEq, false_iff]
    rintro ⟨ds, ext, rfl, -⟩
    simp at hl

theorem streamBody_split (t out rest : List Nat) : StreamBody (fun _ => True) t out rest ↔ ∃ line r n, splitNl t = some (line, r) ∧
    sizeLine line = some n ∧ (n = 0 ∧ out = [] ∧ r = crlf ++ rest ∨
      n ≠ 0 ∧ ∃ data text o, data.length = n ∧ r = data ++ crlf ++ text ∧ out = data ++ o ∧ StreamBody (fun _ => True) text o rest) := by
  constructor
  · intro h
    cases h with
    | @last ds ext _ h =>
      have h10 : 10 ∉ ds ++ ext ++ [13] := by
        rw [List.mem_append, not_or]
        exact ⟨h.2.2.2, by simp⟩
      refine ⟨ds ++ ext ++ [13], crlf ++ rest, 0, (splitNl_iff _ _ _).2 ⟨?_, h10⟩, (sizeLine_iff _ _ h10).2 ⟨ds, ext, rfl, h⟩,
        .inl ⟨rfl, rfl, rfl⟩⟩
      simp [crlf]
    | @chunk ds ext data text o _ h hne ht =>
      have h10 : 10 ∉ ds ++ ext ++ [13] := by
        rw [List.mem_append, not_or]
        exact ⟨h.2.2.2, by simp⟩
      refine ⟨ds ++ ext ++ [13], data ++ crlf ++ text, data.length, (splitNl_iff _ _ _).2 ⟨?_, h10⟩,
        (sizeLine_iff _ _ h10).2 ⟨ds, ext, rfl, h⟩, .inr ⟨by simpa using hne, data, text, o, rfl, rfl, rfl, ht⟩⟩
      simp [crlf]
  · rintro ⟨line, r, n, hs, hl, h⟩
    obtain ⟨rfl, h10⟩ := (splitNl_iff _ _ _).1 hs
    obtain ⟨ds, ext, rfl, hd⟩ := (sizeLine_iff _ _ h10).1 hl
    rcases h with ⟨rfl, rfl, rfl⟩ | ⟨h0, data, text, o, rfl, rfl, rfl, ht⟩
    · have := StreamBody.last (rest := rest) hd
      simpa [crlf] using this
    · have := StreamBody.chunk hd (by rintro rfl; simp at h0) ht
      simpa [crlf] using this

theorem take2_crlf (r : List Nat) (h : r.take 2 = [13, 10]) : r = crlf ++ r.drop 2 := by
  conv => lhs; rw [← List.take_append_drop 2 r, h]
  rfl

theorem runDec_done_iff (t out rest : List Nat) : runDec .size t = (out, .done rest) ↔ StreamBody (fun _ => True) t out rest := by
  have key : ∀ k (t out : List Nat), t.length < k → (runDec .size t = (out, .done rest) ↔ StreamBody (fun _ => True) t out rest) := by
    intro k
    induction k with
    | zero => intro t out h; omega
    | succ k ih =>
      intro t out hk
      rw [streamBody_split]
      cases hs : splitNl t with
      | none => rw [runDec_size_none hs]; simp
      | some q =>
        obtain ⟨line, r⟩ := q
        have hlen := splitNl_length hs
        rw [runDec_size_some hs]
        cases hl : sizeLine line with
        | none =>
          simp only [Prod.mk.injEq, reduceCtorEq, and_false, false_iff, not_exists, not_and]
          intro line' r' n e h
          cases e
          rw [hl] at h
          cases h
        | some n =>
          have only : (∃ line' r' n', some (line, r) = some (line', r') ∧ sizeLine line' = some n' ∧
              (n' = 0 ∧ out = [] ∧ r' = crlf ++ rest ∨
                n' ≠ 0 ∧ ∃ data text o, data.length = n' ∧ r' = data ++ crlf ++ text ∧ out = data ++ o ∧ StreamBody (fun _ => True) text o rest)) ↔
              (n = 0 ∧ out = [] ∧ r = crlf ++ rest ∨
                n ≠ 0 ∧ ∃ data text o, data.length = n ∧ r = data ++ crlf ++ text ∧ out = data ++ o ∧ StreamBody (fun _ => True) text o rest) := by
            constructor
            · rintro ⟨line', r', n', e, h1, h2⟩
              cases e
              rw [hl] at h1
              cases h1
              exact h2
            · exact fun h => ⟨line, r, n, rfl, hl, h⟩
          rw [only]
          clear only
          simp only
          by_cases hn : n = 0
          · rw [if_pos hn]
            simp only [hn, true_and, ne_eq, not_true_eq_false, false_and, or_false]
            rw [runDec]
            by_cases h2 : r.length < 2
            · rw [if_pos h2]
              simp only [Prod.mk.injEq, reduceCtorEq, and_false, false_iff, not_and]
              rintro - rfl
              simp [crlf] at h2
              omega
            · rw [if_neg h2]
              by_cases h3 : r.take 2 = [13, 10]
              · rw [if_neg (by simpa using h3)]
                simp only [Prod.mk.injEq, Outcome.done.injEq]
                have hr := take2_crlf r h3
                constructor
                · rintro ⟨rfl, rfl⟩
                  exact ⟨rfl, hr⟩
                · rintro ⟨rfl, rfl⟩
                  exact ⟨rfl, rfl⟩
              · rw [if_pos (by simpa using h3)]
                simp only [Prod.mk.injEq, reduceCtorEq, and_false, false_iff, not_and]
                rintro - rfl
                exact h3 rfl
          · rw [if_neg hn]
            simp only [hn, false_and, ne_eq, not_false_eq_true, true_and, false_or]
            rw [runDec]
            have inv : ∀ data text : List Nat, data.length = n → r = data ++ crlf ++ text →
                data = r.take n ∧ r.drop n = crlf ++ text := by
              rintro data text h1 rfl
              rw [List.append_assoc, ← h1]
              simp
            by_cases hr0 : r.length = 0
            · rw [if_pos hr0]
              simp only [Prod.mk.injEq, reduceCtorEq, and_false, false_iff, not_exists]
              rintro data text o ⟨h1, rfl, -⟩
              simp [crlf] at hr0
            · rw [if_neg hr0]
              simp only
              by_cases hle : n ≤ r.length
              · rw [show min n r.length = n by omega, if_pos (by omega)]
                rw [runDec]
                have hdl : (r.drop n).length = r.length - n := List.length_drop
                by_cases h2 : (r.drop n).length < 2
                · rw [if_pos h2]
                  simp only [Prod.mk.injEq, reduceCtorEq, and_false, false_iff, not_exists]
                  rintro data text o ⟨h1, h3, -⟩
                  rw [(inv data text h1 h3).2] at h2
                  simp [crlf] at h2
                  omega
                · rw [if_neg h2]
                  by_cases h3 : (r.drop n).take 2 = [13, 10]
                  · rw [if_neg (by simpa using h3)]
                    have hr := take2_crlf _ h3
                    rw [List.drop_drop] at hr ⊢
                    have hi := fun o => ih (r.drop (n + 2)) o (by rw [List.length_drop]; omega)
                    constructor
                    · intro h
                      rw [Prod.mk.injEq] at h
                      refine ⟨r.take n, r.drop (n + 2), (runDec .size (r.drop (n + 2))).1, by rw [List.length_take]; omega, ?_, h.1.symm, ?_⟩
                      · rw [List.append_assoc, ← hr, List.take_append_drop]
                      · exact (hi _).1 (Prod.ext rfl h.2)
                    · rintro ⟨data, text, o, h1, h4, rfl, h6⟩
                      obtain ⟨e1, e2⟩ := inv data text h1 h4
                      have e3 : text = r.drop (n + 2) := by
                        rw [hr] at e2
                        exact (List.append_cancel_left e2).symm
                      rw [e3] at h6
                      rw [(hi o).2 h6, ← e1]
                  · rw [if_pos (by simpa using h3)]
                    simp only [Prod.mk.injEq, reduceCtorEq, and_false, false_iff, not_exists]
                    rintro data text o ⟨h1, h4, -⟩
                    rw [(inv data text h1 h4).2] at h3
                    exact h3 rfl
              · rw [if_neg (by omega)]
                simp only [Prod.mk.injEq, reduceCtorEq, and_false, false_iff, not_exists]
                rintro data text o ⟨h1, rfl, -⟩
                simp only [List.length_append] at hle
                omega
  exact key _ t out (Nat.lt_succ_self _)

/-- C16: the streaming decoder, fed in any pieces, sees the end and has delivered `out` if and only if the bytes begin
with a chunked body without trailer lines that carries `out`. -/
theorem C16_stream_decoder_exact (frags : List (List Nat)) (out : List Nat) :
    (frags.foldl Dec.feed {}).seen = (out, some true) ↔ ∃ rest, StreamBody (fun _ => True) frags.flatten out rest := by
  rw [C16_split_independent]
  simp only [Dec.feed, List.nil_append]
  constructor
  · intro h
    cases hx : (runDec .size frags.flatten).2 with
    | wait m r => rw [hx] at h; simp [Dec.seen] at h
    | fail => rw [hx] at h; simp [Dec.seen] at h
    | done r =>
      rw [hx] at h
      simp only [Dec.seen, Prod.mk.injEq, and_true] at h
      exact ⟨r, (runDec_done_iff _ _ _).1 (Prod.ext h hx)⟩
  · rintro ⟨rest, h⟩
    rw [(runDec_done_iff _ _ _).2 h]
    rfl

/-- C16: whenever the streaming decoder takes the bytes for a whole body in which no written size reaches 2^64, the
decoder for complete bodies delivers the same data. -/
theorem C16_decoders_agree (t out rest : List Nat) (ht : t.length < 2 ^ 64) (h : StreamBody (· < 2 ^ 64) t out rest) :
    (Dec.feed {} t).seen = (out, some true) ∧ decodeChunked t = some (some out) := by
  constructor
  · have := (C16_stream_decoder_exact [t] out).2 ⟨rest, by simpa using h.mono⟩
    simpa using this
  rw [C16_body_decoder_exact t ht]
  have nolf : ∀ l : List Nat, 10 ∉ l → ¬ crlf <:+: l := fun l h10 hi => h10 (hi.subset (by simp [crlf]))
  clear ht
  induction h with
  | @last ds ext rest h =>
    obtain ⟨h1, ⟨m, h2, hm, h3⟩, h4, h5⟩ := h
    rw [Nat.mod_eq_of_lt hm] at h3
    have := ChunkedBody.last (lines := []) (rest := rest) ⟨h1, h3 ▸ h2, h4, nolf _ h5⟩ (by simp)
    simpa using this
  | @chunk ds ext data text o rest h hne ht' ih =>
    obtain ⟨h1, ⟨m, h2, hm, h3⟩, h4, h5⟩ := h
    rw [Nat.mod_eq_of_lt hm] at h3
    exact ChunkedBody.chunk ⟨h1, h3 ▸ h2, h4, nolf _ h5⟩ hne ih

/-- "2;x CRLF ab CRLF 0 CRLF CRLF" in two pieces. -/
example : ∃ rest, StreamBody (· < 2 ^ 64) ([[50, 59], [120, 13, 10, 97, 98, 13, 10, 48, 13, 10, 13, 10, 7]] : List (List Nat)).flatten [97, 98] rest := by
  have a : IsStreamLine (· < 2 ^ 64) [50] [59, 120] [97, 98].length :=
    ⟨by simp, ⟨2, ⟨[2], by simp [isHex_iff, hexVal], rfl⟩, by norm_num, rfl⟩, .inr ⟨_, rfl⟩, by simp⟩
  have b : IsStreamLine (· < 2 ^ 64) [48] [] 0 := ⟨by simp, ⟨0, ⟨[0], by simp [isHex_iff, hexVal], rfl⟩, by norm_num, rfl⟩, .inl rfl, by simp⟩
  exact ⟨[7], StreamBody.chunk a (by simp) (StreamBody.last b)⟩

end Verif.Jpip
