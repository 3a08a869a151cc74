import Verif.Jpip.PropsRequest

/-!
# C15, continued: every field of a query, in any order

The specification is a list of fields: how each is written and what it says.  `parseQuery` must do exactly what the
list says, and must refuse a component list that is too long rather than cut it.
-/

namespace Verif.Jpip

/-- The name of a rounding direction (ISO/IEC 15444-9, C.4.2). -/
def roundName : Round → List Char
  | .up => "round-up".toList
  | .down => "round-down".toList
  | .closest => "closest".toList

/-- One field of a query, with its meaning. -/
inductive Field
  | target (v : List Char)
  | fsiz (x y : Nat) (d : Option Round)
  | roff (x y : Nat)
  | rsiz (x y : Nat)
  | comps (its : List CompItem)
  | model (v : List Char)
  | len (n : Nat)
  | quality (n : Nat)
  | type (pre post : List (List Char))
  | cnew (v : List Char)
  | cid (v : List Char)
  | cclose (v : List Char)
  | qid (n : Nat)
  | other (key v : List Char)

/-- The keys a server knows. -/
def fieldKeys : List String :=
  ["target", "fsiz", "roff", "rsiz", "comps", "model", "len", "quality", "type", "cnew", "cid", "cclose", "qid"]

/-- What stands before the `=`. -/
def Field.key : Field → List Char
  | .target _ => "target".toList
  | .fsiz .. => "fsiz".toList
  | .roff .. => "roff".toList
  | .rsiz .. => "rsiz".toList
  | .comps _ => "comps".toList
  | .model _ => "model".toList
  | .len _ => "len".toList
  | .quality _ => "quality".toList
  | .type .. => "type".toList
  | .cnew _ => "cnew".toList
  | .cid _ => "cid".toList
  | .cclose _ => "cclose".toList
  | .qid _ => "qid".toList
  | .other k _ => k

/-- What stands after the `=`. -/
def Field.val : Field → List Char
  | .target v | .model v | .cnew v | .cid v | .cclose v | .other _ v => v
  | .fsiz x y none => decStr x ++ [','] ++ decStr y
  | .fsiz x y (some d) => decStr x ++ [','] ++ decStr y ++ [','] ++ roundName d
  | .roff x y | .rsiz x y => decStr x ++ [','] ++ decStr y
  | .comps its => joinCommas (its.map CompItem.text)
  | .len n | .quality n | .qid n => decStr n
  | .type pre post => joinCommas (pre ++ "jpp-stream".toList :: post)

/-- The field as it stands in the query. -/
def Field.text (f : Field) : List Char := f.key ++ '=' :: f.val

/-- The values that can be written: numbers of the width of the field, text without the separator. -/
def Field.Ok : Field → Prop
  | .target v | .model v | .cnew v | .cid v | .cclose v => '&' ∉ v
  | .fsiz x y _ | .roff x y | .rsiz x y => x < 2 ^ 32 ∧ y < 2 ^ 32
  | .comps its => (∀ it ∈ its, ∀ c ∈ it.comps, c < 2 ^ 16) ∧ (its.flatMap CompItem.comps).length ≤ 16384
  | .len n | .qid n => n < 2 ^ 64
  | .quality n => n < 2 ^ 32
  | .type pre post => ∀ t ∈ pre ++ post, ',' ∉ t ∧ '&' ∉ t
  | .other k v => '&' ∉ k ∧ '=' ∉ k ∧ '&' ∉ v ∧ ∀ s ∈ fieldKeys, k ≠ s.toList

/-- What the field says. -/
def Field.apply (r : JpipRequest) : Field → JpipRequest
  | .target v => { r with target := v }
  | .fsiz x y none => { r with vw := { r.vw with fx := x, fy := y }, hasFsiz := true }
  | .fsiz x y (some d) => { r with vw := { r.vw with fx := x, fy := y, round := d }, hasFsiz := true }
  | .roff x y => { r with vw := { r.vw with ox := x, oy := y }, hasRoff := true }
  | .rsiz x y => { r with vw := { r.vw with sx := x, sy := y }, hasRsiz := true }
  | .comps its => { r with vw := { r.vw with comps := its.flatMap CompItem.comps }, hasComps := true }
  | .model v => { r with model := v }
  | .len n => { r with len := n, hasLen := true }
  | .quality n => { r with quality := n, hasQuality := true }
  | .type _ _ => { r with type := "jpp-stream".toList }
  | .cnew v => { r with cnew := v, hasCnew := true }
  | .cid v => { r with cid := v, hasCid := true }
  | .cclose v => { r with cclose := v, hasCclose := true }
  | .qid n => { r with qid := n, hasQid := true }
  | .other _ _ => r

/-- A query: the fields with `&` between them. -/
def queryText : List Field → List Char
  | [] => []
  | f :: fs => f.text ++ fs.flatMap fun g => '&' :: g.text

/-! ### Proofs -/

theorem parseFsiz_none (x y : Nat) (r : JpipRequest) (hx : x < 2 ^ 32) (hy : y < 2 ^ 32) :
    parseFsiz r (decStr x ++ [','] ++ decStr y) =
      ({ r with vw := { r.vw with fx := x, fy := y }, hasFsiz := true }, .ok) := by
  rw [List.append_assoc, List.singleton_append]
  unfold parseFsiz
  rw [cutAt_append _ _ _ (decStr_spec x).2.2.2, strtoulE_dec x (by omega) _ (comma_stop _)]
  have := strtoulE_dec y (by omega) [] nil_stop
  rw [List.append_nil] at this
  simp only [List.length_cons, ne_eq, not_true_eq_false, if_false, Nat.mod_eq_of_lt hx, this,
    cutAt_none _ _ (decStr_spec y).2.2.2, atEnd, if_true, Nat.mod_eq_of_lt hy]

theorem parseFsiz_some (x y : Nat) (d : Round) (r : JpipRequest) (hx : x < 2 ^ 32) (hy : y < 2 ^ 32) :
    parseFsiz r (decStr x ++ [','] ++ decStr y ++ [','] ++ roundName d) =
      ({ r with vw := { r.vw with fx := x, fy := y, round := d }, hasFsiz := true }, .ok) := by
  rw [List.append_assoc, List.append_assoc, List.append_assoc, List.singleton_append, List.singleton_append]
  unfold parseFsiz
  rw [cutAt_append _ _ _ (decStr_spec x).2.2.2, strtoulE_dec x (by omega) _ (comma_stop _)]
  simp only [List.length_cons, ne_eq, not_true_eq_false, if_false, Nat.mod_eq_of_lt hx]
  rw [strtoulE_dec y (by omega) _ (comma_stop _), cutAt_append _ _ _ (decStr_spec y).2.2.2]
  simp only [List.length_cons, not_true_eq_false, if_false, Nat.mod_eq_of_lt hy]
  cases d with
  | up => rw [if_pos (by decide)]
  | down => rw [if_neg (by decide), if_pos (by decide)]
  | closest => rw [if_neg (by decide), if_neg (by decide), if_pos (by decide)]

theorem parseNumber_dec (n : Nat) (h : n < 2 ^ 64) : parseNumber (decStr n) = some n := by
  have := strtoull_decStr n h [] nil_stop
  rw [List.append_nil] at this
  simp [parseNumber, this, atEnd]

theorem text_amp (it : CompItem) : '&' ∉ it.text := by
  cases it with
  | one c => exact decStr_not_mem _ _ (by decide)
  | range lo n =>
    simp only [CompItem.text, List.mem_append, not_or]
    exact ⟨⟨decStr_not_mem _ _ (by decide), by decide⟩, decStr_not_mem _ _ (by decide)⟩

theorem splitComps (its : List CompItem) :
    splitOnC ',' (joinCommas (its.map CompItem.text)) = its.map CompItem.text ∨
      its = [] ∧ splitOnC ',' (joinCommas (its.map CompItem.text)) = [[]] := by
  by_cases h : its = []
  · right; subst h; exact ⟨rfl, rfl⟩
  · left
    refine splitOnC_join _ (by simpa using h) ?_
    intro t ht
    obtain ⟨it, -, rfl⟩ := List.mem_map.1 ht
    exact text_comma it

theorem Field.key_eq (f : Field) (h : f.Ok) : '=' ∉ f.key := by
  cases f
  case other k v => exact h.2.1
  all_goals (simp only [Field.key]; decide)

theorem Field.text_amp (f : Field) (h : f.Ok) : '&' ∉ f.text := by
  have hn := fun n => decStr_not_mem n '&' (by decide)
  have hp : ∀ a b, '&' ∉ decStr a ++ [','] ++ decStr b := by
    intro a b
    simp only [List.mem_append, not_or]
    exact ⟨⟨hn a, by decide⟩, hn b⟩
  have hk : '&' ∉ f.key := by
    cases f
    case other k v => exact h.1
    all_goals (simp only [Field.key]; decide)
  have hv : '&' ∉ f.val := by
    cases f with
    | target v => exact h
    | model v => exact h
    | cnew v => exact h
    | cid v => exact h
    | cclose v => exact h
    | other k v => exact h.2.2.1
    | roff x y => exact hp x y
    | rsiz x y => exact hp x y
    | len n => exact hn n
    | quality n => exact hn n
    | qid n => exact hn n
    | fsiz x y d =>
      cases d with
      | none => exact hp x y
      | some d =>
        show '&' ∉ decStr x ++ [','] ++ decStr y ++ [','] ++ roundName d
        rw [List.mem_append, List.mem_append, not_or, not_or]
        exact ⟨⟨hp x y, by decide⟩, by cases d <;> decide⟩
    | comps its =>
      refine joinCommas_not_mem _ _ (by decide) ?_
      intro t ht
      obtain ⟨it, -, rfl⟩ := List.mem_map.1 ht
      exact Verif.Jpip.text_amp it
    | type pre post =>
      refine joinCommas_not_mem _ _ (by decide) ?_
      intro t ht
      rw [List.mem_append, List.mem_cons] at ht
      rcases ht with ht | rfl | ht
      · exact (h t (by simp [ht])).2
      · decide
      · exact (h t (by simp [ht])).2
  unfold Field.text
  simp only [List.mem_append, List.mem_cons, not_or]
  exact ⟨hk, by decide, hv⟩

theorem applyParam_field (f : Field) (h : f.Ok) (r : JpipRequest) : applyParam r f.key f.val = (f.apply r, .ok) := by
  unfold applyParam
  cases f with
  | target v => rw [if_pos (by simp only [Field.key]; decide)]; rfl
  | fsiz x y d =>
    rw [if_neg (by simp only [Field.key]; decide), if_pos (by simp only [Field.key]; decide)]
    cases d with
    | none => exact parseFsiz_none x y r h.1 h.2
    | some d => exact parseFsiz_some x y d r h.1 h.2
  | roff x y =>
    iterate 2 rw [if_neg (by simp only [Field.key]; decide)]
    rw [if_pos (by simp only [Field.key]; decide)]
    simp only [Field.val, parsePair_dec x y _ _ h.1 h.2, if_true, Field.apply]
  | rsiz x y =>
    iterate 3 rw [if_neg (by simp only [Field.key]; decide)]
    rw [if_pos (by simp only [Field.key]; decide)]
    simp only [Field.val, parsePair_dec x y _ _ h.1 h.2, if_true, Field.apply]
  | comps its =>
    iterate 4 rw [if_neg (by simp only [Field.key]; decide)]
    rw [if_pos (by simp only [Field.key]; decide)]
    have hc := compItems_text its [] h.1 (by simpa [kMaxComponents] using h.2)
    have : compItems (splitOnC ',' (joinCommas (its.map CompItem.text))) [] = (its.flatMap CompItem.comps, true) := by
      rcases splitComps its with e | ⟨rfl, e⟩
      · rw [e, hc]; rfl
      · rw [e]; rfl
    simp only [Field.val, this, if_true, Field.apply]
  | model v =>
    iterate 5 rw [if_neg (by simp only [Field.key]; decide)]
    rw [if_pos (by simp only [Field.key]; decide)]
    rfl
  | len n =>
    iterate 6 rw [if_neg (by simp only [Field.key]; decide)]
    rw [if_pos (by simp only [Field.key]; decide)]
    simp only [Field.val, parseNumber_dec n h, Field.apply]
  | quality n =>
    iterate 7 rw [if_neg (by simp only [Field.key]; decide)]
    rw [if_pos (by simp only [Field.key]; decide)]
    have h' : n < 2 ^ 32 := h
    simp only [Field.val, parseNumber_dec n (by omega), Field.apply, Nat.mod_eq_of_lt h']
  | type pre post =>
    iterate 8 rw [if_neg (by simp only [Field.key]; decide)]
    rw [if_pos (by simp only [Field.key]; decide)]
    have hs : splitOnC ',' (joinCommas (pre ++ "jpp-stream".toList :: post)) = pre ++ "jpp-stream".toList :: post := by
      refine splitOnC_join _ (by simp) ?_
      intro t ht
      rw [List.mem_append, List.mem_cons] at ht
      rcases ht with ht | rfl | ht
      · exact (h t (by simp [ht])).1
      · decide
      · exact (h t (by simp [ht])).1
    have ha : acceptableType "jpp-stream".toList = true := by decide
    simp only [Field.val, hs, List.any_append, List.any_cons, ha, Bool.true_or, Bool.or_true, if_true, Field.apply]
    rfl
  | cnew v =>
    iterate 9 rw [if_neg (by simp only [Field.key]; decide)]
    rw [if_pos (by simp only [Field.key]; decide)]
    rfl
  | cid v =>
    iterate 10 rw [if_neg (by simp only [Field.key]; decide)]
    rw [if_pos (by simp only [Field.key]; decide)]
    rfl
  | cclose v =>
    iterate 11 rw [if_neg (by simp only [Field.key]; decide)]
    rw [if_pos (by simp only [Field.key]; decide)]
    rfl
  | qid n =>
    iterate 12 rw [if_neg (by simp only [Field.key]; decide)]
    rw [if_pos (by simp only [Field.key]; decide)]
    simp only [Field.val, parseNumber_dec n h, Field.apply]
  | other k v =>
    have hk := h.2.2.2
    have kk : ∀ s ∈ fieldKeys, ∀ l : List Char, s.toList = l → ¬ (Field.other k v).key = l := by
      intro s hs l e
      rw [← e]
      exact hk s hs
    rw [if_neg (kk "target" (by decide) _ (by decide)), if_neg (kk "fsiz" (by decide) _ (by decide)),
      if_neg (kk "roff" (by decide) _ (by decide)), if_neg (kk "rsiz" (by decide) _ (by decide)),
      if_neg (kk "comps" (by decide) _ (by decide)), if_neg (kk "model" (by decide) _ (by decide)),
      if_neg (kk "len" (by decide) _ (by decide)), if_neg (kk "quality" (by decide) _ (by decide)),
      if_neg (kk "type" (by decide) _ (by decide)), if_neg (kk "cnew" (by decide) _ (by decide)),
      if_neg (kk "cid" (by decide) _ (by decide)), if_neg (kk "cclose" (by decide) _ (by decide)),
      if_neg (kk "qid" (by decide) _ (by decide))]
    rfl

theorem applyParams_fields (fs : List Field) (h : ∀ f ∈ fs, f.Ok) (r : JpipRequest) (ps : List (List Char)) :
    applyParams (fs.map Field.text ++ ps) r = applyParams ps (fs.foldl Field.apply r) := by
  induction fs generalizing r with
  | nil => rfl
  | cons f fs ih =>
    rw [List.map_cons, List.cons_append, Field.text,
      applyParams_kv _ _ _ _ _ (f.key_eq (h f (by simp))) (applyParam_field f (h f (by simp)) r),
      ih (fun g hg => h g (List.mem_cons_of_mem _ hg)), List.foldl_cons]

theorem splitOnC_query (fs : List Field) (hne : fs ≠ []) (h : ∀ f ∈ fs, f.Ok) :
    splitOnC '&' (queryText fs) = fs.map Field.text := by
  cases fs with
  | nil => exact absurd rfl hne
  | cons f fs =>
    have e : (fs.flatMap fun g => '&' :: g.text) = (fs.map Field.text).flatMap fun p => '&' :: p := by
      rw [List.flatMap_map]
    rw [queryText, e, splitOnC_flat _ _ (f.text_amp (h f (by simp)))]
    · rfl
    · intro p hp
      obtain ⟨g, hg, rfl⟩ := List.mem_map.1 hp
      exact g.text_amp (h g (List.mem_cons_of_mem _ hg))

theorem queryText_ne (fs : List Field) (hne : fs ≠ []) : queryText fs ≠ [] := by
  cases fs with
  | nil => exact absurd rfl hne
  | cons f fs => simp [queryText, Field.text]

/-- C15: a query is its fields: any list of fields, each written once or many times and in any order, is parsed to the
request obtained by doing what the fields say, one after the other; unknown fields change nothing. -/
theorem C15_fields (fs : List Field) (hne : fs ≠ []) (h : ∀ f ∈ fs, f.Ok) :
    parseQuery ('?' :: queryText fs) = (fs.foldl Field.apply {}, .ok) := by
  have : parseQuery ('?' :: queryText fs) = applyParams (fs.map Field.text) {} := by
    rw [← splitOnC_query fs hne h]
    unfold parseQuery
    simp [queryText_ne fs hne]
  have e := applyParams_fields fs h {} []
  rw [List.append_nil] at e
  rw [this, e]
  rfl

/-- C15: the same without the `?` (as `split_http_get_line` delivers it). -/
theorem C15_fields_bare (fs : List Field) (hne : fs ≠ []) (h : ∀ f ∈ fs, f.Ok) (hq : (queryText fs).head? ≠ some '?') :
    parseQuery (queryText fs) = (fs.foldl Field.apply {}, .ok) := by
  rw [← C15_fields fs hne h]
  unfold parseQuery
  cases hs : queryText fs with
  | nil => exact absurd hs (queryText_ne fs hne)
  | cons c cs =>
    rw [hs] at hq
    have : c ≠ '?' := by simpa using hq
    simp [this]

/-- "?fsiz=640,480,round-down&x=1&len=9": an unknown field between two known ones. -/
example : parseQuery ('?' :: queryText [.fsiz 640 480 (some .down), .other "x".toList "1".toList, .len 9]) =
    ({ vw := { fx := 640, fy := 480, round := .down }, hasFsiz := true, len := 9, hasLen := true }, .ok) := by
  rw [C15_fields [.fsiz 640 480 (some .down), .other "x".toList "1".toList, .len 9] (by simp) (by
    intro f hf
    simp only [List.mem_cons, List.not_mem_nil, or_false] at hf
    rcases hf with rfl | rfl | rfl
    · exact ⟨by decide, by decide⟩
    · exact ⟨by decide, by decide, by decide, by decide⟩
    · exact (by decide : 9 < 2 ^ 64))]
  rfl

/-- The loop over a range stops with a failure when the range does not fit. -/
theorem pushRange_full (n lo : Nat) (acc : List Nat) (h : lo + n < 2 ^ 16) (hl : kMaxComponents < acc.length + n + 1)
    (ha : acc.length ≤ kMaxComponents) : (pushRange (lo + n) lo acc).2 = false := by
  induction n generalizing lo acc with
  | zero => rw [pushRange, if_pos (by omega), dif_pos (by omega)]
  | succ n ih =>
    rw [pushRange, if_pos (by omega)]
    by_cases hk : kMaxComponents ≤ acc.length
    · rw [dif_pos hk]
    · rw [dif_neg hk, Nat.mod_eq_of_lt (by omega : lo + 1 < 2 ^ 64), show lo + (n + 1) = lo + 1 + n by omega]
      exact ih (lo + 1) _ (by omega) (by simp; omega) (by simp; omega)

theorem compItem_full (it : CompItem) (acc : List Nat) (h : ∀ c ∈ it.comps, c < 2 ^ 16)
    (hl : kMaxComponents < acc.length + it.comps.length) (ha : acc.length ≤ kMaxComponents) :
    (compItem it.text acc).2 = false := by
  cases it with
  | one c =>
    have hc : c < 2 ^ 16 := h c (by simp [CompItem.comps])
    have := strtoull_decStr c (by omega) [] nil_stop
    rw [List.append_nil] at this
    simp only [compItem, CompItem.text, this]
    exact pushRange_full 0 c acc (by omega) (by simpa [CompItem.comps] using hl) ha
  | range lo n =>
    have hc : lo + n < 2 ^ 16 := h _ (by simp [CompItem.comps, List.mem_range'_1])
    have h1 := strtoull_decStr lo (by omega) ('-' :: decStr (lo + n)) (by intro c t h; cases h; decide)
    have h2 := strtoull_decStr (lo + n) (by omega) [] nil_stop
    rw [List.append_nil] at h2
    simp only [compItem, CompItem.text, List.append_assoc, List.singleton_append, h1, h2, if_true]
    rw [if_neg (by simp [atEnd])]
    exact pushRange_full n lo acc hc (by simp [CompItem.comps] at hl; omega) ha

theorem compItems_full (its : List CompItem) (acc : List Nat) (h : ∀ it ∈ its, ∀ c ∈ it.comps, c < 2 ^ 16)
    (hl : kMaxComponents < acc.length + (its.flatMap CompItem.comps).length) (ha : acc.length ≤ kMaxComponents) :
    (compItems (its.map CompItem.text) acc).2 = false := by
  induction its generalizing acc with
  | nil => simp at hl; omega
  | cons it its ih =>
    rw [List.flatMap_cons, List.length_append] at hl
    rw [List.map_cons, compItems, if_neg (by simp [text_ne])]
    by_cases hf : acc.length + it.comps.length ≤ kMaxComponents
    · rw [compItem_text it acc (h it (by simp)) hf]
      exact ih _ (fun x hx => h x (List.mem_cons_of_mem _ hx)) (by rw [List.length_append]; omega)
        (by rw [List.length_append]; omega)
    · have := compItem_full it acc (h it (by simp)) (by omega) ha
      rcases hq : compItem it.text acc with ⟨a, b⟩
      rw [hq] at this
      simp only at this
      subst this
      rfl

/-- C15: a component list of more than 16384 components is refused, wherever it stands in the query; it is never cut
short. -/
theorem C15_too_many_components (fs : List Field) (its : List CompItem) (gs : List Field) (hf : ∀ f ∈ fs ++ gs, f.Ok)
    (h : ∀ it ∈ its, ∀ c ∈ it.comps, c < 2 ^ 16) (hl : 16384 < (its.flatMap CompItem.comps).length) :
    (parseQuery ('?' :: queryText (fs ++ .comps its :: gs))).2 = .malformedField := by
  have amp : ∀ f ∈ fs ++ .comps its :: gs, '&' ∉ f.text := by
    intro f hm
    rw [List.mem_append, List.mem_cons] at hm
    rcases hm with hm | rfl | hm
    · exact f.text_amp (hf f (by simp [hm]))
    · show '&' ∉ "comps".toList ++ '=' :: joinCommas (its.map CompItem.text)
      simp only [List.mem_append, List.mem_cons, not_or]
      refine ⟨by decide, by decide, joinCommas_not_mem _ _ (by decide) ?_⟩
      intro t ht
      obtain ⟨it, -, rfl⟩ := List.mem_map.1 ht
      exact Verif.Jpip.text_amp it
    · exact f.text_amp (hf f (by simp [hm]))
  have hs : splitOnC '&' (queryText (fs ++ .comps its :: gs)) = (fs ++ .comps its :: gs).map Field.text := by
    cases hc : fs ++ Field.comps its :: gs with
    | nil => simp at hc
    | cons f l =>
      rw [hc] at amp
      have e : (l.flatMap fun g => '&' :: g.text) = (l.map Field.text).flatMap fun p => '&' :: p := by
        rw [List.flatMap_map]
      rw [queryText, e, splitOnC_flat _ _ (amp f (by simp))]
      · rfl
      · intro p hp
        obtain ⟨g, hg, rfl⟩ := List.mem_map.1 hp
        exact amp g (List.mem_cons_of_mem _ hg)
  have : parseQuery ('?' :: queryText (fs ++ .comps its :: gs)) = applyParams ((fs ++ .comps its :: gs).map Field.text) {} := by
    rw [← hs]
    unfold parseQuery
    simp [queryText_ne (fs ++ .comps its :: gs) (by simp)]
  rw [this, List.map_append, applyParams_fields fs (fun f hm => hf f (by simp [hm])), List.map_cons, applyParams,
    if_neg (by simp [Field.text]), Field.text, cutAt_append _ _ _ (by simp only [Field.key]; decide)]
  have hc : (compItems (splitOnC ',' (Field.comps its).val) []).2 = false := by
    rcases splitComps its with e | ⟨rfl, -⟩
    · show (compItems (splitOnC ',' (joinCommas (its.map CompItem.text))) []).2 = false
      rw [e]
      exact compItems_full its [] h (by simpa [kMaxComponents] using hl) (by simp)
    · simp at hl
  simp only [Option.getD_some]
  generalize hr : fs.foldl Field.apply {} = r
  have ha : (applyParam r (Field.comps its).key (Field.comps its).val).2 = .malformedField := by
    unfold applyParam
    iterate 4 rw [if_neg (by simp only [Field.key]; decide)]
    rw [if_pos (by simp only [Field.key]; decide)]
    simp [hc]
  rcases hq : applyParam r (Field.comps its).key (Field.comps its).val with ⟨a, b⟩
  rw [hq] at ha
  simp only at ha
  subst ha
  rfl

/-- "?len=1&comps=0-16384" is refused. -/
example : (parseQuery ('?' :: queryText [.len 1, .comps [.range 0 16384]])).2 = .malformedField :=
  C15_too_many_components [.len 1] [.range 0 16384] [] (by
    intro f hf
    simp only [List.append_nil, List.mem_singleton] at hf
    subst hf
    exact (by decide : 1 < 2 ^ 64)) (by
    intro it hit c hc
    simp only [List.mem_singleton] at hit
    subst hit
    simp only [CompItem.comps, List.mem_range'_1] at hc
    omega) (by simp [CompItem.comps])

end Verif.Jpip
