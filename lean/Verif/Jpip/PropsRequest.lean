import Verif.Jpip.Request
import Verif.Jpip.CacheModelLemmas
import Verif.Jpip.PropsCache
import Verif.Tactics
/-
C15: a request line made by the client is read back by the server as the same request, and whatever a request line
says, the parsed request is within bounds.
-/
namespace Verif.Jpip

/-! ### Splitting -/

theorem splitOnC_tok (d : Char) (t : List Char) (ht : d ∉ t) : splitOnC d t = [t] := by
  induction t with
  | nil => rfl
  | cons c cs ih =>
    simp only [List.mem_cons, not_or] at ht
    rw [splitOnC, if_neg (fun h => ht.1 h.symm), ih ht.2]

theorem splitOnC_append (d : Char) (t s : List Char) (ht : d ∉ t) : splitOnC d (t ++ d :: s) = t :: splitOnC d s := by
  induction t with
  | nil => simp [splitOnC]
  | cons c cs ih =>
    simp only [List.mem_cons, not_or] at ht
    rw [List.cons_append, splitOnC, if_neg (fun h => ht.1 h.symm), ih ht.2]

theorem splitOnC_join (ts : List (List Char)) (hne : ts ≠ []) (h : ∀ t ∈ ts, ',' ∉ t) :
    splitOnC ',' (joinCommas ts) = ts := by
  induction ts with
  | nil => exact absurd rfl hne
  | cons t ts ih =>
    cases ts with
    | nil => exact splitOnC_tok _ _ (h t (by simp))
    | cons u us =>
      rw [joinCommas, splitOnC_append _ _ _ (h t (by simp)), ih (by simp) (fun x hx => h x (List.mem_cons_of_mem _ hx))]
      simp

theorem cutAt_append (d : Char) (t s : List Char) (ht : d ∉ t) : cutAt d (t ++ d :: s) = (t, some s) := by
  induction t with
  | nil => simp [cutAt]
  | cons c cs ih =>
    simp only [List.mem_cons, not_or] at ht
    rw [List.cons_append, cutAt, if_neg (fun h => ht.1 h.symm), ih ht.2]

theorem cutAt_none (d : Char) (t : List Char) (ht : d ∉ t) : cutAt d t = (t, none) := by
  induction t with
  | nil => rfl
  | cons c cs ih =>
    simp only [List.mem_cons, not_or] at ht
    rw [cutAt, if_neg (fun h => ht.1 h.symm), ih ht.2]

/-- A decimal string has only digits. -/
theorem decStr_not_mem (n : Nat) (c : Char) (hc : isDigitC c = false) : c ∉ decStr n := by
  intro h
  rw [(decStr_spec n).1 c h] at hc
  cases hc

theorem joinCommas_not_mem (ts : List (List Char)) (c : Char) (hc : c ≠ ',') (h : ∀ t ∈ ts, c ∉ t) : c ∉ joinCommas ts := by
  induction ts with
  | nil => simp [joinCommas]
  | cons t ts ih =>
    cases ts with
    | nil => exact h t (by simp)
    | cons u us =>
      have := ih fun x hx => h x (List.mem_cons_of_mem _ hx)
      rw [joinCommas]
      · simp only [List.mem_append, List.mem_cons, not_or]
        exact ⟨h t (by simp), hc, this⟩
      · simp

/-! ### Fields -/

theorem strtoulE_dec (n : Nat) (hn : n < 2 ^ 64) (rest : List Char) (hr : ∀ c t, rest = c :: t → isDigitC c = false) :
    strtoulE (decStr n ++ rest) = (n, rest) := by
  rw [strtoulE, strtoull_decStr n hn rest hr]

theorem comma_stop (s : List Char) : ∀ c t, ',' :: s = c :: t → isDigitC c = false := by
  intro c t h
  cases h
  decide

theorem nil_stop : ∀ c t, ([] : List Char) = c :: t → isDigitC c = false := by simp

theorem parsePair_dec (a b a0 b0 : Nat) (ha : a < 2 ^ 32) (hb : b < 2 ^ 32) :
    parsePair (decStr a ++ [','] ++ decStr b) a0 b0 = (a, b, true) := by
  rw [List.append_assoc, List.singleton_append]
  unfold parsePair
  rw [cutAt_append _ _ _ (decStr_spec a).2.2.2, strtoulE_dec a (by omega) _ (comma_stop _)]
  have := strtoulE_dec b (by omega) [] nil_stop
  rw [List.append_nil] at this
  simp only [this, List.length_cons, ne_eq, not_true_eq_false, if_false, Nat.mod_eq_of_lt ha, Nat.mod_eq_of_lt hb, atEnd]

theorem parseFsiz_dec (x y : Nat) (d : Round) (r : JpipRequest) (hx : x < 2 ^ 32) (hy : y < 2 ^ 32) (hr : r.vw.round = .down) :
    parseFsiz r (decStr x ++ [','] ++ decStr y ++ roundText d) =
      ({ r with vw := { r.vw with fx := x, fy := y, round := d }, hasFsiz := true }, .ok) := by
  rw [List.append_assoc, List.append_assoc, List.singleton_append]
  unfold parseFsiz
  rw [cutAt_append _ _ _ (decStr_spec x).2.2.2, strtoulE_dec x (by omega) _ (comma_stop _)]
  simp only [List.length_cons, ne_eq, not_true_eq_false, if_false, Nat.mod_eq_of_lt hx]
  have hny := (decStr_spec y).2.2.2
  cases d with
  | down =>
    have := strtoulE_dec y (by omega) [] nil_stop
    rw [List.append_nil] at this
    simp only [roundText, List.append_nil, this, cutAt_none _ _ hny, atEnd, if_true, Nat.mod_eq_of_lt hy, ← hr]
  | up =>
    rw [roundText, strtoulE_dec y (by omega) _ (comma_stop _), cutAt_append _ _ _ hny]
    simp only [List.length_cons, not_true_eq_false, if_false, if_true, Nat.mod_eq_of_lt hy]
  | closest =>
    rw [roundText, strtoulE_dec y (by omega) _ (comma_stop _), cutAt_append _ _ _ hny]
    simp only [List.length_cons, not_true_eq_false, if_false, Nat.mod_eq_of_lt hy]
    rw [if_neg (by decide), if_neg (by decide), if_pos trivial]

/-- The counter loop appends the whole range when there is room. -/
theorem pushRange_fit (n lo : Nat) (acc : List Nat) (h : lo + n < 2 ^ 16) (hl : acc.length + n + 1 ≤ kMaxComponents) :
    pushRange (lo + n) lo acc = (acc ++ List.range' lo (n + 1), true) := by
  induction n generalizing lo acc with
  | zero =>
    rw [pushRange, if_pos (by omega), dif_neg (by omega), pushRange, if_neg (by omega)]
    rw [Nat.mod_eq_of_lt (by omega)]
    simp
  | succ n ih =>
    rw [pushRange, if_pos (by omega), dif_neg (by omega), Nat.mod_eq_of_lt (by omega : lo + 1 < 2 ^ 64),
      Nat.mod_eq_of_lt (by omega : lo < 2 ^ 16), show lo + (n + 1) = lo + 1 + n by omega,
      ih (lo + 1) (acc ++ [lo]) (by omega) (by simp; omega)]
    rw [List.range'_succ (n := n + 1)]
    simp

/-- An item of a component list: one index, or a range. -/
inductive CompItem
  | one (c : Nat)
  | range (lo n : Nat)

/-- How an item is written: "c", or "lo-hi" with hi = lo + n. -/
def CompItem.text : CompItem → List Char
  | .one c => decStr c
  | .range lo n => decStr lo ++ ['-'] ++ decStr (lo + n)

/-- The components an item stands for. -/
def CompItem.comps : CompItem → List Nat
  | .one c => [c]
  | .range lo n => List.range' lo (n + 1)

theorem compItem_text (it : CompItem) (acc : List Nat) (h : ∀ c ∈ it.comps, c < 2 ^ 16)
    (hl : acc.length + it.comps.length ≤ kMaxComponents) : compItem it.text acc = (acc ++ it.comps, true) := by
  cases it with
  | one c =>
    have hc : c < 2 ^ 16 := h c (by simp [CompItem.comps])
    have := strtoull_decStr c (by omega) [] nil_stop
    rw [List.append_nil] at this
    simp only [compItem, CompItem.text, this, CompItem.comps]
    have := pushRange_fit 0 c acc (by omega) (by simpa [CompItem.comps] using hl)
    simpa using this
  | range lo n =>
    have hc : lo + n < 2 ^ 16 := h _ (by simp [CompItem.comps, List.mem_range'_1])
    have h1 := strtoull_decStr lo (by omega) ('-' :: decStr (lo + n)) (by intro c t h; cases h; decide)
    have h2 := strtoull_decStr (lo + n) (by omega) [] nil_stop
    rw [List.append_nil] at h2
    simp only [compItem, CompItem.text, List.append_assoc, List.singleton_append, h1, h2, if_true, CompItem.comps]
    rw [if_neg (by simp [atEnd])]
    exact pushRange_fit n lo acc hc (by simp [CompItem.comps] at hl; omega)

theorem text_ne (it : CompItem) : it.text ≠ [] := by
  cases it with
  | one c => exact (decStr_spec c).2.2.1
  | range lo n => simp [CompItem.text]

theorem text_comma (it : CompItem) : ',' ∉ it.text := by
  cases it with
  | one c => exact (decStr_spec c).2.2.2
  | range lo n =>
    simp only [CompItem.text, List.mem_append, not_or]
    exact ⟨⟨(decStr_spec _).2.2.2, by decide⟩, (decStr_spec _).2.2.2⟩

theorem compItems_text (its : List CompItem) (acc : List Nat) (h : ∀ it ∈ its, ∀ c ∈ it.comps, c < 2 ^ 16)
    (hl : acc.length + (its.flatMap CompItem.comps).length ≤ kMaxComponents) :
    compItems (its.map CompItem.text) acc = (acc ++ its.flatMap CompItem.comps, true) := by
  induction its generalizing acc with
  | nil => simp [compItems]
  | cons it its ih =>
    rw [List.flatMap_cons, List.length_append] at hl
    rw [List.map_cons, compItems, if_neg (by simp [text_ne]), compItem_text it acc (h it (by simp)) (by omega)]
    simp only
    rw [ih _ (fun x hx => h x (List.mem_cons_of_mem _ hx)) (by rw [List.length_append]; omega), List.flatMap_cons,
      List.append_assoc]

/-! ### The whole query -/

/-- The view windows a client may hold: 32-bit fields, 16-bit components, no more of these than can exist. -/
def ViewWindow.Ok (vw : ViewWindow) : Prop :=
  vw.fx < 2 ^ 32 ∧ vw.fy < 2 ^ 32 ∧ vw.ox < 2 ^ 32 ∧ vw.oy < 2 ^ 32 ∧ vw.sx < 2 ^ 32 ∧ vw.sy < 2 ^ 32 ∧
    (∀ c ∈ vw.comps, c < 2 ^ 16) ∧ vw.comps.length ≤ 16384

/-- The request the server should see for a view window and a cache-model string. -/
def wantedReq (vw : ViewWindow) (model : List Char) : JpipRequest :=
  { vw := vw, hasFsiz := true, hasRoff := decide (vw.ox ≠ 0 ∨ vw.oy ≠ 0), hasRsiz := decide (vw.sx ≠ 0 ∨ vw.sy ≠ 0),
    hasComps := decide (vw.comps ≠ []), type := "jpp-stream".toList, model := model }

/-- One step of `applyParams` on a parameter `key=value`. -/
theorem applyParams_kv (key val : List Char) (ps : List (List Char)) (r r' : JpipRequest) (hk : '=' ∉ key)
    (h : applyParam r key val = (r', .ok)) : applyParams ((key ++ '=' :: val) :: ps) r = applyParams ps r' := by
  rw [applyParams, if_neg (by cases key <;> simp), cutAt_append _ _ _ hk]
  simp only [Option.getD_some, h]

/-- The optional middle parameters of a query. -/
def midParams (vw : ViewWindow) : List (List Char) :=
  (if vw.ox ≠ 0 ∨ vw.oy ≠ 0 then [['r', 'o', 'f', 'f'] ++ '=' :: (decStr vw.ox ++ [','] ++ decStr vw.oy)] else []) ++
  ((if vw.sx ≠ 0 ∨ vw.sy ≠ 0 then [['r', 's', 'i', 'z'] ++ '=' :: (decStr vw.sx ++ [','] ++ decStr vw.sy)] else []) ++
   (if vw.comps ≠ [] then [['c', 'o', 'm', 'p', 's'] ++ '=' :: joinCommas (vw.comps.map decStr)] else []))

/-- All parameters of a query. -/
def queryParams (vw : ViewWindow) (model : Option (List Char)) : List (List Char) :=
  (['f', 's', 'i', 'z'] ++ '=' :: (decStr vw.fx ++ [','] ++ decStr vw.fy ++ roundText vw.round)) ::
    (midParams vw ++ ((['t', 'y', 'p', 'e'] ++ '=' :: jppStream) ::
      (match model with
       | none => []
       | some m => [['m', 'o', 'd', 'e', 'l'] ++ '=' :: m])))

/-- Everything the client sends between "?" and " HTTP". -/
def fullQuery (vw : ViewWindow) (model : Option (List Char)) : List Char :=
  formatQuery vw ++
  (match model with
   | none => []
   | some m => ['&', 'm', 'o', 'd', 'e', 'l', '='] ++ m)

theorem roundText_mem (d : Round) (c : Char) (h : c = '&' ∨ c = ' ') : c ∉ roundText d := by
  rcases h with rfl | rfl <;> cases d <;> decide

theorem digit_sep : isDigitC '&' = false ∧ isDigitC ' ' = false := by decide

theorem splitOnC_flat (ps : List (List Char)) (t : List Char) (ht : '&' ∉ t) (h : ∀ p ∈ ps, '&' ∉ p) :
    splitOnC '&' (t ++ ps.flatMap fun p => '&' :: p) = t :: ps := by
  induction ps generalizing t with
  | nil => simp [splitOnC_tok _ _ ht]
  | cons p ps ih =>
    rw [List.flatMap_cons, List.cons_append, splitOnC_append _ _ _ ht,
      ih p (h p (by simp)) fun x hx => h x (List.mem_cons_of_mem _ hx)]

theorem fullQuery_eq (vw : ViewWindow) (model : Option (List Char)) :
    fullQuery vw model = (['f', 's', 'i', 'z'] ++ '=' :: (decStr vw.fx ++ [','] ++ decStr vw.fy ++ roundText vw.round)) ++
      (midParams vw ++ ((['t', 'y', 'p', 'e'] ++ '=' :: jppStream) ::
      (match model with
       | none => []
       | some m => [['m', 'o', 'd', 'e', 'l'] ++ '=' :: m]))).flatMap fun p => '&' :: p := by
  unfold fullQuery formatQuery midParams
  cases model <;> split_ifs <;> simp [List.flatMap_append]

/-- No parameter holds a separator. -/
theorem queryParams_sep (vw : ViewWindow) (model : Option (List Char)) (c : Char) (h : c = '&' ∨ c = ' ')
    (hm : ∀ m, model = some m → c ∉ m) : ∀ p ∈ queryParams vw model, c ∉ p := by
  have hd : isDigitC c = false := by rcases h with rfl | rfl <;> decide
  have hc : c ≠ ',' ∧ c ≠ '=' := by rcases h with rfl | rfl <;> decide
  have hk : c ∉ ['f', 's', 'i', 'z'] ∧ c ∉ ['r', 'o', 'f', 'f'] ∧ c ∉ ['r', 's', 'i', 'z'] ∧ c ∉ ['c', 'o', 'm', 'p', 's'] ∧
      c ∉ ['t', 'y', 'p', 'e'] ∧ c ∉ jppStream ∧ c ∉ ['m', 'o', 'd', 'e', 'l'] := by rcases h with rfl | rfl <;> decide
  obtain ⟨k1, k2, k3, k4, k5, k6, k7⟩ := hk
  have hn := fun n => decStr_not_mem n c hd
  have hr := roundText_mem vw.round c h
  have hj : c ∉ joinCommas (vw.comps.map decStr) := by
    refine joinCommas_not_mem _ _ hc.1 ?_
    intro t ht
    obtain ⟨n, -, rfl⟩ := List.mem_map.1 ht
    exact hn n
  have pair : ∀ a b, c ∉ decStr a ++ [','] ++ decStr b := by
    intro a b
    simp only [List.mem_append, List.mem_singleton, not_or]
    exact ⟨⟨hn a, hc.1⟩, hn b⟩
  have kv : ∀ k v : List Char, c ∉ k → c ∉ v → c ∉ k ++ '=' :: v := by
    intro k v h1 h2
    simp only [List.mem_append, List.mem_cons, not_or]
    exact ⟨h1, hc.2, h2⟩
  intro p hp
  simp only [queryParams, midParams, List.mem_cons, List.mem_append] at hp
  rcases hp with rfl | (hp | hp | hp) | rfl | hp
  · exact kv _ _ k1 (by rw [List.mem_append, not_or]; exact ⟨pair _ _, hr⟩)
  · split_ifs at hp
    · rw [List.mem_singleton] at hp; rw [hp]; exact kv _ _ k2 (pair _ _)
    · simp at hp
  · split_ifs at hp
    · rw [List.mem_singleton] at hp; rw [hp]; exact kv _ _ k3 (pair _ _)
    · simp at hp
  · split_ifs at hp
    · rw [List.mem_singleton] at hp; rw [hp]; exact kv _ _ k4 hj
    · simp at hp
  · exact kv _ _ k5 k6
  · cases model with
    | none => simp at hp
    | some m =>
      simp only [List.mem_singleton] at hp
      rw [hp]
      exact kv _ _ k7 (hm m rfl)

theorem mid_roff (vw : ViewWindow) (hv : vw.Ok) (r : JpipRequest) (ps : List (List Char)) (h0 : r.vw.ox = 0 ∧ r.vw.oy = 0)
    (hf : r.hasRoff = false) :
    applyParams ((if vw.ox ≠ 0 ∨ vw.oy ≠ 0 then [['r', 'o', 'f', 'f'] ++ '=' :: (decStr vw.ox ++ [','] ++ decStr vw.oy)] else []) ++ ps) r =
      applyParams ps { r with vw := { r.vw with ox := vw.ox, oy := vw.oy }, hasRoff := decide (vw.ox ≠ 0 ∨ vw.oy ≠ 0) } := by
  obtain ⟨h1, h2, h3, h4, h5, h6, h7, h8⟩ := hv
  by_cases h : vw.ox ≠ 0 ∨ vw.oy ≠ 0
  · rw [if_pos h, List.singleton_append, applyParams_kv _ _ _ _ _ (by decide)]
    unfold applyParam
    rw [if_neg (by decide), if_neg (by decide), if_pos rfl, parsePair_dec _ _ _ _ h3 h4]
    simp [h]
  · rw [if_neg h, List.nil_append]
    simp only [ne_eq, not_or, not_not] at h
    congr 1
    obtain ⟨rt, ⟨wfx, wfy, wox, woy, wsx, wsy, wc, wr⟩⟩ := r
    simp at h0 hf
    simp [h.1, h.2, h0.1, h0.2, hf]

theorem mid_rsiz (vw : ViewWindow) (hv : vw.Ok) (r : JpipRequest) (ps : List (List Char)) (h0 : r.vw.sx = 0 ∧ r.vw.sy = 0)
    (hf : r.hasRsiz = false) :
    applyParams ((if vw.sx ≠ 0 ∨ vw.sy ≠ 0 then [['r', 's', 'i', 'z'] ++ '=' :: (decStr vw.sx ++ [','] ++ decStr vw.sy)] else []) ++ ps) r =
      applyParams ps { r with vw := { r.vw with sx := vw.sx, sy := vw.sy }, hasRsiz := decide (vw.sx ≠ 0 ∨ vw.sy ≠ 0) } := by
  obtain ⟨h1, h2, h3, h4, h5, h6, h7, h8⟩ := hv
  by_cases h : vw.sx ≠ 0 ∨ vw.sy ≠ 0
  · rw [if_pos h, List.singleton_append, applyParams_kv _ _ _ _ _ (by decide)]
    unfold applyParam
    rw [if_neg (by decide), if_neg (by decide), if_neg (by decide), if_pos rfl, parsePair_dec _ _ _ _ h5 h6]
    simp [h]
  · rw [if_neg h, List.nil_append]
    simp only [ne_eq, not_or, not_not] at h
    congr 1
    obtain ⟨rt, ⟨wfx, wfy, wox, woy, wsx, wsy, wc, wr⟩⟩ := r
    simp at h0 hf
    simp [h.1, h.2, h0.1, h0.2, hf]

theorem mid_comps (vw : ViewWindow) (hv : vw.Ok) (r : JpipRequest) (ps : List (List Char)) (h0 : r.vw.comps = [])
    (hf : r.hasComps = false) :
    applyParams ((if vw.comps ≠ [] then [['c', 'o', 'm', 'p', 's'] ++ '=' :: joinCommas (vw.comps.map decStr)] else []) ++ ps) r =
      applyParams ps { r with vw := { r.vw with comps := vw.comps }, hasComps := decide (vw.comps ≠ []) } := by
  obtain ⟨h1, h2, h3, h4, h5, h6, h7, h8⟩ := hv
  by_cases h : vw.comps ≠ []
  · rw [if_pos h, List.singleton_append, applyParams_kv _ _ _ _ _ (by decide)]
    unfold applyParam
    iterate 4 rw [if_neg (by decide)]
    rw [if_pos rfl]
    have hs : splitOnC ',' (joinCommas (vw.comps.map decStr)) = vw.comps.map decStr := by
      refine splitOnC_join _ (by simpa using h) ?_
      intro t ht
      obtain ⟨n, -, rfl⟩ := List.mem_map.1 ht
      exact (decStr_spec n).2.2.2
    have hmap : vw.comps.map decStr = (vw.comps.map CompItem.one).map CompItem.text := by simp [CompItem.text, Function.comp_def]
    have hflat : (vw.comps.map CompItem.one).flatMap CompItem.comps = vw.comps := by
      rw [List.flatMap_map]; simp [CompItem.comps]
    have := compItems_text (vw.comps.map CompItem.one) [] (by simpa [CompItem.comps] using h7)
      (by rw [hflat]; simpa [kMaxComponents] using h8)
    rw [hs, hmap, this, hflat]
    simp [h]
  · rw [if_neg h, List.nil_append]
    simp only [ne_eq, not_not] at h
    congr 1
    obtain ⟨rt, rvw⟩ := r
    simp at h0 hf
    simp [h, ← h0, hf]

theorem applyParams_query (vw : ViewWindow) (hv : vw.Ok) (model : Option (List Char)) :
    applyParams (queryParams vw model) {} = (wantedReq vw (model.getD []), .ok) := by
  unfold queryParams midParams
  rw [applyParams_kv _ _ _ _ _ (by decide) (show applyParam _ ['f', 's', 'i', 'z'] _ = _ by
    unfold applyParam
    rw [if_neg (by decide), if_pos rfl, parseFsiz_dec _ _ _ _ hv.1 hv.2.1 rfl])]
  rw [List.append_assoc, mid_roff vw hv _ _ ⟨rfl, rfl⟩ rfl, List.append_assoc, mid_rsiz vw hv _ _ ⟨rfl, rfl⟩ rfl,
    mid_comps vw hv _ _ rfl rfl]
  rw [applyParams_kv _ _ _ _ _ (by decide) (show applyParam _ ['t', 'y', 'p', 'e'] jppStream = _ by
    unfold applyParam
    iterate 8 rw [if_neg (by decide)]
    rw [if_pos rfl, if_pos (by decide)])]
  cases model with
  | none => rfl
  | some m =>
    simp only
    rw [applyParams_kv _ _ _ _ _ (by decide) (show applyParam _ ['m', 'o', 'd', 'e', 'l'] m = _ by
      unfold applyParam
      iterate 5 rw [if_neg (by decide)]
      rw [if_pos rfl])]
    rfl

theorem parse_fullQuery (vw : ViewWindow) (hv : vw.Ok) (model : Option (List Char)) (hm : ∀ m, model = some m → '&' ∉ m) :
    parseQuery (fullQuery vw model) = (wantedReq vw (model.getD []), .ok) := by
  have hs := queryParams_sep vw model '&' (Or.inl rfl) hm
  have hq := fullQuery_eq vw model
  have hsplit : splitOnC '&' (fullQuery vw model) = queryParams vw model := by
    rw [hq, splitOnC_flat _ _ (hs _ (by simp [queryParams])) (fun p hp => hs p (List.mem_cons_of_mem _ hp))]
    rfl
  obtain ⟨tl, htl⟩ : ∃ tl, fullQuery vw model = 'f' :: tl := ⟨_, by rw [hq]; rfl⟩
  rw [← applyParams_query vw hv model, ← hsplit, htl]
  unfold parseQuery
  simp

/-- C15: a query made from a view window is parsed back to exactly that view window, and to nothing else. -/
theorem C15_query_roundtrip (vw : ViewWindow) (hv : vw.Ok) : parseQuery (formatQuery vw) = (wantedReq vw [], .ok) := by
  have := parse_fullQuery vw hv none (by simp)
  simpa [fullQuery] using this

/-- A corner view window with every optional field. -/
example : ViewWindow.Ok ⟨4294967295, 1, 0, 7, 9, 0, [0, 65535, 3], .closest⟩ := by
  refine ⟨by decide, by decide, by decide, by decide, by decide, by decide, by decide, by decide⟩

theorem groupTokens_mem (g : ClassGroup) (t : List Char) (ht : t ∈ groupTokens g) (c : Char) (hc : c ∈ t) : c ≠ '&' ∧ c ≠ ' ' := by
  have hd : ∀ n, c ∈ decStr n → c ≠ '&' ∧ c ≠ ' ' := by
    intro n h
    refine ⟨?_, ?_⟩ <;> rintro rfl <;> exact decStr_not_mem n _ (by decide) h
  have hp : ∀ p, classPrefix g.cls = some p → c ∈ p → c ≠ '&' ∧ c ≠ ' ' := by
    intro p h hm
    unfold classPrefix at h
    have hp : '&' ∉ p ∧ ' ' ∉ p := by split_ifs at h <;> cases h <;> decide
    exact ⟨fun e => hp.1 (e ▸ hm), fun e => hp.2 (e ▸ hm)⟩
  unfold groupTokens at ht
  split at ht
  · simp at ht
  · rename_i pfx hpfx
    have hp := hp pfx hpfx
    split_ifs at ht with h1 h2
    · simp only [List.nil_append, List.mem_map] at ht
      obtain ⟨p, -, rfl⟩ := ht
      simp only [List.mem_append, List.mem_singleton] at hc
      rcases hc with (hc | rfl) | hc
      · exact hp hc
      · decide
      · exact hd _ hc
    · simp only [List.mem_append, List.mem_singleton, List.mem_map] at ht
      rcases ht with rfl | ⟨p, -, rfl⟩
      · exact hp hc
      · simp only [List.mem_append, List.mem_singleton] at hc
        rcases hc with (hc | rfl) | hc
        · exact hp hc
        · decide
        · exact hd _ hc
    · simp only [List.mem_append, List.mem_map] at ht
      rcases ht with ⟨p, -, rfl⟩ | ⟨p, -, rfl⟩
      · split_ifs at hc
        · simp only [List.mem_append, List.mem_singleton] at hc
          rcases hc with ((hc | hc) | rfl) | hc
          · exact hp hc
          · exact hd _ hc
          · decide
          · exact hd _ hc
        · simp only [List.mem_append] at hc
          rcases hc with hc | hc
          · exact hp hc
          · exact hd _ hc
      · simp only [List.mem_append, List.mem_singleton] at hc
        rcases hc with ((hc | hc) | rfl) | hc
        · exact hp hc
        · exact hd _ hc
        · decide
        · exact hd _ hc

theorem formatModel_sep (es : List (Nat × CacheEntry)) : '&' ∉ formatModel es ∧ ' ' ∉ formatModel es := by
  constructor <;>
  · refine joinCommas_not_mem _ _ (by decide) ?_
    intro t ht h
    obtain ⟨g, -, hg⟩ := List.mem_flatMap.1 ht
    have := groupTokens_mem g t hg _ h
    simp at this

/-- C15: the request line the client sends, with its cache model if it has one, is split and parsed by the server into
the same view window and the same cache-model string. -/
theorem C15_request_line_roundtrip (vw : ViewWindow) (hv : vw.Ok) (model : Option (List (Nat × CacheEntry))) :
    ∃ q, splitGetLine (requestLine vw (model.map formatModel)) = some ("/jpip".toList, q) ∧
      parseQuery q = (wantedReq vw ((model.map formatModel).getD []), .ok) := by
  have hm : ∀ c, c = '&' ∨ c = ' ' → ∀ m, model.map formatModel = some m → c ∉ m := by
    intro c hc m h
    cases model with
    | none => cases h
    | some es =>
      cases h
      rcases hc with rfl | rfl
      · exact (formatModel_sep es).1
      · exact (formatModel_sep es).2
  generalize model.map formatModel = mo at hm
  refine ⟨fullQuery vw mo, ?_, parse_fullQuery vw hv mo (hm _ (Or.inl rfl))⟩
  have hsp : ' ' ∉ fullQuery vw mo := by
    rw [fullQuery_eq]
    have hs := queryParams_sep vw mo ' ' (Or.inr rfl) (hm _ (Or.inr rfl))
    intro h
    rcases List.mem_append.1 h with h | h
    · exact hs _ (by simp [queryParams]) h
    · obtain ⟨p, hp, h⟩ := List.mem_flatMap.1 h
      rcases List.mem_cons.1 h with h | h
      · cases h
      · exact hs p (List.mem_cons_of_mem _ hp) h
  have hline : requestLine vw mo = ['G', 'E', 'T', ' '] ++ ((['/', 'j', 'p', 'i', 'p'] ++ '?' :: fullQuery vw mo) ++
      ' ' :: ['H', 'T', 'T', 'P', '/', '1', '.', '1']) := by
    unfold requestLine fullQuery
    cases mo <;> simp
  have hu : ' ' ∉ ['/', 'j', 'p', 'i', 'p'] ++ '?' :: fullQuery vw mo := by
    simp only [List.mem_append, List.mem_cons, not_or]
    exact ⟨by decide, by decide, hsp⟩
  unfold splitGetLine
  rw [hline, if_neg (by simp only [List.length_append, List.length_cons, List.length_nil]; omega),
    if_neg (by simp), show ∀ l, List.drop 4 (['G', 'E', 'T', ' '] ++ l) = l from fun _ => rfl, cutAt_append _ _ _ hu]
  simp only
  rw [cutAt_append _ _ _ (by decide)]
  rfl

/-- C15: a component list of single indices and ranges means what it says, as long as the components can exist. -/
theorem C15_component_ranges (its : List CompItem) (hne : its ≠ []) (h : ∀ it ∈ its, ∀ c ∈ it.comps, c < 2 ^ 16)
    (hl : (its.flatMap CompItem.comps).length ≤ 16384) :
    parseQuery ("comps=".toList ++ joinCommas (its.map CompItem.text)) =
      ({ vw := { comps := its.flatMap CompItem.comps }, hasComps := true }, .ok) := by
  have hamp : '&' ∉ ['c', 'o', 'm', 'p', 's'] ++ '=' :: joinCommas (its.map CompItem.text) := by
    simp only [List.mem_append, List.mem_cons, not_or]
    refine ⟨by decide, by decide, joinCommas_not_mem _ _ (by decide) ?_⟩
    intro t ht
    obtain ⟨it, -, rfl⟩ := List.mem_map.1 ht
    cases it with
    | one c => exact decStr_not_mem _ _ (by decide)
    | range lo n =>
      simp only [CompItem.text, List.mem_append, not_or]
      exact ⟨⟨decStr_not_mem _ _ (by decide), by decide⟩, decStr_not_mem _ _ (by decide)⟩
  have hs : splitOnC ',' (joinCommas (its.map CompItem.text)) = its.map CompItem.text := by
    refine splitOnC_join _ (by simpa using hne) ?_
    intro t ht
    obtain ⟨it, -, rfl⟩ := List.mem_map.1 ht
    exact text_comma it
  rw [show "comps=".toList ++ joinCommas (its.map CompItem.text) =
    ['c', 'o', 'm', 'p', 's'] ++ '=' :: joinCommas (its.map CompItem.text) from rfl]
  have : parseQuery (['c', 'o', 'm', 'p', 's'] ++ '=' :: joinCommas (its.map CompItem.text)) =
      applyParams [['c', 'o', 'm', 'p', 's'] ++ '=' :: joinCommas (its.map CompItem.text)] {} := by
    rw [← splitOnC_tok '&' _ hamp]
    unfold parseQuery
    simp
  rw [this, applyParams_kv _ _ _ _ _ (by decide) (show applyParam _ _ _ = _ by
    unfold applyParam
    iterate 4 rw [if_neg (by decide)]
    rw [if_pos rfl, hs, compItems_text its [] h (by simpa [kMaxComponents] using hl)]
    simp only [if_true, List.nil_append]
    rfl)]
  rfl

/-- "comps=0,3-5". -/
example : (parseQuery "comps=0,3-5".toList).1.vw.comps = [0, 3, 4, 5] := by
  have := C15_component_ranges [.one 0, .range 3 2] (by simp) (by decide) (by decide)
  have e : "comps=".toList ++ joinCommas ([CompItem.one 0, .range 3 2].map CompItem.text) = "comps=0,3-5".toList := by
    simp [joinCommas, CompItem.text, decStr]
  rw [e] at this
  rw [this]
  decide

/-! ### Bounds for hostile queries -/

/-- The request is within the limits of its field types, and its component list within its cap. -/
structure JpipRequest.InBounds (r : JpipRequest) : Prop where
  window : r.vw.Ok
  len : r.len < 2 ^ 64
  quality : r.quality < 2 ^ 32
  qid : r.qid < 2 ^ 64

theorem pushRange_bound (k hi v : Nat) (acc : List Nat) (hk : kMaxComponents - acc.length ≤ k) (h : acc.length ≤ kMaxComponents)
    (hm : ∀ c ∈ acc, c < 2 ^ 16) :
    (pushRange hi v acc).1.length ≤ kMaxComponents ∧ ∀ c ∈ (pushRange hi v acc).1, c < 2 ^ 16 := by
  induction k generalizing v acc with
  | zero =>
    rw [pushRange]
    split_ifs with h1 h2
    · exact ⟨h, hm⟩
    · omega
    · exact ⟨h, hm⟩
  | succ k ih =>
    rw [pushRange]
    split_ifs with h1 h2
    · exact ⟨h, hm⟩
    · refine ih _ _ (by simp; omega) (by simp; omega) ?_
      intro c hc
      simp only [List.mem_append, List.mem_singleton] at hc
      rcases hc with hc | rfl
      · exact hm c hc
      · exact Nat.mod_lt _ (by decide)
    · exact ⟨h, hm⟩

theorem compItem_bound (it : List Char) (acc : List Nat) (h : acc.length ≤ kMaxComponents) (hm : ∀ c ∈ acc, c < 2 ^ 16) :
    (compItem it acc).1.length ≤ kMaxComponents ∧ ∀ c ∈ (compItem it acc).1, c < 2 ^ 16 := by
  unfold compItem
  split
  · exact ⟨h, hm⟩
  · split
    · exact pushRange_bound _ _ _ _ le_rfl h hm
    · split_ifs
      · split
        · exact ⟨h, hm⟩
        · split_ifs
          · exact ⟨h, hm⟩
          · exact pushRange_bound _ _ _ _ le_rfl h hm
      · exact ⟨h, hm⟩
      · exact pushRange_bound _ _ _ _ le_rfl h hm

theorem compItems_bound (its : List (List Char)) (acc : List Nat) (h : acc.length ≤ kMaxComponents) (hm : ∀ c ∈ acc, c < 2 ^ 16) :
    (compItems its acc).1.length ≤ kMaxComponents ∧ ∀ c ∈ (compItems its acc).1, c < 2 ^ 16 := by
  induction its generalizing acc with
  | nil => exact ⟨h, hm⟩
  | cons it its ih =>
    rw [compItems]
    split_ifs
    · exact ih acc h hm
    · have hb := compItem_bound it acc h hm
      rcases hc : compItem it acc with ⟨a, b⟩
      rw [hc] at hb
      cases b
      · exact hb
      · exact ih a hb.1 hb.2

theorem strtoull_lt (s : List Char) (v : Nat) (e : List Char) (h : strtoull s = some (v, e)) : v < 2 ^ 64 := by
  unfold strtoull at h
  simp only at h
  split_ifs at h <;> cases h
  · omega
  · exact Nat.mod_lt _ (by decide)
  · omega

theorem parseNumber_lt (s : List Char) (n : Nat) (h : parseNumber s = some n) : n < 2 ^ 64 := by
  unfold parseNumber at h
  split at h
  · cases h
  · rename_i v e hs
    split_ifs at h
    cases h
    exact strtoull_lt s _ _ hs

theorem parsePair_bound (s : List Char) (a b : Nat) (ha : a < 2 ^ 32) (hb : b < 2 ^ 32) :
    (parsePair s a b).1 < 2 ^ 32 ∧ (parsePair s a b).2.1 < 2 ^ 32 := by
  have hm : ∀ x, x % 2 ^ 32 < 2 ^ 32 := fun x => Nat.mod_lt _ (by decide)
  unfold parsePair
  split
  · exact ⟨ha, hb⟩
  · simp only
    split_ifs
    · exact ⟨hm _, hb⟩
    · exact ⟨hm _, hm _⟩

theorem parseFsiz_bound (r : JpipRequest) (s : List Char) (h : r.InBounds) : (parseFsiz r s).1.InBounds := by
  have hm : ∀ x, x % 2 ^ 32 < 2 ^ 32 := fun x => Nat.mod_lt _ (by decide)
  obtain ⟨⟨h1, h2, h3⟩, h4, h5, h6⟩ := h
  unfold parseFsiz
  split
  · exact ⟨⟨h1, h2, h3⟩, h4, h5, h6⟩
  · rename_i _ _ rest _
    simp only
    by_cases e1 : (strtoulE s).2.length ≠ rest.length + 1
    · rw [if_pos e1]; exact ⟨⟨hm _, h2, h3⟩, h4, h5, h6⟩
    · rw [if_neg e1]
      split
      · split_ifs <;> exact ⟨⟨hm _, hm _, h3⟩, h4, h5, h6⟩
      · split_ifs <;> exact ⟨⟨hm _, hm _, h3⟩, h4, h5, h6⟩

theorem applyParam_bound (r : JpipRequest) (k v : List Char) (h : r.InBounds) : (applyParam r k v).1.InBounds := by
  have hf := parseFsiz_bound r v h
  obtain ⟨⟨h1, h2, h3, h4, h5, h6, h7, h8⟩, hl, hq, hi⟩ := h
  have hro := parsePair_bound v r.vw.ox r.vw.oy h3 h4
  have hrs := parsePair_bound v r.vw.sx r.vw.sy h5 h6
  have hc := compItems_bound (splitOnC ',' v) [] (by simp) (by simp)
  have hw : r.vw.Ok := ⟨h1, h2, h3, h4, h5, h6, h7, h8⟩
  have hn : ∀ n, parseNumber v = some n → n < 2 ^ 64 := fun n => parseNumber_lt v n
  have hmod : ∀ x, x % 2 ^ 32 < 2 ^ 32 := fun x => Nat.mod_lt _ (by decide)
  unfold applyParam
  by_cases e1 : k = ['t', 'a', 'r', 'g', 'e', 't']
  · rw [if_pos e1]; exact ⟨hw, hl, hq, hi⟩
  rw [if_neg e1]
  by_cases e2 : k = ['f', 's', 'i', 'z']
  · rw [if_pos e2]; exact hf
  rw [if_neg e2]
  by_cases e3 : k = ['r', 'o', 'f', 'f']
  · rw [if_pos e3]; simp only; split_ifs <;> exact ⟨⟨h1, h2, hro.1, hro.2, h5, h6, h7, h8⟩, hl, hq, hi⟩
  rw [if_neg e3]
  by_cases e4 : k = ['r', 's', 'i', 'z']
  · rw [if_pos e4]; simp only; split_ifs <;> exact ⟨⟨h1, h2, h3, h4, hrs.1, hrs.2, h7, h8⟩, hl, hq, hi⟩
  rw [if_neg e4]
  by_cases e5 : k = ['c', 'o', 'm', 'p', 's']
  · rw [if_pos e5]; simp only; split_ifs <;> exact ⟨⟨h1, h2, h3, h4, h5, h6, hc.2, hc.1⟩, hl, hq, hi⟩
  rw [if_neg e5]
  by_cases e6 : k = ['m', 'o', 'd', 'e', 'l']
  · rw [if_pos e6]; exact ⟨hw, hl, hq, hi⟩
  rw [if_neg e6]
  by_cases e7 : k = ['l', 'e', 'n']
  · rw [if_pos e7]
    split
    · exact ⟨hw, hl, hq, hi⟩
    · exact ⟨hw, hn _ (by assumption), hq, hi⟩
  rw [if_neg e7]
  by_cases e8 : k = ['q', 'u', 'a', 'l', 'i', 't', 'y']
  · rw [if_pos e8]
    split
    · exact ⟨hw, hl, hq, hi⟩
    · exact ⟨hw, hl, hmod _, hi⟩
  rw [if_neg e8]
  by_cases e9 : k = ['t', 'y', 'p', 'e']
  · rw [if_pos e9]; split_ifs <;> exact ⟨hw, hl, hq, hi⟩
  rw [if_neg e9]
  by_cases e10 : k = ['c', 'n', 'e', 'w']
  · rw [if_pos e10]; exact ⟨hw, hl, hq, hi⟩
  rw [if_neg e10]
  by_cases e11 : k = ['c', 'i', 'd']
  · rw [if_pos e11]; exact ⟨hw, hl, hq, hi⟩
  rw [if_neg e11]
  by_cases e12 : k = ['c', 'c', 'l', 'o', 's', 'e']
  · rw [if_pos e12]; exact ⟨hw, hl, hq, hi⟩
  rw [if_neg e12]
  by_cases e13 : k = ['q', 'i', 'd']
  · rw [if_pos e13]
    split
    · exact ⟨hw, hl, hq, hi⟩
    · exact ⟨hw, hl, hq, hn _ (by assumption)⟩
  rw [if_neg e13]
  exact ⟨hw, hl, hq, hi⟩

theorem applyParams_bound (ps : List (List Char)) (r : JpipRequest) (h : r.InBounds) : (applyParams ps r).1.InBounds := by
  induction ps generalizing r with
  | nil => exact h
  | cons p ps ih =>
    rw [applyParams]
    split_ifs
    · exact ih r h
    · have hb := applyParam_bound r (cutAt '=' p).1 ((cutAt '=' p).2.getD []) h
      rcases he : applyParam r (cutAt '=' p).1 ((cutAt '=' p).2.getD []) with ⟨r', st⟩
      rw [he] at hb
      cases st
      · exact ih r' hb
      · exact hb
      · exact hb
      · exact hb

/-- C15: whatever the query says, parsing ends and every field of the request is within its type's range; the component
list never has more than 16384 entries. -/
theorem C15_parsed_in_bounds (q : List Char) : (parseQuery q).1.InBounds := by
  have h0 : ({} : JpipRequest).InBounds := ⟨by refine ⟨?_, ?_, ?_, ?_, ?_, ?_, ?_, ?_⟩ <;> simp, by simp, by simp, by simp⟩
  unfold parseQuery
  simp only
  split_ifs
  · exact h0
  · exact applyParams_bound _ _ h0

/-- The keys that the parser knows. -/
def knownKeys : List (List Char) :=
  ["target", "fsiz", "roff", "rsiz", "comps", "model", "len", "quality", "type", "cnew", "cid", "cclose", "qid"].map String.toList

theorem applyParam_unknown (r : JpipRequest) (k v : List Char) (h : k ∉ knownKeys) : applyParam r k v = (r, .ok) := by
  have hk : knownKeys = [['t', 'a', 'r', 'g', 'e', 't'], ['f', 's', 'i', 'z'], ['r', 'o', 'f', 'f'], ['r', 's', 'i', 'z'],
    ['c', 'o', 'm', 'p', 's'], ['m', 'o', 'd', 'e', 'l'], ['l', 'e', 'n'], ['q', 'u', 'a', 'l', 'i', 't', 'y'],
    ['t', 'y', 'p', 'e'], ['c', 'n', 'e', 'w'], ['c', 'i', 'd'], ['c', 'c', 'l', 'o', 's', 'e'], ['q', 'i', 'd']] := by decide
  rw [hk] at h
  simp only [List.mem_cons, List.not_mem_nil, or_false, not_or] at h
  obtain ⟨h1, h2, h3, h4, h5, h6, h7, h8, h9, h10, h11, h12, h13⟩ := h
  unfold applyParam
  rw [if_neg h1, if_neg h2, if_neg h3, if_neg h4, if_neg h5, if_neg h6, if_neg h7, if_neg h8, if_neg h9, if_neg h10,
    if_neg h11, if_neg h12, if_neg h13]

theorem applyParams_skip (ps qs : List (List Char)) (u : List Char) (r : JpipRequest) (h : (cutAt '=' u).1 ∉ knownKeys) :
    applyParams (ps ++ u :: qs) r = applyParams (ps ++ qs) r := by
  induction ps generalizing r with
  | nil =>
    rw [List.nil_append, List.nil_append, applyParams, applyParam_unknown _ _ _ h]
    split_ifs <;> rfl
  | cons p ps ih =>
    rw [List.cons_append, List.cons_append, applyParams, applyParams, ih]
    split_ifs
    · rfl
    · rcases applyParam r (cutAt '=' p).1 ((cutAt '=' p).2.getD []) with ⟨r', st⟩
      cases st
      · exact ih r'
      all_goals rfl

theorem splitOnC_mid (d : Char) (a b : List Char) : splitOnC d (a ++ d :: b) = splitOnC d a ++ splitOnC d b := by
  induction a with
  | nil => simp [splitOnC]
  | cons c cs ih =>
    rw [List.cons_append, splitOnC, splitOnC, ih]
    split_ifs
    · rfl
    · cases hsc : splitOnC d cs with
      | nil =>
        cases cs with
        | nil => simp [splitOnC] at hsc
        | cons x xs =>
          rw [splitOnC] at hsc
          split_ifs at hsc
          split at hsc <;> simp at hsc
      | cons t ts => rfl

/-- C15: a field the server does not know, put anywhere between two others, changes nothing. -/
theorem C15_unknown_field_ignored (a b u : List Char) (ha : a ≠ []) (hu : '&' ∉ u) (hk : (cutAt '=' u).1 ∉ knownKeys) :
    parseQuery (a ++ '&' :: (u ++ '&' :: b)) = parseQuery (a ++ '&' :: b) := by
  have key : ∀ a : List Char, applyParams (splitOnC '&' (a ++ '&' :: (u ++ '&' :: b))) {} =
      applyParams (splitOnC '&' (a ++ '&' :: b)) {} := by
    intro a
    rw [splitOnC_mid, splitOnC_append _ _ _ hu, splitOnC_mid, applyParams_skip _ _ _ _ hk]
  cases a with
  | nil => exact absurd rfl ha
  | cons c cs =>
    have := key cs
    have := key (c :: cs)
    unfold parseQuery
    simp only [List.cons_append]
    split_ifs <;> simp_all

example : (cutAt '=' "stream=0".toList).1 ∉ knownKeys := by decide

/-! ### What the parser accepts although it should not -/

/-- Component 65536 does not exist, but is taken for component 0; a negative size is taken for a huge one; an absent
number is taken for zero. -/
theorem C15_lenient_numbers :
    (parseQuery "comps=65536".toList).2 = .ok ∧ (parseQuery "comps=65536".toList).1.vw.comps = [0] ∧
    (parseQuery "fsiz=-1,5".toList).2 = .ok ∧ (parseQuery "fsiz=-1,5".toList).1.vw.fx = 4294967295 ∧
    (parseQuery "fsiz=,".toList).2 = .ok ∧ (parseQuery "fsiz=,".toList).1.hasFsiz = true := by
  have e : parseQuery "comps=65536".toList = ({ vw := { comps := [0] }, hasComps := true }, .ok) := by
    have h : compItems [['6', '5', '5', '3', '6']] [] = ([0], true) := by
      simp only [compItems]
      rw [if_neg (by decide), compItem, show strtoull ['6', '5', '5', '3', '6'] = some (65536, []) by decide]
      simp only
      rw [pushRange, if_pos le_rfl, dif_neg (by decide), pushRange, if_neg (by decide)]
      rfl
    have hp : parseQuery "comps=65536".toList = applyParams [['c', 'o', 'm', 'p', 's'] ++ '=' :: ['6', '5', '5', '3', '6']] {} := rfl
    rw [hp, applyParams_kv _ _ _ _ _ (by decide) (show applyParam _ _ _ = _ by
      unfold applyParam
      iterate 4 rw [if_neg (by decide)]
      rw [if_pos rfl, show splitOnC ',' ['6', '5', '5', '3', '6'] = [['6', '5', '5', '3', '6']] by decide, h]
      simp only [if_true]
      rfl)]
    rfl
  refine ⟨by rw [e], by rw [e], by decide, by decide, by decide, by decide⟩

end Verif.Jpip
