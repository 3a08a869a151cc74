import Verif.Jpip.CacheModel
import Mathlib.Tactic.Ring
import Mathlib.Tactic.IntervalCases
import Mathlib.Data.List.Basic
/-
Lemmas for the cache model.
-/
namespace Verif.Jpip

/-- The bins the packed key can tell apart: 8-bit class, 56-bit id. -/
def KeyOk (c i : Nat) : Prop := c < 2 ^ 8 ∧ i < 2 ^ 56

theorem cacheKey_eq {c i : Nat} (h : KeyOk c i) : cacheKey c i = c * 2 ^ 56 + i := by
  obtain ⟨h1, h2⟩ := h
  unfold cacheKey
  rw [← Nat.shiftLeft_add_eq_or_of_lt h2, Nat.shiftLeft_eq, Nat.mod_eq_of_lt]
  omega

theorem cacheKey_inj {c i c' i' : Nat} (h : KeyOk c i) (h' : KeyOk c' i') :
    cacheKey c i = cacheKey c' i' ↔ c = c' ∧ i = i' := by
  rw [cacheKey_eq h, cacheKey_eq h']
  obtain ⟨h1, h2⟩ := h
  obtain ⟨h3, h4⟩ := h'
  omega

theorem cacheKey_split {c i : Nat} (h : KeyOk c i) :
    (cacheKey c i >>> 56) % 2 ^ 8 = c ∧ cacheKey c i &&& 0x00FFFFFFFFFFFFFF = i := by
  rw [cacheKey_eq h]
  have e : (0x00FFFFFFFFFFFFFF : Nat) = 2 ^ 56 - 1 := by norm_num
  rw [e, Nat.and_two_pow_sub_one_eq_mod, Nat.shiftRight_eq_div_pow]
  obtain ⟨h1, h2⟩ := h
  constructor <;> omega

theorem cacheKey_of_split {k : Nat} (hk : k < 2 ^ 64) :
    KeyOk ((k >>> 56) % 2 ^ 8) (k &&& 0x00FFFFFFFFFFFFFF) ∧
    cacheKey ((k >>> 56) % 2 ^ 8) (k &&& 0x00FFFFFFFFFFFFFF) = k := by
  have e : (0x00FFFFFFFFFFFFFF : Nat) = 2 ^ 56 - 1 := by norm_num
  rw [e, Nat.and_two_pow_sub_one_eq_mod, Nat.shiftRight_eq_div_pow]
  have : KeyOk (k / 2 ^ 56 % 2 ^ 8) (k % 2 ^ 56) := by
    unfold KeyOk; constructor <;> omega
  refine ⟨this, ?_⟩
  rw [cacheKey_eq this]; omega

theorem mark_obs (m : CacheModel) {c i c' i' : Nat} (h : KeyOk c i) (h' : KeyOk c' i') :
    ((m.mark c i).has c' i' = (m.has c' i' || decide (c = c' ∧ i = i'))) ∧
    ((m.mark c i).receivedBytes c' i' = m.receivedBytes c' i') := by
  by_cases e : c = c' ∧ i = i'
  · obtain ⟨rfl, rfl⟩ := e
    simp only [CacheModel.mark, CacheModel.has, CacheModel.receivedBytes, CacheModel.put]
    cases m.bins (cacheKey c i) <;> simp
  · have : ¬ cacheKey c' i' = cacheKey c i := by
      rw [cacheKey_inj h' h]; exact fun hh => e ⟨hh.1.symm, hh.2.symm⟩
    simp [CacheModel.mark, CacheModel.has, CacheModel.receivedBytes, CacheModel.put, this]
    intro a b; exact absurd ⟨a, b⟩ e

theorem markPartial_obs (m : CacheModel) {c i c' i' : Nat} (b : Nat) (h : KeyOk c i) (h' : KeyOk c' i') :
    ((m.markPartial c i b).has c' i' = m.has c' i') ∧
    ((m.markPartial c i b).receivedBytes c' i' =
      if c = c' ∧ i = i' ∧ m.has c' i' = false then max (m.receivedBytes c' i') b
      else m.receivedBytes c' i') := by
  by_cases e : c = c' ∧ i = i'
  · obtain ⟨rfl, rfl⟩ := e
    simp only [CacheModel.markPartial, CacheModel.has, CacheModel.receivedBytes, CacheModel.put]
    cases hb : m.bins (cacheKey c i) with
    | none =>
      by_cases hb0 : b > 0
      · simp [hb0]
      · simp [hb0]; omega
    | some x =>
      obtain ⟨y, z⟩ := x
      cases z
      · by_cases hy : b > y
        · simp [hy]; omega
        · simp [hy]; omega
      · simp
  · have : ¬ cacheKey c' i' = cacheKey c i := by
      rw [cacheKey_inj h' h]; exact fun hh => e ⟨hh.1.symm, hh.2.symm⟩
    have e' : ¬ (c = c' ∧ i = i' ∧ m.has c' i' = false) := fun hh => e ⟨hh.1, hh.2.1⟩
    rw [if_neg e']
    unfold CacheModel.markPartial
    simp only
    split <;> simp [CacheModel.has, CacheModel.receivedBytes, CacheModel.put, this]

theorem unmark_obs (m : CacheModel) {c i c' i' : Nat} (h : KeyOk c i) (h' : KeyOk c' i') :
    ((m.unmark c i).has c' i' = (m.has c' i' && !decide (c = c' ∧ i = i'))) ∧
    ((m.unmark c i).receivedBytes c' i' = if c = c' ∧ i = i' then 0 else m.receivedBytes c' i') := by
  by_cases e : c = c' ∧ i = i'
  · obtain ⟨rfl, rfl⟩ := e
    simp [CacheModel.unmark, CacheModel.has, CacheModel.receivedBytes]
  · have : ¬ cacheKey c' i' = cacheKey c i := by
      rw [cacheKey_inj h' h]; exact fun hh => e ⟨hh.1.symm, hh.2.symm⟩
    rw [if_neg e, decide_eq_false e]
    simp [CacheModel.unmark, CacheModel.has, CacheModel.receivedBytes, this]

/-! ### Decimal round trip -/

theorem digitChar (d : Nat) (h : d < 10) :
    (Char.ofNat (48 + d)).toNat = 48 + d ∧ isDigitC (Char.ofNat (48 + d)) = true ∧
    isSpaceC (Char.ofNat (48 + d)) = false ∧ Char.ofNat (48 + d) ≠ '-' ∧ Char.ofNat (48 + d) ≠ '+' ∧
    Char.ofNat (48 + d) ≠ ',' ∧ Char.ofNat (48 + d) ≠ ':' := by
  interval_cases d <;> decide

theorem decStr_spec (n : Nat) :
    (∀ c ∈ decStr n, isDigitC c = true) ∧ digitsVal (decStr n) = n ∧ decStr n ≠ [] ∧ ',' ∉ decStr n := by
  induction n using Nat.strongRecOn with
  | ind n ih =>
    rw [decStr]
    split
    · rename_i h
      obtain ⟨h1, h2, h3, h4, h5, h6, h7⟩ := digitChar n h
      exact ⟨by simp [h2], by simp [digitsVal, h1], by simp, by simpa using h6.symm⟩
    · rename_i h
      obtain ⟨i1, i2, i3, i4⟩ := ih (n / 10) (by omega)
      obtain ⟨h1, h2, h3, h4, h5, h6, h7⟩ := digitChar (n % 10) (by omega)
      refine ⟨?_, ?_, by simp, ?_⟩
      · intro c hc
        simp only [List.mem_append, List.mem_singleton] at hc
        rcases hc with hc | rfl
        · exact i1 c hc
        · exact h2
      · unfold digitsVal at i2 ⊢
        rw [List.foldl_append, i2]
        simp only [List.foldl_cons, List.foldl_nil, h1]
        omega
      · simp only [List.mem_append, List.mem_singleton, not_or]
        exact ⟨i4, h6.symm⟩

theorem isDigitC_not (c : Char) (h : isDigitC c = true) : isSpaceC c = false ∧ c ≠ '-' ∧ c ≠ '+' := by
  unfold isDigitC at h
  simp at h
  refine ⟨?_, ?_, ?_⟩
  · unfold isSpaceC
    simp
    constructor
    · rintro rfl; revert h; decide
    · omega
  · rintro rfl; revert h; decide
  · rintro rfl; revert h; decide

/-- A number followed by the end of the token or a non-digit converts to itself. -/
theorem strtoull_decStr (n : Nat) (hn : n < 2 ^ 64) (rest : List Char)
    (hr : ∀ c t, rest = c :: t → isDigitC c = false) :
    strtoull (decStr n ++ rest) = some (n, rest) := by
  obtain ⟨h1, h2, h3, h4⟩ := decStr_spec n
  obtain ⟨d, ds, hd⟩ := List.exists_cons_of_ne_nil h3
  have hdd := isDigitC_not d (h1 d (by rw [hd]; simp))
  have htake : (decStr n ++ rest).takeWhile isDigitC = decStr n := by
    rw [List.takeWhile_append_of_pos h1]
    have : rest.takeWhile isDigitC = [] := by
      cases rest with
      | nil => rfl
      | cons c t => simp [List.takeWhile, hr c t rfl]
    rw [this]; simp
  have hdrop : (decStr n ++ rest).dropWhile isDigitC = rest := by
    rw [List.dropWhile_append_of_pos h1]
    cases rest with
    | nil => rfl
    | cons c t => simp [List.dropWhile, hr c t rfl]
  have hs : (decStr n ++ rest).dropWhile isSpaceC = decStr n ++ rest := by
    rw [hd]; simp [List.dropWhile, hdd.1]
  unfold strtoull
  simp only [hs]
  have hm : signOf (decStr n ++ rest) = (false, decStr n ++ rest) := by
    rw [hd]
    simp only [List.cons_append, signOf, if_neg hdd.2.1, if_neg hdd.2.2]
  rw [hm]
  simp only [htake, hdrop, h2]
  rw [if_neg (by simp [h3]), if_neg (by omega)]
  simp

theorem strtoullVal_decStr (n : Nat) (hn : n < 2 ^ 64) : strtoullVal (decStr n) = n := by
  unfold strtoullVal
  have := strtoull_decStr n hn [] (by simp)
  simp at this
  rw [this]

/-! ### Commas -/

theorem splitCommas_ne (s : List Char) : splitCommas s ≠ [] := by
  cases s with
  | nil => simp [splitCommas]
  | cons c cs =>
    unfold splitCommas
    split
    · simp
    · split <;> simp

theorem splitCommas_tok (t : List Char) (ht : ',' ∉ t) : splitCommas t = [t] := by
  induction t with
  | nil => rfl
  | cons c cs ih =>
    simp at ht
    unfold splitCommas
    rw [if_neg (fun h => ht.1 h.symm), ih ht.2]

theorem splitCommas_append (t s : List Char) (ht : ',' ∉ t) :
    splitCommas (t ++ ',' :: s) = t :: splitCommas s := by
  induction t with
  | nil => simp [splitCommas]
  | cons c cs ih =>
    simp at ht
    rw [List.cons_append, splitCommas, if_neg (fun h => ht.1 h.symm), ih ht.2]

theorem splitCommas_join (ts : List (List Char)) (hne : ts ≠ []) (h : ∀ t ∈ ts, ',' ∉ t) :
    splitCommas (joinCommas ts) = ts := by
  induction ts with
  | nil => simp at hne
  | cons t ts ih =>
    cases ts with
    | nil => simp [joinCommas, splitCommas_tok t (h t (by simp))]
    | cons u us =>
      rw [joinCommas, splitCommas_append _ _ (h t (by simp)), ih (by simp) (fun x hx => h x (by simp [hx]))]
      simp

/-! ### Tokens produced by `format` -/

theorem classPrefix_cases {cls : Nat} {pfx : List Char} (h : classPrefix cls = some pfx) :
    (cls = 6 ∧ pfx = ['H', 'm']) ∨ (cls = 2 ∧ pfx = ['H']) ∨ (cls = 0 ∧ pfx = ['P']) ∨
      (cls = 8 ∧ pfx = ['M']) := by
  unfold classPrefix kMsgClassMainHeader kMsgClassTileHeader kMsgClassPrecinct kMsgClassMetadata at h
  by_cases h6 : cls = 6
  · simp [h6] at h; exact Or.inl ⟨h6, h.symm⟩
  · by_cases h2 : cls = 2
    · simp [h2] at h; exact Or.inr (Or.inl ⟨h2, h.symm⟩)
    · by_cases h0 : cls = 0
      · simp [h0] at h; exact Or.inr (Or.inr (Or.inl ⟨h0, h.symm⟩))
      · by_cases h8 : cls = 8
        · simp [h8] at h; exact Or.inr (Or.inr (Or.inr ⟨h8, h.symm⟩))
        · simp [h6, h2, h0, h8] at h

theorem prefixToClass_digits {cls : Nat} {pfx : List Char} (h : classPrefix cls = some pfx) (h6 : cls ≠ 6)
    (n : Nat) (rest : List Char) :
    (splitMinus (pfx ++ (decStr n ++ rest))).1 = false ∧
    prefixToClass (splitMinus (pfx ++ (decStr n ++ rest))).2 = some (cls, decStr n ++ rest) := by
  obtain ⟨h1, h2, h3, h4⟩ := decStr_spec n
  obtain ⟨d, ds, hd⟩ := List.exists_cons_of_ne_nil h3
  have hdd := h1 d (by rw [hd]; simp)
  have e1 : d ≠ 'm' := by rintro rfl; exact absurd hdd (by decide)
  have e2 : d ≠ 't' := by rintro rfl; exact absurd hdd (by decide)
  have e3 : d ≠ 'p' := by rintro rfl; exact absurd hdd (by decide)
  rcases classPrefix_cases h with ⟨rfl, rfl⟩ | ⟨rfl, rfl⟩ | ⟨rfl, rfl⟩ | ⟨rfl, rfl⟩
  · exact absurd rfl h6
  · rw [hd]
    simp [splitMinus, prefixToClass, e1, e2, e3, kMsgClassTileHeader]
  · simp [splitMinus, prefixToClass, kMsgClassPrecinct]
  · simp [splitMinus, prefixToClass, kMsgClassMetadata]

theorem parseToken_single {cls : Nat} {pfx : List Char} (h : classPrefix cls = some pfx) (h6 : cls ≠ 6)
    (n : Nat) (hn : n < 2 ^ 56) :
    parseToken (pfx ++ decStr n) = some ⟨cls, n, 1, false, none, true⟩ := by
  have hp := prefixToClass_digits h h6 n []
  have hne := (decStr_spec n).2.2.1
  have hs := strtoull_decStr n (by omega) [] (by simp)
  simp only [List.append_nil] at hp hs
  unfold parseToken
  simp only [hp.1, hp.2, kMsgClassMainHeader, h6, if_false, List.isEmpty_iff, hne, hs, parseRangeEnd,
    parsePartial]
  rw [if_neg (by omega)]
  simp

theorem parseToken_range {cls : Nat} {pfx : List Char} (h : classPrefix cls = some pfx) (h6 : cls ≠ 6)
    (a b : Nat) (hab : a ≤ b) (hb : b < 2 ^ 56) :
    parseToken (pfx ++ decStr a ++ ['-'] ++ decStr b) = some ⟨cls, a, b - a + 1, false, none, true⟩ := by
  have hp := prefixToClass_digits h h6 a ('-' :: decStr b)
  have hne := (decStr_spec a).2.2.1
  have hs := strtoull_decStr a (by omega) ('-' :: decStr b) (by
    intro c t hct; simp at hct; rw [← hct.1]; decide)
  have hs2 := strtoull_decStr b (by omega) [] (by simp)
  simp only [List.append_nil] at hs2
  have ha : pfx ++ decStr a ++ ['-'] ++ decStr b = pfx ++ (decStr a ++ '-' :: decStr b) := by simp
  rw [ha]
  unfold parseToken
  simp only [hp.1, hp.2, kMsgClassMainHeader, h6, if_false, List.isEmpty_iff, List.append_eq_nil_iff, hne,
    false_and, hs, parseRangeEnd, if_true, hs2, parsePartial]
  rw [if_neg (by omega)]
  simp only
  rw [if_neg (by omega)]

theorem parseToken_partial {cls : Nat} {pfx : List Char} (h : classPrefix cls = some pfx) (h6 : cls ≠ 6)
    (a b : Nat) (ha : a < 2 ^ 56) (hb : b < 2 ^ 64) :
    parseToken (pfx ++ decStr a ++ [':'] ++ decStr b) = some ⟨cls, a, 1, false, some b, true⟩ := by
  have hp := prefixToClass_digits h h6 a (':' :: decStr b)
  have hne := (decStr_spec a).2.2.1
  have hs := strtoull_decStr a (by omega) (':' :: decStr b) (by
    intro c t hct; simp at hct; rw [← hct.1]; decide)
  have hs2 := strtoullVal_decStr b hb
  have ha : pfx ++ decStr a ++ [':'] ++ decStr b = pfx ++ (decStr a ++ ':' :: decStr b) := by simp
  rw [ha]
  unfold parseToken
  have hc : ¬ (':' = '-') := by decide
  simp only [hp.1, hp.2, kMsgClassMainHeader, h6, if_false, List.isEmpty_iff, List.append_eq_nil_iff, hne,
    false_and, hs, parseRangeEnd, if_neg hc, parsePartial, if_true, hs2]
  rw [if_neg (by omega)]
  simp

theorem parseToken_main : parseToken ['H', 'm'] = some ⟨6, 0, 1, false, none, false⟩ := by rfl

theorem parseToken_main_partial (b : Nat) (hb : b < 2 ^ 64) :
    parseToken (['H', 'm'] ++ [':'] ++ decStr b) = some ⟨6, 0, 1, false, some b, false⟩ := by
  have hs2 := strtoullVal_decStr b hb
  simp [parseToken, splitMinus, prefixToClass, kMsgClassMainHeader, List.dropWhile, parsePartial, hs2]

/-! ### Statements executed on a model -/

/-- Bin `(c,i)` is addressed by the statement. -/
def Stmt.Covers (s : Stmt) (c i : Nat) : Prop := s.cls = c ∧ s.first ≤ i ∧ i < s.first + s.count

instance (s : Stmt) (c i : Nat) : Decidable (s.Covers c i) := by unfold Stmt.Covers; infer_instance

/-- An additive statement whose bins the packed key can tell apart. -/
def Stmt.Good (s : Stmt) : Prop :=
  s.sub = false ∧ s.cls < 2 ^ 8 ∧ s.first + s.count ≤ 2 ^ 56 ∧ (s.countsBudget = false → s.count = 1)

theorem binOp_obs (m : CacheModel) (pb : Option Nat) {c i c' i' : Nat} (h : KeyOk c i) (h' : KeyOk c' i') :
    ((m.binOp false pb c i).has c' i' = (m.has c' i' || decide (c = c' ∧ i = i' ∧ pb = none))) ∧
    (m.has c' i' = false → (m.binOp false pb c i).receivedBytes c' i' =
      if c = c' ∧ i = i' then max (m.receivedBytes c' i') (pb.getD 0) else m.receivedBytes c' i') := by
  unfold CacheModel.binOp
  simp only [Bool.false_eq_true, if_false]
  cases pb with
  | none =>
    have := mark_obs m h h'
    refine ⟨by simp [this.1], fun _ => by rw [this.2]; split <;> simp⟩
  | some b =>
    have := markPartial_obs m b h h'
    refine ⟨by simp [this.1], fun hh => ?_⟩
    rw [this.2, hh]
    by_cases e : c = c' ∧ i = i'
    · simp [e]
    · rw [if_neg e, if_neg (fun x => e ⟨x.1, x.2.1⟩)]

theorem rangeOps_obs (n : Nat) (m : CacheModel) (pb : Option Nat) {c i c' i' : Nat} (hc : c < 2 ^ 8)
    (hi : i + n ≤ 2 ^ 56) (h' : KeyOk c' i') :
    ((m.rangeOps false pb c i n).has c' i' =
      (m.has c' i' || decide ((c = c' ∧ i ≤ i' ∧ i' < i + n) ∧ pb = none))) ∧
    ((m.rangeOps false pb c i n).has c' i' = false → (m.rangeOps false pb c i n).receivedBytes c' i' =
      if c = c' ∧ i ≤ i' ∧ i' < i + n then max (m.receivedBytes c' i') (pb.getD 0)
      else m.receivedBytes c' i') := by
  induction n generalizing m i with
  | zero =>
    simp only [CacheModel.rangeOps, Nat.add_zero]
    have : ¬ (c = c' ∧ i ≤ i' ∧ i' < i) := by omega
    simp [this]
  | succ n ih =>
    have hk : KeyOk c i := ⟨hc, by omega⟩
    have hm : (i + 1) % 2 ^ 64 = i + 1 := Nat.mod_eq_of_lt (by omega)
    obtain ⟨b1, b2⟩ := binOp_obs m pb hk h'
    simp only [CacheModel.rangeOps, hm]
    obtain ⟨i1, i2⟩ := ih (m.binOp false pb c i) (i := i + 1) (by omega)
    constructor
    · rw [i1, b1, Bool.or_assoc]
      congr 1
      rw [← Bool.decide_or]
      apply decide_eq_decide.2
      constructor
      · rintro (⟨rfl, rfl, h⟩ | ⟨⟨rfl, h1, h2⟩, h⟩)
        · exact ⟨⟨rfl, by omega, by omega⟩, h⟩
        · exact ⟨⟨rfl, by omega, by omega⟩, h⟩
      · rintro ⟨⟨rfl, h1, h2⟩, h⟩
        by_cases e : i = i'
        · exact Or.inl ⟨rfl, e, h⟩
        · exact Or.inr ⟨⟨rfl, by omega, by omega⟩, h⟩
    · intro hf
      have hf1 := i1 ▸ hf
      simp only [Bool.or_eq_false_iff] at hf1
      have hf2 := b1 ▸ hf1.1
      simp only [Bool.or_eq_false_iff] at hf2
      rw [i2 hf, b2 hf2.1]
      by_cases e : c = c' ∧ i = i'
      · have e2 : ¬ (c = c' ∧ i + 1 ≤ i' ∧ i' < i + 1 + n) := by omega
        have e3 : c = c' ∧ i ≤ i' ∧ i' < i + (n + 1) := by omega
        rw [if_neg e2, if_pos e, if_pos e3]
      · rw [if_neg e]
        by_cases e2 : c = c' ∧ i + 1 ≤ i' ∧ i' < i + 1 + n
        · have e3 : c = c' ∧ i ≤ i' ∧ i' < i + (n + 1) := by omega
          rw [if_pos e2, if_pos e3]
        · have e3 : ¬ (c = c' ∧ i ≤ i' ∧ i' < i + (n + 1)) := by omega
          rw [if_neg e2, if_neg e3]

theorem exec_obs (m : CacheModel) (s : Stmt) (hs : s.Good) (budget : Nat)
    (hb : s.countsBudget = true → s.count ≤ budget) {c i : Nat} (h : KeyOk c i) :
    ∃ m', m.exec s budget = (m', some (if s.countsBudget then budget - s.count else budget)) ∧
    (m'.has c i = (m.has c i || decide (s.Covers c i ∧ s.pb = none))) ∧
    (m'.has c i = false → m'.receivedBytes c i =
      if s.Covers c i then max (m.receivedBytes c i) (s.pb.getD 0) else m.receivedBytes c i) := by
  obtain ⟨h1, h2, h3, h4⟩ := hs
  unfold CacheModel.exec
  cases hcb : s.countsBudget with
  | true =>
    simp only [if_true, if_pos (hb hcb), h1]
    exact ⟨_, rfl, rangeOps_obs s.count m s.pb h2 h3 h⟩
  | false =>
    have hc1 := h4 hcb
    simp only [h1, Bool.false_eq_true, if_false]
    have hr := rangeOps_obs 1 m s.pb (i := s.first) h2 (by omega) h
    refine ⟨_, rfl, ?_⟩
    rw [← hc1] at hr
    have e : m.rangeOps false s.pb s.cls s.first s.count = m.binOp false s.pb s.cls s.first := by
      rw [hc1]; rfl
    rw [e] at hr
    exact hr

/-- The model reached by executing additive statements, observed at one bin. -/
theorem applyTokens_obs (ts : List (List Char)) (ss : List Stmt) (hp : ts.map parseToken = ss.map some)
    (hg : ∀ s ∈ ss, s.Good) (m : CacheModel) (budget : Nat)
    (hb : ((ss.filter (·.countsBudget)).map (·.count)).sum ≤ budget) {c i : Nat} (h : KeyOk c i) :
    ((m.applyTokens budget ts).has c i =
      (m.has c i || ss.any fun s => decide (s.Covers c i ∧ s.pb = none))) ∧
    ((m.applyTokens budget ts).has c i = false → (m.applyTokens budget ts).receivedBytes c i =
      ((ss.filter fun s => s.Covers c i).map fun s => s.pb.getD 0).foldl max (m.receivedBytes c i)) := by
  induction ts generalizing m budget ss with
  | nil =>
    cases ss with
    | nil => simp [CacheModel.applyTokens]
    | cons => simp at hp
  | cons t ts ih =>
    cases ss with
    | nil => simp at hp
    | cons s ss =>
      simp only [List.map_cons, List.cons.injEq] at hp
      have hb1 : s.countsBudget = true → s.count ≤ budget := by
        intro hcb
        simp only [List.filter_cons, hcb, if_true, List.map_cons, List.sum_cons] at hb
        omega
      obtain ⟨m', hm', o1, o2⟩ := exec_obs m s (hg s (by simp)) budget hb1 h
      simp only [CacheModel.applyTokens, hp.1, hm']
      have hb2 : ((ss.filter (·.countsBudget)).map (·.count)).sum ≤
          (if s.countsBudget then budget - s.count else budget) := by
        cases hcb : s.countsBudget with
        | true =>
          simp only [List.filter_cons, hcb, if_true, List.map_cons, List.sum_cons] at hb ⊢
          omega
        | false =>
          simp only [List.filter_cons, hcb, Bool.false_eq_true, if_false] at hb ⊢
          exact hb
      obtain ⟨i1, i2⟩ := ih ss hp.2 (fun s hs => hg s (by simp [hs])) m' _ hb2
      refine ⟨by rw [i1, o1]; simp [Bool.or_assoc], fun hf => ?_⟩
      rw [i2 hf]
      have hf1 := i1 ▸ hf
      simp only [Bool.or_eq_false_iff] at hf1
      rw [o2 hf1.1]
      by_cases hcv : s.Covers c i
      · rw [if_pos hcv]; simp [hcv]
      · rw [if_neg hcv]; simp [hcv]

end Verif.Jpip
