import Verif.Tile.Magb
import Verif.Tile.CodestreamLemmas
/-
C72: the magnitude bound announced in CAP covers the bit-planes of all subbands.

`boundOf` is the specification (T.814, from memory).  The encoder meets it for a single guard bit and exponents of at most 27;
the theorems say exactly when.
-/
namespace Verif.Tile.Pipe

theorem magb_fold (l : List Nat) (hl : ∀ v ∈ l, v < 256) : ∀ t,
    let r := l.foldl (fun t v => if t < v / 8 % 256 then v / 8 % 256 else t) t
    t ≤ r ∧ (∀ v ∈ l, v / 8 ≤ r) ∧ (r = t ∨ ∃ v ∈ l, v / 8 = r) := by
  induction l with
  | nil => intro t; simp
  | cons a l ih =>
    intro t
    have ha := hl a (by simp)
    obtain ⟨h1, h2, h3⟩ := ih (fun v hv => hl v (by simp [hv])) (if t < a / 8 % 256 then a / 8 % 256 else t)
    simp only [List.foldl_cons, List.mem_cons, forall_eq_or_imp, exists_eq_or_imp]
    refine ⟨?_, ⟨?_, h2⟩, ?_⟩
    · refine le_trans ?_ h1; split_ifs <;> omega
    · refine le_trans ?_ h1; split_ifs <;> omega
    · rcases h3 with h3 | h3
      · rw [h3]; split_ifs with h
        · right; left; omega
        · left; rfl
      · right; right; exact h3

theorem magbMin_fold (l : List Nat) (hl : ∀ v ∈ l, v < 65536) : ∀ t,
    let r := l.foldl (fun t v => if v / 2048 < t then v / 2048 % 256 else t) t
    r ≤ t ∧ (∀ v ∈ l, r ≤ v / 2048) ∧ (r = t ∨ ∃ v ∈ l, v / 2048 = r) := by
  induction l with
  | nil => intro t; simp
  | cons a l ih =>
    intro t
    have ha := hl a (by simp)
    obtain ⟨h1, h2, h3⟩ := ih (fun v hv => hl v (by simp [hv])) (if a / 2048 < t then a / 2048 % 256 else t)
    simp only [List.foldl_cons, List.mem_cons, forall_eq_or_imp, exists_eq_or_imp]
    refine ⟨?_, ⟨?_, h2⟩, ?_⟩
    · refine le_trans h1 ?_; split_ifs <;> omega
    · refine le_trans h1 ?_; split_ifs <;> omega
    · rcases h3 with h3 | h3
      · rw [h3]; split_ifs with h
        · right; left; omega
        · left; rfl
      · right; right; exact h3

theorem magbOf_zero {sp : List Nat} {m : Nat} (hs : ∀ v ∈ sp, v < 256) (hm : ∀ v ∈ sp, v / 8 ≤ m) (he : ∃ v ∈ sp, v / 8 = m) :
    magbOf 0 sp = m := by
  obtain ⟨-, h2, h3⟩ := magb_fold sp hs 0
  obtain ⟨v, hv, e⟩ := he
  simp only [magbOf, if_true, magb]
  have := h2 v hv
  rcases h3 with h3 | ⟨u, hu, h3⟩
  · omega
  · have := hm u hu; omega

theorem magbOf_min {style : Nat} {sp : List Nat} {lo : Nat} (h0 : style ≠ 0) (hs : ∀ v ∈ sp, v < 65536)
    (hm : ∀ v ∈ sp, lo ≤ v / 2048) (he : ∃ v ∈ sp, v / 2048 = lo) : magbOf style sp = lo := by
  obtain ⟨-, h2, h3⟩ := magbMin_fold sp hs 255
  obtain ⟨v, hv, e⟩ := he
  have hb := hs v hv
  simp only [magbOf, if_neg h0]
  have := h2 v hv
  rcases h3 with h3 | ⟨u, hu, h3⟩
  · omega
  · have := hm u hu; omega

theorem bits_lt (m : Nat) : magbBits m < 32 := by unfold magbBits; split_ifs <;> omega

theorem bound_bits (m : Nat) (h : m < 32) :
    boundOf (magbBits m) = if m ≤ 8 then 8 else if m ≤ 27 then m else if m ≤ 30 then 27 else 31 := by
  revert m; decide +kernel

/-- For style 0 this is the `Ccap15` of the codestream in C70. -/
theorem C72_same_ccap15 (sp : List Nat) : ccap15Of 0 sp = ccap15 sp := by simp [ccap15Of, ccap15, magbOf, magbBits]

/-- C72, reversible: with `m` the largest exponent, the announced bound covers `M_b` of every subband exactly if that is at most
8, or there is one guard bit and `m` is at most 27 or 31. -/
theorem C72_reversible_iff (guard m : Nat) (sp : List Nat) (hg : 1 ≤ guard) (hg' : guard ≤ 7) (hs : ∀ v ∈ sp, v < 256)
    (hm : ∀ v ∈ sp, v / 8 ≤ m) (he : ∃ v ∈ sp, v / 8 = m) :
    (∀ v ∈ sp, magBits guard v ≤ boundOf (ccap15Of 0 sp % 32)) ↔
      m + guard ≤ 9 ∨ (guard = 1 ∧ (m ≤ 27 ∨ m = 31)) := by
  have e : ccap15Of 0 sp % 32 = magbBits m := by
    have := bits_lt m
    simp only [ccap15Of, if_true, magbOf_zero hs hm he]; omega
  rw [e]
  obtain ⟨v, hv, hvm⟩ := he
  have hb := hs v hv
  have key : (∀ v ∈ sp, magBits guard v ≤ boundOf (magbBits m)) ↔ m + guard - 1 ≤ boundOf (magbBits m) := by
    constructor
    · intro h; have := h v hv; unfold magBits at this; omega
    · intro h u hu; have := hm u hu; have := hs u hu; unfold magBits; omega
  rw [key, bound_bits m (by omega)]
  split_ifs <;> omega

/-- C72, irreversible with a step size per subband: the bound is made from the smallest exponent, so as soon as two subbands
differ (and the largest exponent is 9 or more) the subband with the largest one has more bit-planes than announced, `guard` more or even more. -/
theorem C72_expounded_not_covered (guard lo hi : Nat) (sp : List Nat) (hg : 1 ≤ guard) (hg' : guard ≤ 7)
    (hs : ∀ v ∈ sp, v < 65536) (hl : ∀ v ∈ sp, lo ≤ v / 2048) (hle : ∃ v ∈ sp, v / 2048 = lo) (hhe : ∃ v ∈ sp, v / 2048 = hi)
    (hlt : lo < hi) (h9 : 9 ≤ hi) : ∃ v ∈ sp, boundOf (ccap15Of 2 sp % 32) + guard ≤ magBitsExp guard v := by
  have e : ccap15Of 2 sp % 32 = magbBits lo := by
    have := bits_lt lo
    simp only [ccap15Of, magbOf_min (style := 2) (by omega) hs hl hle]; simp; omega
  obtain ⟨v, hv, hvm⟩ := hhe
  have hb := hs v hv
  refine ⟨v, hv, ?_⟩
  rw [e, bound_bits lo (by omega)]
  unfold magBitsExp
  split_ifs <;> omega

/-- C72, irreversible with derived step sizes: the only word is that of LL, which has the largest exponent of all; the bound covers
every level for one guard bit, unless the exponent is 28, 29 or 30. -/
theorem C72_derived_covered (nl nb v : Nat) (hv : v < 65536) (hnb : nb ≤ nl) (hnl : nl ≤ 32) (hn : nl - nb ≤ v / 2048)
    (h : v / 2048 ≤ 27 ∨ v / 2048 = 31) : magBitsDer 1 nl nb v ≤ boundOf (ccap15Of 1 [v] % 32) := by
  have e : ccap15Of 1 [v] % 32 = magbBits (v / 2048) := by
    have := bits_lt (v / 2048)
    simp only [ccap15Of, magbOf_min (style := 1) (sp := [v]) (lo := v / 2048) (by omega) (by simpa using hv) (by simp) (by simp)]
    simp; omega
  rw [e, bound_bits _ (by omega)]
  unfold magBitsDer
  split_ifs <;> omega

/-- 8 bits, two levels, one guard bit: 10 bit-planes at most, and 10 announced. -/
example : (quantSteps 1 2 8 0).map (magBits 1) = [9, 10, 10, 10, 9, 9, 10] ∧ boundOf (ccap15Of 0 (quantSteps 1 2 8 0) % 32) = 10 := by
  decide +kernel

/-- The same with two guard bits (`Qguard=2`): still 10 bit-planes, but 9 announced. -/
theorem C72_guard_bits_understate :
    (∃ v ∈ quantSteps 2 2 8 0, magBits 2 v = 10) ∧ boundOf (ccap15Of 0 (quantSteps 2 2 8 0) % 32) = 9 := by
  decide +kernel

/-- An exponent of 28 with one guard bit is announced as 27. -/
example : magBits 1 (28 * 8) = 28 ∧ boundOf (ccap15Of 0 [28 * 8] % 32) = 27 := by decide +kernel

/-- Exponents 13 to 9: 13 bit-planes, 9 announced. -/
example : [13, 12, 12, 11, 10, 10, 9].map (fun e => magBitsExp 1 (e * 2048 + 100)) = [13, 12, 12, 11, 10, 10, 9] ∧
    boundOf (ccap15Of 2 ([13, 12, 12, 11, 10, 10, 9].map (· * 2048 + 100)) % 32) = 9 := by decide +kernel

example : magBitsDer 1 5 5 (13 * 2048) = 13 ∧ boundOf (ccap15Of 1 [13 * 2048] % 32) = 13 := by decide +kernel

end Verif.Tile.Pipe
