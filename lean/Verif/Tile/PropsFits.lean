import Verif.Tile.QuantFits
import Verif.Tile.PropsPicture

/-!
# The bit-plane budget with any number of levels (C65), and lossless coding without conditions on the coefficients (C67, C68)

`PropsQuant` has the budget as a formula and one level.  Here the budget is computed for every number of levels, and for all
bit depths that are not too small for the number of levels the coefficients of every image fit.
-/

namespace Verif.Tile

/-- C65: the number of bit-planes of every band, for every number of levels, in the order of the QCD marker segment.  With
`B` the bit depth (one more with the colour transform): `B + 1` for LL (`B` without levels), `B + 1` for HL and LH of the
finest level and `B + 2` for all others, `B + 2` for HH of the two finest levels and `B + 3` for all others. -/
theorem C65_budget_exact (guard levels ri ycc : Nat) (hB : 1 ≤ ri + ycc) (hB' : ri + ycc < 28) (hg : guard ≤ ri + ycc) :
    (quantSteps guard levels ri ycc).map (magBits guard) =
      (ri + ycc + if levels = 0 then 0 else 1) :: (List.range levels).reverse.flatMap fun l =>
        [ri + ycc + if l = 0 then 1 else 2, ri + ycc + if l = 0 then 1 else 2, ri + ycc + if l ≤ 1 then 2 else 3] := by
  have key : (quantSteps guard levels ri ycc).map (magBits guard) =
      ((gains levels).reverse.map Gains.count).map fun k => magBits guard ((ri + 256 - guard + ycc + k) % 256 * 8) := by
    simp [quantSteps, epsilonRev, Gains.count, Function.comp_def]
  have val : ∀ k, k ≤ 3 → magBits guard ((ri + 256 - guard + ycc + (k + 1)) % 256 * 8) = ri + ycc + k := by
    intro k h1
    unfold magBits; omega
  rw [key, Gains.count_gains, List.map_cons, List.map_flatMap]
  congr 1
  · split_ifs
    · exact val 0 (by omega)
    · exact val 1 (by omega)
  · congr 1
    funext l
    unfold Gains.extra
    simp only [List.map_cons, List.map_nil]
    have v1 := val 1 (by omega)
    have v2 := val 2 (by omega)
    have v3 := val 3 (by omega)
    split_ifs <;> simp_all

example : (quantSteps 1 5 8 0).map (magBits 1) =
    [9, 10, 10, 11, 10, 10, 11, 10, 10, 11, 10, 10, 10, 9, 9, 10] := by decide +kernel

theorem budget_get {guard levels ri ycc : Nat} (hB : 1 ≤ ri + ycc) (hB' : ri + ycc < 28) (hg : guard ≤ ri + ycc) {l b : Nat}
    (hl : l < levels) (hb : b < 3) : ((quantSteps guard levels ri ycc).map (magBits guard))[3 * (levels - 1 - l) + (b + 1)]? =
      some (ri + ycc - 1 + (Gains.extra l).getD b 0) := by
  rw [C65_budget_exact guard levels ri ycc hB hB' hg, ← Nat.add_assoc, List.getElem?_cons_succ]
  have e : ((List.range levels).reverse.flatMap fun l =>
        [ri + ycc + if l = 0 then 1 else 2, ri + ycc + if l = 0 then 1 else 2, ri + ycc + if l ≤ 1 then 2 else 3]) =
      ((List.range levels).reverse.flatMap Gains.extra).map (ri + ycc - 1 + ·) := by
    rw [List.map_flatMap]
    congr 1
    funext l
    unfold Gains.extra
    simp only [List.map_cons, List.map_nil]
    split_ifs <;> simp <;> omega
  rw [e, List.getElem?_map, Gains.extra_get levels hl hb, List.getD_eq_getElem?_getD]
  have : (Gains.extra l).length = 3 := rfl
  rw [List.getElem?_eq_getElem (by omega)]; rfl

/-- C65 for any number of levels.  Let `B` be the bit depth, one more with the colour transform.  If the number of levels is at
most `2 ^ (B - 1) / 19` – for 8 bits that is 6, for 9 bits 13, from 11 bits on all the standard allows – then all
coefficients of every image, of any size at any position, are below `2 ^ M_b` in the band they are in.  Missing to the full
statement: more levels for the smaller depths (`C65_one_bit_overflow` shows that some bound on them is needed). -/
theorem C65_fits_partial (ri ycc guard levels : Nat) (hB : 1 ≤ ri + ycc) (hB' : ri + ycc < 28) (hg : guard ≤ ri + ycc)
    (hl : 19 * levels ≤ 2 ^ (ri + ycc - 1)) (u0 v0 : Int) (hu : 0 ≤ u0) (hv : 0 ≤ v0) (w : Nat) (rows : List (List Int))
    (hrows : ∀ r ∈ rows, r.length = w) (hx : ∀ r ∈ rows, ∀ x ∈ r, |x| ≤ 2 ^ (ri + ycc - 1))
    (hw : ∀ l < levels, (u0 + 2 ^ l - 1) / 2 ^ l < (u0 + w + 2 ^ l - 1) / 2 ^ l) :
    ∃ ll ds, Dwt.analyseLevels levels u0 v0 rows = some (ll, ds) ∧ ds.length = levels ∧
      (∃ mLL, ((quantSteps guard levels ri ycc).map (magBits guard))[0]? = some mLL ∧ ∀ r ∈ ll, ∀ x ∈ r, |x| < 2 ^ mLL) ∧
      ∀ l (hl : l < ds.length), ∃ mHL mLH mHH,
        ((quantSteps guard levels ri ycc).map (magBits guard))[3 * (levels - 1 - l) + 1]? = some mHL ∧
        ((quantSteps guard levels ri ycc).map (magBits guard))[3 * (levels - 1 - l) + 2]? = some mLH ∧
        ((quantSteps guard levels ri ycc).map (magBits guard))[3 * (levels - 1 - l) + 3]? = some mHH ∧
        (∀ r ∈ ds[l].hl, ∀ x ∈ r, |x| < 2 ^ mHL) ∧ (∀ r ∈ ds[l].lh, ∀ x ∈ r, |x| < 2 ^ mLH) ∧
        ∀ r ∈ ds[l].hh, ∀ x ∈ r, |x| < 2 ^ mHH := by
  generalize hA : (2 : Int) ^ (ri + ycc - 1) = A at *
  have hA1 : 1 ≤ A := by rw [← hA]; exact one_le_pow₀ (by norm_num)
  have hAn : (2 : Int) ^ (ri + ycc - 1) = ((2 ^ (ri + ycc - 1) : Nat) : Int) := by push_cast; rfl
  have hl' : 19 * (levels : Int) ≤ A := by rw [← hA, hAn]; exact_mod_cast hl
  have hAQ : (0 : ℚ) ≤ A := by exact_mod_cast (by omega : 0 ≤ A)
  have hA1Q : (1 : ℚ) ≤ A := by exact_mod_cast hA1
  have hlQ : 19 * (levels : ℚ) ≤ A := by exact_mod_cast hl'
  obtain ⟨ll, ds, e, ld, bl, bd⟩ := Dwt.Gain.tower hAQ levels hu hv hrows
    (Dwt.Gain.calm_zero hrows fun r hr x hx' => by exact_mod_cast hx r hr x hx') hw
  have hpow : ∀ k : Nat, (2 : Int) ^ (ri + ycc - 1 + k) = A * 2 ^ k := fun k => by rw [pow_add, hA]
  have hsl : ∀ k : ℕ, Dwt.Gain.slip * k ≤ 6798 / 1000 * k := fun k =>
    mul_le_mul_of_nonneg_right (by norm_num [Dwt.Gain.slip]) (by positivity)
  have hsq : ∀ a b : ℕ, Dwt.Gain.gain a * Dwt.Gain.gain b * (A : ℚ) ≤ 3626 / 1000 * A := fun a b => by
    refine mul_le_mul_of_nonneg_right (le_trans (mul_le_mul (Dwt.Gain.gain_le a).2 (Dwt.Gain.gain_le b).2
      (Dwt.Gain.gain_le b).1 (by norm_num)) (by norm_num)) hAQ
  refine ⟨ll, ds, e, ld, ?_, fun l hl1 => ?_⟩
  · refine ⟨_, by rw [C65_budget_exact guard levels ri ycc hB hB' hg]; rfl, fun r hr x hx => ?_⟩
    have h1 := bl r hr x hx
    rw [Nat.zero_add] at h1
    by_cases h0 : levels = 0
    · rw [if_pos h0, show ri + ycc + 0 = ri + ycc - 1 + 1 by omega, hpow]
      rw [h0] at h1
      have h2 : |(x : ℚ)| ≤ A := by simpa [Dwt.Gain.gain] using h1
      have h3 : |x| ≤ A := by exact_mod_cast h2
      omega
    · rw [if_neg h0, show ri + ycc + 1 = ri + ycc - 1 + 2 by omega, hpow]
      have h2 := hsq levels levels
      have h3 := hsl levels
      have h4 : |(x : ℚ)| < A * 4 := by linarith
      exact_mod_cast h4
  · have hlt : l < levels := by omega
    have hlQ1 : ((l : ℚ) + 1) ≤ levels := by exact_mod_cast hlt
    have hl0 : (0 : ℚ) ≤ l := by positivity
    obtain ⟨d1, d2, d3⟩ := bd l hl1
    rw [Nat.zero_add] at d1 d2 d3
    have side : ∀ x : ℤ, |(x : ℚ)| ≤ 2 * (Dwt.Gain.gain (l + 1) * Dwt.Gain.gain l * A + Dwt.Gain.slip * l) + 2 →
        |x| < 2 ^ (ri + ycc - 1 + if l = 0 then 2 else 3) := by
      intro x h1
      split_ifs with h0
      · subst h0
        rw [hpow]
        have h2 : Dwt.Gain.gain (0 + 1) * Dwt.Gain.gain 0 = 3 / 2 := by norm_num [Dwt.Gain.gain]
        rw [h2] at h1
        have h4 : |(x : ℚ)| < A * 4 := by push_cast at *; linarith
        exact_mod_cast h4
      · rw [hpow]
        have h2 := hsq (l + 1) l
        have h3 := hsl l
        have h4 : |(x : ℚ)| < A * 8 := by linarith
        exact_mod_cast h4
    refine ⟨_, _, _, budget_get hB hB' hg (b := 0) hlt (by omega), budget_get hB hB' hg (b := 1) hlt (by omega),
      budget_get hB hB' hg (b := 2) hlt (by omega), fun r hr x hx => side x (d1 r hr x hx),
      fun r hr x hx => side x (d2 r hr x hx), fun r hr x hx => ?_⟩
    have h1 := d3 r hr x hx
    show |x| < 2 ^ (ri + ycc - 1 + if l ≤ 1 then 3 else 4)
    match l, hl0, hlQ1, h1 with
    | 0, _, _, h1 =>
      rw [if_pos (by omega), hpow]
      have h1 : |(x : ℚ)| ≤ 4 * A + 3 / 2 := h1
      have h4 : |(x : ℚ)| < A * 8 := by linarith
      exact_mod_cast h4
    | 1, _, hl1, h1 =>
      rw [if_pos (by omega), hpow]
      have h1 : |(x : ℚ)| ≤ 25 / 4 * A + 15 / 2 + 3 / 2 := h1
      have h4 : |(x : ℚ)| < A * 8 := by push_cast at hl1; linarith
      exact_mod_cast h4
    | k + 2, hl0, hl1, h1 =>
      rw [if_neg (by omega), hpow]
      have h1 : |(x : ℚ)| ≤ 4 * (238 / 125 * (238 / 125) * A + Dwt.Gain.slip * (k + 2 : ℕ)) + 3 / 2 := h1
      have h3 := hsl (k + 2)
      have h4 : |(x : ℚ)| < A * 16 := by linarith
      exact_mod_cast h4

/-- The hypotheses are met by 8 bits and six levels of an image of 64 columns at (3, 5) with extreme samples. -/
example : 19 * 6 ≤ 2 ^ (8 + 0 - 1) ∧ (∀ l < 6, ((3 : Int) + 2 ^ l - 1) / 2 ^ l < (3 + (64 : Nat) + 2 ^ l - 1) / 2 ^ l) ∧
    (Dwt.analyseLevels 6 3 5 [(List.range 64).map fun x => if x * x % 7 < 3 then -128 else 127]).isSome = true := by
  decide +kernel

namespace Pipe

/-- The QCD the encoder makes for `B = ri + ycc` covers a component of a tile whose samples have `B` bits. -/
def OwnBudget (C : Coding) (img : Nat → List (List Int)) (ri ycc : Nat) : Prop :=
  (1 ≤ ri + ycc ∧ ri + ycc ≤ 18 ∧ C.guard ≤ ri + ycc) ∧ ∀ c < C.T.ncomp,
    C.steps c = quantSteps C.guard (C.T.comp c).NL ri ycc ∧ 19 * (C.T.comp c).NL ≤ 2 ^ (ri + ycc - 1) ∧
    ∀ row ∈ img c, ∀ x ∈ row, |x| ≤ 2 ^ (ri + ycc - 1)

theorem covered_own {C : Coding} (h : C.Legal) {img : Nat → List (List Int)} (hfits : Fits C img)
    (hwide : ∀ c < C.T.ncomp, Wide C c) {ri ycc : Nat} (hb : OwnBudget C img ri ycc) : Covered C img := by
  intro c hc r hr b hbb rows er
  obtain ⟨⟨hB, hB', hg⟩, hc'⟩ := hb
  obtain ⟨es, hl, hx⟩ := hc' c hc
  have hNL := h.levels c hc
  have hlow : ∀ l < (C.T.comp c).NL, 0 < size (low l (C.tcx c)) := by
    intro l hl
    have := hwide c hc ((C.T.comp c).NL - l) (by omega) (by omega)
    rwa [resx_low h hc (by omega), show (C.T.comp c).NL - ((C.T.comp c).NL - l) = l by omega] at this
  have hx0 : (C.tcx c).1 ≤ (C.tcx c).2 := (axis_x h (r := 0) hc (by omega) (b := 0) (by simp [Coding.bands])).le
  obtain ⟨ll, ds, e, ld, ⟨mLL, eLL, bLL⟩, bd⟩ := C65_fits_partial ri ycc C.guard (C.T.comp c).NL hB (by omega) hg hl
    ((C.tcx c).1 : Int) ((C.tcy c).1 : Int) (by omega) (by omega) (size (C.tcx c)) (img c) (hfits c hc).2 hx (by
      intro k hk
      have h1 := hlow k hk
      unfold low size cdiv at h1
      unfold size
      have e1 : (((C.tcx c).1 : Int) + ((C.tcx c).2 - (C.tcx c).1 : Nat)) = ((C.tcx c).2 : Int) := by omega
      rw [e1]
      have e2 : ∀ n : Nat, ((n : Int) + 2 ^ k - 1) / 2 ^ k = ((n + 2 ^ k - 1) / 2 ^ k : Nat) := by
        intro n
        have := Nat.two_pow_pos k
        rw [Int.natCast_ediv, Nat.cast_sub (by omega)]
        push_cast
        rfl
      rw [e2, e2]
      simp only at h1
      omega)
  have emb : C.mb C.steps c r b =
      ((quantSteps C.guard (C.T.comp c).NL ri ycc).map (magBits C.guard))[(if r = 0 then 0 else 3 * (r - 1) + b) % 256]? := by
    unfold Coding.mb; rw [es, List.getElem?_map]
  have fit : ∀ {x : Int} {m : Nat}, |x| < 2 ^ m → x.natAbs < 2 ^ m := by
    intro x m hx
    have : ((x.natAbs : Nat) : Int) < ((2 ^ m : Nat) : Int) := by push_cast; exact hx
    exact_mod_cast this
  have hex := C65_budget_exact C.guard (C.T.comp c).NL ri ycc hB (by omega) hg
  unfold subband at er
  rw [e] at er
  simp only [Option.bind_eq_bind, Option.bind_some] at er
  unfold Coding.bands at hbb
  by_cases h0 : r = 0
  · subst h0
    rw [show select (C.T.comp c).NL 0 b (ll, ds) = some ll from rfl, Option.bind_some] at er
    split_ifs at er
    obtain rfl := Option.some.inj er
    refine ⟨mLL, by rw [emb]; exact eLL, ?_, ?_, fun row hrow v hv => fit (bLL row hrow v hv)⟩
    all_goals
      rw [hex, List.getElem?_cons_zero, Option.some.injEq] at eLL
      rw [← eLL]; split_ifs <;> omega
  · rw [if_neg h0] at hbb
    have hlt : (C.T.comp c).NL - r < ds.length := by omega
    obtain ⟨mHL, mLH, mHH, e1, e2, e3, b1, b2, b3⟩ := bd _ hlt
    have hidx : 3 * ((C.T.comp c).NL - 1 - ((C.T.comp c).NL - r)) = 3 * (r - 1) := by omega
    rw [hidx] at e1 e2 e3
    have g := fun {b : Nat} (hb : b < 3) => budget_get (guard := C.guard) (levels := (C.T.comp c).NL) hB (by omega) hg
      (l := (C.T.comp c).NL - r) (by omega) hb
    rw [hidx] at g
    have hex : ∀ {b : Nat}, b < 3 → 1 ≤ (Gains.extra ((C.T.comp c).NL - r)).getD b 0 ∧
        (Gains.extra ((C.T.comp c).NL - r)).getD b 0 ≤ 4 := by
      intro b hb
      unfold Gains.extra
      interval_cases b <;> simp only [List.getD_cons_zero, List.getD_cons_succ] <;> split_ifs <;> omega
    unfold select at er
    rw [if_neg h0, List.getElem?_eq_getElem hlt, Option.map_some, Option.bind_some] at er
    rw [if_neg h0] at emb
    simp only [List.mem_cons, List.not_mem_nil, or_false] at hbb
    split_ifs at er <;> obtain rfl := Option.some.inj er
    · rename_i hb1 _
      rw [hb1, Nat.mod_eq_of_lt (by omega)] at emb
      have := g (b := 0) (by omega)
      rw [e1, Option.some.injEq] at this
      have := hex (b := 0) (by omega)
      exact ⟨mHL, by rw [hb1, emb, e1], by omega, by omega, fun row hrow v hv => fit (b1 row hrow v hv)⟩
    · rename_i _ hb1 _
      rw [hb1, Nat.mod_eq_of_lt (by omega)] at emb
      have := g (b := 1) (by omega)
      rw [e2, Option.some.injEq] at this
      have := hex (b := 1) (by omega)
      exact ⟨mLH, by rw [hb1, emb, e2], by omega, by omega, fun row hrow v hv => fit (b2 row hrow v hv)⟩
    · have hb1 : b = 3 := by omega
      rw [hb1, Nat.mod_eq_of_lt (by omega)] at emb
      have := g (b := 2) (by omega)
      rw [e3, Option.some.injEq] at this
      have := hex (b := 2) (by omega)
      exact ⟨mHH, by rw [hb1, emb, e3], by omega, by omega, fun row hrow v hv => fit (b3 row hrow v hv)⟩

/-- **C67** with the QCD the encoder makes: nothing is asked of the coefficients any more, only that the samples have the bit
depth declared, that this is at most 18 (with the colour transform counted as one), and that the number of levels is at most
`2 ^ (B - 1) / 19`. -/
theorem C67_lossless_own_budget (C : Coding) (h : C.Legal) (img : Nat → List (List Int)) (hfits : Fits C img)
    (hwide : ∀ c < C.T.ncomp, Wide C c) (ri ycc : Nat) (hb : OwnBudget C img ri ycc) (hal : Aligned C) (E : Env) (hE : E.Sane)
    (tail : List Nat) (fuel : Nat) (hf : 256 ≤ fuel) :
    ∃ bytes, encodeTile C img = some bytes ∧
      decodeTile C E fuel (bytes ++ tail) = some ((List.range C.T.ncomp).map img) :=
  C67_lossless C h img hfits hwide (covered_own h hfits hwide hb) hal E hE tail fuel hf

/-- The tile of `exCoding` with its 8-bit picture. -/
example : OwnBudget exCoding exImg 8 0 := by
  refine ⟨by decide, fun c hc => ?_⟩
  have hc : c < 2 := hc
  interval_cases c <;> exact ⟨rfl, by decide, by decide +kernel⟩

/-- The bit depth that counts for the budget of a picture: that of component 0, one more with the colour transform. -/
def Picture.bits (P : Picture) : Nat := P.depth 0 + if P.mct then 1 else 0

/-- What is left to ask of a picture: the QCD is the one the encoder makes, no component is deeper than component 0, few levels
for a small bit depth, and the two conditions on the geometry of the tiles. -/
structure Picture.Plain (P : Picture) : Prop where
  steps : ∀ c < P.nc, P.base.steps c = quantSteps P.base.guard (P.base.T.comp c).NL (P.depth 0) (if P.mct then 1 else 0)
  guard : P.base.guard ≤ P.bits
  bits : P.bits ≤ 18
  depth : ∀ c < P.nc, P.depth c ≤ P.depth 0
  levels : ∀ c < P.nc, 19 * (P.base.T.comp c).NL ≤ 2 ^ (P.bits - 1)
  wide : ∀ t < numTiles P.ax * numTiles P.ay, ∀ c < P.nc, Wide (P.coding t) c
  aligned : ∀ t < numTiles P.ax * numTiles P.ay, Aligned (P.coding t)

theorem val_le {P : Picture} (h : P.Legal) {img : Nat → List Int} (hs : P.Samples img) (hp : P.Plain) {t c y x : Nat}
    (hc : c < P.nc) : |P.val img t c y x| ≤ 2 ^ (P.depth 0 - 1) := by
  have hd := h.depth c hc
  have hle : (2 : Int) ^ (P.depth c - 1) ≤ 2 ^ (P.depth 0 - 1) :=
    pow_le_pow_right₀ (by norm_num) (by have := hp.depth c hc; omega)
  have hd2 : (2 : Int) ^ P.depth c = 2 * 2 ^ (P.depth c - 1) := by
    rw [← pow_succ', show P.depth c - 1 + 1 = P.depth c by omega]
  have hpos : (1 : Int) ≤ 2 ^ (P.depth c - 1) := one_le_pow₀ (by norm_num)
  have key : |P.val img t c y x| ≤ 2 ^ (P.depth c - 1) := by
    unfold Picture.val
    rw [List.getD_eq_getElem?_getD]
    have hr := (hs c hc).2
    generalize P.at t c y x = i
    by_cases hi : i < (img c).length
    · rw [List.getElem?_eq_getElem hi, Option.getD_some]
      have := hr _ (List.getElem_mem hi)
      generalize (img c)[i] = v at *
      unfold Picture.lev
      split_ifs at this ⊢ <;> rw [abs_le] <;> simp only <;> constructor <;> omega
    · rw [List.getElem?_eq_none (by omega), Option.getD_none]
      unfold Picture.lev
      split_ifs <;> rw [abs_le] <;> simp only <;> constructor <;> omega
  omega

theorem ycc_le {P : Picture} (h : P.Legal) {img : Nat → List Int} (hs : P.Samples img) (hp : P.Plain) {t c y x : Nat}
    (hc : c < P.nc) : |P.ycc img t c y x| ≤ 2 ^ (P.bits - 1) := by
  have hd := h.depth 0 h.comps
  unfold Picture.ycc Picture.bits
  by_cases hm : P.mct = true
  · have h3 := mct_comps hm
    have v0 := abs_le.1 (val_le h hs hp (t := t) (y := y) (x := x) (show 0 < P.nc by omega))
    have v1 := abs_le.1 (val_le h hs hp (t := t) (y := y) (x := x) (show 1 < P.nc by omega))
    have v2 := abs_le.1 (val_le h hs hp (t := t) (y := y) (x := x) (show 2 < P.nc by omega))
    have vc := abs_le.1 (val_le h hs hp (t := t) (y := y) (x := x) hc)
    have e : (2 : Int) ^ (P.depth 0 + 1 - 1) = 2 * 2 ^ (P.depth 0 - 1) := by
      rw [← pow_succ']; congr 1; omega
    rw [hm, if_pos rfl, e]
    generalize (2 : Int) ^ (P.depth 0 - 1) = A at *
    split_ifs with hc3
    · obtain ⟨-, hc3⟩ := hc3
      unfold Dwt.rct pick
      simp only
      split_ifs <;> rw [abs_le] <;> constructor <;> omega
    · rw [abs_le]; constructor <;> omega
  · rw [if_neg (by tauto), if_neg hm]
    exact val_le h hs hp hc

/-- **C68** without a condition on coefficients: a picture of samples of the declared depth, coded with the QCD the encoder makes
for it, comes back. -/
theorem C68_lossless_own_budget (P : Picture) (h : P.Legal) (hp : P.Plain) (img : Nat → List Int) (hs : P.Samples img)
    (E : Nat → Env) (hE : ∀ t, (E t).Sane) (fuel : Nat) (hf : 256 ≤ fuel) :
    ∃ bodies, encodePicture P img = some bodies ∧ ∀ o, ∃ o', decodePicture P E fuel bodies o = some o' ∧
      ∀ c < P.nc, P.outSize c = (img c).length ∧ ∀ i (hi : i < (img c).length), o' c i = (img c)[i] := by
  refine C68_lossless P h img hs (fun t ht => ⟨hp.wide t ht, ?_, hp.aligned t ht⟩) E hE fuel hf
  refine covered_own (h.tile t ht) planes_fit (hp.wide t ht) (ri := P.depth 0) (ycc := if P.mct then 1 else 0)
    ⟨⟨by have := h.depth 0 h.comps; omega, hp.bits, hp.guard⟩, fun c hc => ⟨hp.steps c hc, hp.levels c hc, ?_⟩⟩
  intro row hrow x hx
  unfold Picture.planes plane at hrow
  obtain ⟨y, -, rfl⟩ := List.mem_map.1 hrow
  obtain ⟨n, -, rfl⟩ := List.mem_map.1 hx
  exact ycc_le h hs hp hc

example : exPic.Plain where
  steps := by decide +kernel
  guard := by decide
  bits := by decide
  depth := by decide
  levels := by decide
  wide := by
    intro t ht c hc r h1 h2
    have ht : t < 4 := ht
    obtain rfl : r = 1 := by have : r ≤ 1 := h2; omega
    have hc : c < 3 := hc
    interval_cases t <;> interval_cases c <;> decide +kernel
  aligned := by
    intro t ht
    have ht : t < 4 := ht
    interval_cases t <;> decide +kernel

end Pipe
end Verif.Tile
