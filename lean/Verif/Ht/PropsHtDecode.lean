import Verif.Ht.HtLemmas

/-!
# C61: HT code-blocks of one, two or three passes, with empty passes in front

`htDecode` models `htj2k_decode` (HtDecode.lean).  The encoder here is that of the standard: a cleanup pass for bit-plane `b`,
which codes the coefficients divided by `2^b` (`encodeBlock`), and refinement passes for bit-plane `b - 1` (`refineEncode`).
-/

namespace Verif.Ht

/-- A coefficient known down to bit-plane `b`: zero if it has no bit there or above, otherwise the middle of the interval in which it
lies.  `approx 0 c = c`. -/
def approx (b : Nat) (c : Int) : Int :=
  if c.natAbs < 2 ^ b then 0
  else if c < 0 then -((c.natAbs / 2 ^ b * 2 ^ b + 2 ^ b / 2 : Nat) : Int) else ((c.natAbs / 2 ^ b * 2 ^ b + 2 ^ b / 2 : Nat) : Int)

/-- The block as the refinement passes for bit-plane `b - 1` find it in an encoder: significance (bit 0) if the coefficient has a bit in
bit-plane `b` or above, its bit in bit-plane `b - 1` (bit 5) and its sign (bit 6). -/
def planeBlock (w h : Nat) (causal : Bool) (b : Nat) (c : Nat → Nat → Int) : RBlk :=
  ⟨w, h, causal, fun r k =>
    if 1 ≤ r ∧ r ≤ h ∧ 1 ≤ k ∧ k ≤ w then
      (if 2 ^ b ≤ (c (r - 1) (k - 1)).natAbs then 1 else 0) + (if (c (r - 1) (k - 1)).natAbs.testBit (b - 1) then 32 else 0) +
        (if c (r - 1) (k - 1) < 0 then 64 else 0)
    else 0, fun _ _ => 0⟩

/-- The coefficients without their lowest `b` bit-planes. -/
def above (b : Nat) (c : Nat → Nat → Int) (y x : Nat) : Int := (c y x).tdiv (2 ^ b)

theorem approx_zero (c : Int) : approx 0 c = c := by
  unfold approx
  simp only [pow_zero, Nat.div_one, Nat.mul_one]
  split_ifs <;> omega

/-- The error is at most half the interval for coefficients with a bit in bit-plane `b` or above. -/
theorem approx_error (b : Nat) (c : Int) : (approx b c - c).natAbs < 2 ^ b ∧
    (2 ^ b ≤ c.natAbs → 2 * (approx b c - c).natAbs ≤ 2 ^ b) := by
  unfold approx
  have h := Nat.div_add_mod c.natAbs (2 ^ b)
  have h2 := Nat.mod_lt c.natAbs (show 0 < 2 ^ b by positivity)
  rw [Nat.mul_comm] at h
  generalize c.natAbs / 2 ^ b * 2 ^ b = q at *
  generalize c.natAbs % 2 ^ b = r at *
  generalize hP : 2 ^ b = P at *
  split_ifs <;> constructor <;> intros <;> omega

theorem planeBlock_bit {w h b : Nat} {ca : Bool} {c : Nat → Nat → Int} {y x : Nat} (hy : y < h) (hx : x < w) :
    (planeBlock w h ca b c).sig (y, x) = decide (2 ^ b ≤ (c y x).natAbs) ∧
    (planeBlock w h ca b c).mag (y, x) = (c y x).natAbs.testBit (b - 1) ∧
    (planeBlock w h ca b c).neg (y, x) = decide (c y x < 0) := by
  unfold planeBlock RBlk.sig RBlk.mag RBlk.neg
  dsimp only
  rw [if_pos (by omega), Nat.add_sub_cancel, Nat.add_sub_cancel]
  by_cases h1 : 2 ^ b ≤ (c y x).natAbs <;> by_cases h2 : (c y x).natAbs.testBit (b - 1) = true <;> by_cases h3 : c y x < 0 <;>
    simp only [h1, h2, h3, if_true, if_false] <;> decide

theorem planeBlock_fresh (w h b : Nat) (ca : Bool) (c : Nat → Nat → Int) : Fresh (planeBlock w h ca b c) := by
  refine ⟨fun r k => ?_, fun r k => ?_, fun r k hn => ?_⟩
  · unfold planeBlock; dsimp only; split_ifs <;> decide
  · unfold planeBlock; dsimp only; split_ifs <;> decide
  · unfold planeBlock at hn ⊢; dsimp only at hn ⊢; rw [if_neg hn]; rfl

theorem above_abs (b : Nat) (c : Nat → Nat → Int) (y x : Nat) : (above b c y x).natAbs = (c y x).natAbs / 2 ^ b := by
  unfold above
  rw [Int.natAbs_tdiv]
  congr 1

theorem above_neg {b : Nat} {c : Nat → Nat → Int} {y x : Nat} (h : above b c y x ≠ 0) : above b c y x < 0 ↔ c y x < 0 := by
  unfold above at *
  have hp : (0 : Int) < 2 ^ b := by positivity
  constructor
  · intro h1
    by_contra h2
    have := Int.tdiv_nonneg (show 0 ≤ c y x by omega) (le_of_lt hp)
    omega
  · intro h1
    have := Int.tdiv_nonneg (a := -c y x) (show 0 ≤ -c y x by omega) (le_of_lt hp)
    rw [Int.neg_tdiv] at this
    omega

theorem recon_div {N P q : Nat} (hP : 1 ≤ P) (hq : q ≤ P) : (2 * N + 1) * 2 ^ (P - 1) / 2 ^ (P - q) = N * 2 ^ q + 2 ^ q / 2 := by
  cases q with
  | zero =>
    obtain ⟨R, rfl⟩ : ∃ R, P = R + 1 := ⟨P - 1, by omega⟩
    rw [Nat.sub_zero, Nat.add_sub_cancel, pow_succ, ← Nat.div_div_eq_div_mul, Nat.mul_div_cancel _ (by positivity), pow_zero]
    omega
  | succ q =>
    rw [show P - 1 = q + (P - (q + 1)) by omega, pow_add, ← Nat.mul_assoc, Nat.mul_div_cancel _ (by positivity), pow_succ]
    rw [Nat.mul_div_cancel _ (by decide)]; ring

/-- A word with sign `c < 0` and the bits of `c` down to bit-plane `q`, dequantised. -/
theorem dequant_approx {c : Int} {P q N v : Nat} (hP : 1 ≤ P) (hq : q ≤ P) (hN : N = c.natAbs / 2 ^ q) (h0 : 2 ^ q ≤ c.natAbs)
    (hlt : (2 * N + 1) * 2 ^ (P - 1) < 2 ^ 31) (hv : v = (if c < 0 then 1 else 0) * 2 ^ 31 + (2 * N + 1) * 2 ^ (P - 1)) :
    dequant (P - q) v = approx q c := by
  have hd := dequant_eq (p := P - q) (sg := if c < 0 then 1 else 0) (by split_ifs <;> omega) hlt
  rw [hv, hd, recon_div hP hq, hN]
  unfold approx
  rw [if_neg (not_lt.mpr h0)]
  by_cases hc : c < 0
  · rw [if_pos hc, if_pos hc, if_pos rfl]
  · rw [if_neg hc, if_neg hc, if_neg (by decide)]

theorem dequant_zero (p : Nat) : dequant p 0 = 0 := by simp [dequant]

theorem word_lt {a n P : Nat} (ha : a < 2 ^ n) (hn : n + P ≤ 30) : (2 * a + 1) * 2 ^ P < 2 ^ 31 := by
  calc (2 * a + 1) * 2 ^ P < 2 ^ (n + 1) * 2 ^ P := by
        apply Nat.mul_lt_mul_of_pos_right _ (by positivity)
        rw [pow_succ]; omega
    _ = 2 ^ (n + 1 + P) := by rw [← pow_add]
    _ ≤ 2 ^ 31 := Nat.pow_le_pow_right (by omega) (by omega)

theorem div_half (n b : Nat) (hb : 1 ≤ b) : n / 2 ^ (b - 1) = 2 * (n / 2 ^ b) + (n.testBit (b - 1)).toNat := by
  obtain ⟨k, rfl⟩ : ∃ k, b = k + 1 := ⟨b - 1, by omega⟩
  rw [Nat.add_sub_cancel, pow_succ, ← Nat.div_div_eq_div_mul, tb_div]
  have : (decide (n / 2 ^ k % 2 = 1)).toNat = n / 2 ^ k % 2 := by
    rcases Nat.mod_two_eq_zero_or_one (n / 2 ^ k) with h | h <;> simp [h]
  rw [this]; omega

/-- C61, one pass.  The decoder finds every coefficient as precisely as the cleanup pass for bit-plane `b` tells it, whatever the number `k`
of groups of three empty passes the bit-planes above are signalled with. -/
theorem C61_cleanup_only (w h mb zbp k b pm pv pd : Nat) (ca : Bool) (c : Nat → Nat → Int) (scratch : Nat → Nat) (st : Nat → Nat → Nat)
    (d l : List Nat) (hw : 0 < w) (hh : 0 < h) (hmb : mb ≤ 30) (hpl : zbp + k + 1 + b = mb)
    (hc : ∀ y < h, ∀ x < w, (c y x).natAbs < 2 ^ mb) (hpv : pv < 4) (hpd : pd < 4)
    (he : encodeBlock w h (above b c) = some d) (hd : d ≠ []) (hl : ∀ n ∈ l, n = 0) :
    ∃ o, htDecode ⟨w, h, mb, zbp, ca, 3 * k + 1, List.replicate (3 * k) 0 ++ d.length :: l, d⟩ pm pv pd scratch st = some (.samples o) ∧
      ∀ y < h, ∀ x < w, o y x = approx b (c y x) := by
  have hc' : ∀ y < h, ∀ x < w, (above b c y x).natAbs < 2 ^ (mb - b) := fun y hy x hx => by
    rw [above_abs, Nat.div_lt_iff_lt_mul (by positivity), ← pow_add, show mb - b + b = mb by omega]
    exact hc y hy x hx
  obtain ⟨ms, vs, sp, out, e1, h2, h31, e2, e3, v, -⟩ := cleanup_spec (pm := pm) scratch hw hh (by omega) hc' hpv hpd he hd
  have hl0 : l.filter (· ≠ 0) = [] := by
    rw [List.filter_eq_nil_iff]; intro a ha; simp [hl a ha]
  have hs0 : l.sum = 0 := by rw [← sum_filter, hl0]; rfl
  have hset := htSetup_eq (w := w) (h := h) (mb := mb) (zbp := zbp) (k := k) (z := 1) (ca := ca) (l := l) (seg := []) (by omega) (by omega)
    h2 h31 e1 (by simpa using hs0) (by rw [hl0]; simp) (by simp)
  rw [List.append_nil] at hset
  refine ⟨fun y x => dequant (31 - mb) (out y x), ?_, fun y hy x hx => ?_⟩
  · unfold htDecode
    rw [hset]
    simp only [Option.bind_eq_bind, e2, Option.bind_some, if_true]
    rw [show 30 - (zbp + k) = 31 - (mb - b) by omega, e3]
    have hsh : ¬ (if True ∧ h % 2 = 0 then 31 else 30) < mb := by split_ifs <;> omega
    simp only [Option.bind_some, refineDecode, if_neg hsh]
    rfl
  · dsimp only
    rw [v y hy x hx]
    by_cases h0 : above b c y x = 0
    · have : (c y x).natAbs < 2 ^ b := by
        have := above_abs b c y x
        rw [h0, Int.natAbs_zero] at this
        by_contra hn
        have := Nat.div_pos (show 2 ^ b ≤ (c y x).natAbs by omega) (by positivity)
        omega
      rw [h0]
      unfold approx
      rw [if_pos this]
      simp [quantWord, sampleVal, dequant]
    · have h4 : 2 ^ b ≤ (c y x).natAbs := by
        have := above_abs b c y x
        by_contra hn
        rw [Nat.div_eq_of_lt (by omega)] at this
        omega
      have hlt := hc' y hy x hx
      have hwd := word_lt hlt (P := 30 - (mb - b)) (by omega)
      rw [sampleVal_quantWord (by omega) (by omega) hlt h0, show 31 - mb = (31 - (mb - b)) - b by omega]
      exact dequant_approx (by omega) (by omega) (above_abs b c y x) h4 (by rw [show 31 - (mb - b) - 1 = 30 - (mb - b) by omega]; exact hwd)
        (by rw [show 31 - (mb - b) - 1 = 30 - (mb - b) by omega]; simp only [above_neg h0])

theorem above_zero {b : Nat} {c : Nat → Nat → Int} {y x : Nat} : above b c y x = 0 ↔ (c y x).natAbs < 2 ^ b := by
  have := above_abs b c y x
  constructor
  · intro h0
    rw [h0, Int.natAbs_zero] at this
    by_contra hn
    have := Nat.div_pos (not_lt.mp hn) (show 0 < 2 ^ b by positivity)
    omega
  · intro h0
    rw [Nat.div_eq_of_lt h0] at this
    omega

/-- Everything before the refinement passes: the block they start from, in the terms of C60. -/
theorem before_refinement {w h mb zbp k b z pm pv pd : Nat} {ca : Bool} {c : Nat → Nat → Int} (scratch : Nat → Nat)
    {d l seg : List Nat} (hw : 0 < w) (hh : 0 < h) (hmb : mb ≤ 30) (hb : 1 ≤ b) (hpl : zbp + k + 1 + b = mb)
    (hc : ∀ y < h, ∀ x < w, (c y x).natAbs < 2 ^ mb) (hpv : pv < 4) (hpd : pd < 4)
    (he : encodeBlock w h (above b c) = some d) (hd : d ≠ []) (hz : 2 ≤ z ∧ z ≤ 3)
    (hl : l.sum = seg.length) (hl3 : (l.filter (· ≠ 0)).length ≤ 3) (hseg : seg.length < 2 ^ 32) :
    ∃ B : RBlk, ∃ D : Nat → Option Nat, (∀ i < seg.length, D i = seg[i]?) ∧ Fresh B ∧ SameSig (planeBlock w h ca b c) B ∧
      (∀ y < h, ∀ x < w, 2 ^ b ≤ (c y x).natAbs → B.smp y x =
        (2 * ((if c y x < 0 then 1 else 0) * 2 ^ (mb - b) + (c y x).natAbs / 2 ^ b) + 1) * 2 ^ (30 - mb + b)) ∧
      (∀ y < h, ∀ x < w, (c y x).natAbs < 2 ^ b → B.smp y x = 0) ∧
      htDecode ⟨w, h, mb, zbp, ca, 3 * k + z, List.replicate (3 * k) 0 ++ d.length :: l, d ++ seg⟩ pm pv pd scratch (fun _ _ => 0) =
        (do let B ← sigpropDecode D seg.length (30 - mb + b) B
            let B ← if 2 < z then magrefDecode D seg.length (30 - mb + b) B else some B
            return .samples fun y x => dequant (31 - mb) (B.smp y x)) := by
  have hc' : ∀ y < h, ∀ x < w, (above b c y x).natAbs < 2 ^ (mb - b) := fun y hy x hx => by
    rw [above_abs, Nat.div_lt_iff_lt_mul (by positivity), ← pow_add, show mb - b + b = mb by omega]
    exact hc y hy x hx
  obtain ⟨ms, vs, sp, out, e1, h2, h31, e2, e3, v, hsp⟩ := cleanup_spec (pm := pm) scratch hw hh (by omega) hc' hpv hpd he hd
  have hset := htSetup_eq (w := w) (h := h) (mb := mb) (zbp := zbp) (k := k) (z := z) (ca := ca) (l := l) (seg := seg) (by omega) (by omega)
    h2 h31 e1 hl hl3 hseg
  have hout : ∀ r k, ¬ (r < h ∧ k < w) → sampleBuf w h (above b c) r k = 0 := fun r k hn => by unfold sampleBuf; rw [if_neg hn]
  have hst := sigmaStates_spec hout hsp
  have hin : ∀ y x, sampleBuf w h (above b c) y x ≠ 0 ↔ (y < h ∧ x < w ∧ 2 ^ b ≤ (c y x).natAbs) := by
    intro y x
    by_cases hyx : y < h ∧ x < w
    · unfold sampleBuf
      rw [if_pos hyx]
      by_cases h0 : above b c y x = 0
      · have := above_zero.mp h0
        simp [h0, quantWord]; omega
      · have h4 := mt above_zero.mpr h0
        have hp : 2 ^ (mb - b) ≤ 2 ^ 30 := Nat.pow_le_pow_right (by omega) (by omega)
        have := quantWord_eq h0 (lt_of_lt_of_le (hc' y hyx.1 x hyx.2) hp)
        exact ⟨fun _ => ⟨hyx.1, hyx.2, not_lt.mp h4⟩, fun _ => by omega⟩
    · rw [hout y x hyx]; tauto
  refine ⟨⟨w, h, ca, fun r c' => if 1 ≤ r ∧ 1 ≤ c' ∧ sampleBuf w h (above b c) (r - 1) (c' - 1) ≠ 0 then 1 else 0, out⟩,
    drefByte ⟨w, h, mb, zbp, ca, 3 * k + z, List.replicate (3 * k) 0 ++ d.length :: l, d ++ seg⟩ d.length
      (decide (1 < 3 * k + z) && decide (1 < (l.filter (· ≠ 0)).length + 1)), ?_, ⟨?_, ?_, ?_⟩, ⟨rfl, rfl, rfl, ?_⟩, ?_, ?_, ?_⟩
  · intro i hi
    have : l.filter (· ≠ 0) ≠ [] := by
      intro hn
      have := sum_filter l
      rw [hn] at this
      simp at this; omega
    have := List.length_pos_of_ne_nil this
    unfold drefByte
    rw [if_pos (by simp only [Bool.and_eq_true, decide_eq_true_eq]; omega)]
    dsimp only
    rw [List.getElem?_append_right (by omega), Nat.add_sub_cancel_left]
  · intro r k; dsimp only; split_ifs <;> decide
  · intro r k; dsimp only; split_ifs <;> decide
  · intro r k hn
    dsimp only at hn ⊢
    rw [if_neg]
    · rfl
    · rintro ⟨h3, h4, h5⟩
      exact h5 (hout _ _ (by omega))
  · intro r k
    dsimp only
    by_cases hi : 1 ≤ r ∧ r ≤ h ∧ 1 ≤ k ∧ k ≤ w
    · have hb := (planeBlock_bit (b := b) (ca := ca) (c := c) (show r - 1 < h by omega) (show k - 1 < w by omega)).1
      unfold RBlk.sig at hb
      dsimp only at hb
      rw [show r - 1 + 1 = r by omega, show k - 1 + 1 = k by omega] at hb
      rw [hb]
      have := hin (r - 1) (k - 1)
      by_cases h4 : 2 ^ b ≤ (c (r - 1) (k - 1)).natAbs
      · rw [if_pos ⟨hi.1, hi.2.2.1, this.mpr ⟨by omega, by omega, h4⟩⟩]; simp [h4]
      · rw [if_neg (fun hn => h4 (this.mp hn.2.2).2.2)]; simp [h4]
    · rw [(planeBlock_fresh w h b ca c).out r k hi, if_neg]
      · rfl
      · rintro ⟨h3, h4, h5⟩
        exact h5 (hout _ _ (by omega))
  · intro y hy x hx h4
    dsimp only
    have h0 : above b c y x ≠ 0 := fun hn => by have := above_zero.mp hn; omega
    rw [v y hy x hx, sampleVal_quantWord (by omega) (by omega) (hc' y hy x hx) h0, above_abs]
    simp only [above_neg h0]
    rw [show 30 - (mb - b) = 30 - mb + b by omega]
    generalize (if c y x < 0 then 1 else 0) = sg
    have : 2 ^ 31 = 2 * 2 ^ (mb - b) * 2 ^ (30 - mb + b) := by
      rw [← pow_succ', ← pow_add]; congr 1; omega
    rw [this]; ring
  · intro y hy x hx h4
    dsimp only
    rw [v y hy x hx, above_zero.mpr h4]
    simp [quantWord, sampleVal]
  · unfold htDecode
    rw [hset]
    simp only [Option.bind_eq_bind, e2, Option.bind_some, if_neg (show ¬ z = 1 by omega), hst]
    rw [show 30 - (zbp + k) = 31 - (mb - b) by omega, e3]
    simp only [Option.bind_some, refineDecode, if_pos (show 1 < z by omega), Option.bind_eq_bind, show 30 - (zbp + k + 1) = 30 - mb + b by omega,
      Option.bind_assoc, if_neg (show ¬ (if z = 1 ∧ h % 2 = 0 then 31 else 30) < mb by split_ifs <;> omega)]
    congr 1; funext y; split_ifs <;> rfl

theorem refineEncode_length {b : RBlk} {seg : List Nat} (h : refineEncode b = some seg) : seg.length < 2 ^ 32 := by
  unfold refineEncode at h
  simp only [Option.bind_eq_bind] at h
  obtain ⟨s, -, h⟩ := Option.bind_eq_some_iff.mp h
  obtain ⟨m, -, h⟩ := Option.bind_eq_some_iff.mp h
  unfold refSegment at h
  dsimp only at h
  split_ifs at h with h1
  obtain rfl := Option.some.inj h
  unfold maxLref at h1
  unfold termSpMr
  dsimp only
  split_ifs <;> simp only [List.length_append, List.length_reverse, List.length_singleton] <;> omega

theorem fit_sign {mb b sg a : Nat} (hsg : sg ≤ 1) (ha : a < 2 ^ (mb - b)) (hb : b ≤ mb) (hmb : mb ≤ 30) :
    (2 * (sg * 2 ^ (mb - b) + a) + 1) * 2 ^ (30 - mb + b) < 2 ^ 32 := by
  have h1 := word_lt ha (P := 30 - mb + b) (by omega)
  have h2 : 2 * 2 ^ (mb - b) * 2 ^ (30 - mb + b) = 2 ^ 31 := by
    rw [← pow_succ', ← pow_add]; congr 1; omega
  have h3 : (2 * (sg * 2 ^ (mb - b) + a) + 1) * 2 ^ (30 - mb + b) =
      sg * (2 * 2 ^ (mb - b) * 2 ^ (30 - mb + b)) + (2 * a + 1) * 2 ^ (30 - mb + b) := by ring
  rw [h3, h2]
  have : sg * 2 ^ 31 ≤ 1 * 2 ^ 31 := Nat.mul_le_mul_right _ hsg
  omega

/-- C61, three passes.  The refinement passes of the encoder succeed; with their segment behind that of the cleanup pass, in whatever way its
length is divided over up to three entries of the table of lengths, the decoder finds every coefficient that the cleanup pass or the SigProp
pass visits down to bit-plane `b - 1` (exactly, if `b = 1`), and zero for the others, all of which are below `2^b`. -/
theorem C61_three_passes (w h mb zbp k b pm pv pd : Nat) (ca : Bool) (c : Nat → Nat → Int) (scratch : Nat → Nat) (d : List Nat)
    (hw : 0 < w) (hh : 0 < h) (hsz : w * h ≤ 4096) (hmb : mb ≤ 30) (hb : 1 ≤ b) (hpl : zbp + k + 1 + b = mb)
    (hc : ∀ y < h, ∀ x < w, (c y x).natAbs < 2 ^ mb) (hpv : pv < 4) (hpd : pd < 4)
    (he : encodeBlock w h (above b c) = some d) (hd : d ≠ []) :
    ∃ seg, refineEncode (planeBlock w h ca b c) = some seg ∧
      ∀ l : List Nat, l.sum = seg.length → (l.filter (· ≠ 0)).length ≤ 3 →
      ∃ o, htDecode ⟨w, h, mb, zbp, ca, 3 * k + 3, List.replicate (3 * k) 0 ++ d.length :: l, d ++ seg⟩ pm pv pd scratch (fun _ _ => 0) =
          some (.samples o) ∧
        ∀ y < h, ∀ x < w,
          (2 ^ b ≤ (c y x).natAbs ∨ Member (planeBlock w h ca b c) (y, x) → o y x = approx (b - 1) (c y x)) ∧
          (¬ (2 ^ b ≤ (c y x).natAbs ∨ Member (planeBlock w h ca b c) (y, x)) → o y x = 0) := by
  have hf := planeBlock_fresh w h b ca c
  have hre := refineEncode_eq hf hsz
  obtain ⟨seg, hseg⟩ : ∃ seg, refineEncode (planeBlock w h ca b c) = some seg := ⟨_, hre⟩
  have hlen : seg.length < 2 ^ 32 := refineEncode_length hseg
  refine ⟨seg, hseg, fun l hl hl3 => ?_⟩
  obtain ⟨B, D, hD, fB, sB, v1, v2, hdec⟩ := before_refinement (k := k) (z := 3) (pm := pm) (ca := ca) scratch hw hh hmb hb hpl hc hpv hpd he hd
    (by omega) hl hl3 hlen
  have hbit := fun y (hy : y < h) x (hx : x < w) => planeBlock_bit (b := b) (ca := ca) (c := c) hy hx
  have hlt : ∀ y < h, ∀ x < w, (c y x).natAbs / 2 ^ b < 2 ^ (mb - b) := fun y hy x hx => by
    rw [Nat.div_lt_iff_lt_mul (by positivity), ← pow_add, show mb - b + b = mb by omega]
    exact hc y hy x hx
  obtain ⟨seg', hseg', hrt⟩ := refinement_passes_roundtrip (planeBlock w h ca b c) B hf fB sB hsz (30 - mb + b) (by omega) (by omega)
    (fun x => (if c x.1 x.2 < 0 then 1 else 0) * 2 ^ (mb - b) + (c x.1 x.2).natAbs / 2 ^ b)
    (fun x hx hs => by
      have h4 := (hbit x.1 hx.1 x.2 hx.2).1
      rw [hs] at h4
      have h5 := v1 x.1 hx.1 x.2 hx.2 (of_decide_eq_true h4.symm)
      exact ⟨h5, by rw [h5]; exact fit_sign (by split_ifs <;> omega) (hlt _ hx.1 _ hx.2) (by omega) hmb⟩)
    (fun x hx hs => by
      have h4 := (hbit x.1 hx.1 x.2 hx.2).1
      rw [hs] at h4
      exact v2 x.1 hx.1 x.2 hx.2 (not_le.mp (of_decide_eq_false h4.symm)))
  obtain rfl : seg' = seg := Option.some.inj (hseg'.symm.trans hseg)
  obtain ⟨d1, d2, g1, g2, r1, r2, r3, -⟩ := hrt D hD
  refine ⟨fun y x => dequant (31 - mb) (d2.smp y x), ?_, fun y hy x hx => ?_⟩
  · rw [hdec]
    simp only [Option.bind_eq_bind, g1, Option.bind_some, if_pos (show 2 < 3 by decide), g2]
    rfl
  · have hh' : (planeBlock w h ca b c).has (y, x) := ⟨hy, hx⟩
    obtain ⟨b1, b2, b3⟩ := hbit y hy x hx
    have hP : 1 ≤ 30 - mb + b := by omega
    have hdv := div_half (c y x).natAbs b hb
    dsimp only
    by_cases h4 : 2 ^ b ≤ (c y x).natAbs
    · refine ⟨fun _ => ?_, fun hn => absurd (Or.inl h4) hn⟩
      have := r1 _ hh' (by rw [b1]; simp [h4])
      dsimp only at this
      rw [this, b2, show 31 - mb = (30 - mb + b) - (b - 1) by omega]
      have hlb : 2 ^ (b - 1) ≤ (c y x).natAbs := le_trans (Nat.pow_le_pow_right (by decide) (by omega)) h4
      refine dequant_approx hP (by omega) rfl hlb ?_ ?_
      · refine word_lt (n := mb - b + 1) ?_ (by omega)
        rw [Nat.div_lt_iff_lt_mul (by positivity), ← pow_add, show mb - b + 1 + (b - 1) = mb by omega]
        exact hc y hy x hx
      · rw [hdv]
        generalize (if c y x < 0 then 1 else 0) = sg
        generalize ((c y x).natAbs.testBit (b - 1)).toNat = t
        generalize (c y x).natAbs / 2 ^ b = a
        have : 2 ^ 31 = 4 * 2 ^ (mb - b) * 2 ^ (30 - mb + b - 1) := by
          rw [show (4 : Nat) = 2 ^ 2 from rfl, ← pow_add, ← pow_add]; congr 1; omega
        rw [this]; ring
    · have hsig : (planeBlock w h ca b c).sig (y, x) = false := by rw [b1]; simp [h4]
      by_cases hm : Member (planeBlock w h ca b c) (y, x)
      · refine ⟨fun _ => ?_, fun hn => absurd (Or.inr hm) hn⟩
        have h5 : (c y x).natAbs / 2 ^ b = 0 := Nat.div_eq_of_lt (not_le.mp h4)
        by_cases hbt : (c y x).natAbs.testBit (b - 1) = true
        · have := r2 _ hm (by rw [b2, hbt])
          dsimp only at this
          rw [h5, hbt] at hdv
          rw [this, b3, show 31 - mb = (30 - mb + b) - (b - 1) by omega]
          have hlb : 2 ^ (b - 1) ≤ (c y x).natAbs := Nat.ge_two_pow_of_testBit hbt
          refine dequant_approx (N := 1) hP (by omega) (by rw [hdv]; rfl) hlb (word_lt (n := 1) (by decide) (by omega)) ?_
          by_cases hn : c y x < 0 <;> simp [hn]
        · have := r3 _ hh' hsig (fun hn => hbt (by rw [← b2]; exact hn.2))
          dsimp only at this
          rw [this, dequant_zero]
          rw [h5, Bool.eq_false_iff.mpr hbt] at hdv
          unfold approx
          rw [if_pos]
          by_contra hn
          have := Nat.div_pos (not_lt.mp hn) (show 0 < 2 ^ (b - 1) by positivity)
          simp at hdv; omega
      · refine ⟨fun hn => absurd hn (by tauto), fun _ => ?_⟩
        have := r3 _ hh' hsig (fun hn => hm hn.1)
        dsimp only at this
        rw [this, dequant_zero]

theorem term_length (s : SpEnc) : s.term.length ≤ s.buf.length + 2 := by
  unfold SpEnc.term
  dsimp only
  by_cases h : s.tmp ≠ 0
  · simp only [if_pos h]
    split <;> simp
  · simp only [if_neg h]
    split <;> simp

/-- The SigProp pass alone, in the terms of C60. -/
theorem sigprop_pass_roundtrip (b d : RBlk) (hb : Fresh b) (hd : Fresh d) (hsame : SameSig b d) (hsz : b.w * b.h ≤ 4096)
    (p : Nat) (hp : 1 ≤ p) (hp30 : p ≤ 30) (hins : ∀ x, b.has x → b.sig x = false → d.smp x.1 x.2 = 0) :
    ∃ b' S, sigpropEncode b = some (b', S) ∧ (S.foldl SpEnc.emit SpEnc.init).term.length < 2 ^ 32 ∧
      ∀ D : Nat → Option Nat, (∀ k < (S.foldl SpEnc.emit SpEnc.init).term.length, D k = (S.foldl SpEnc.emit SpEnc.init).term[k]?) →
      ∃ d1, sigpropDecode D (S.foldl SpEnc.emit SpEnc.init).term.length p d = some d1 ∧
        (∀ x, b.has x → b.sig x = true → d1.smp x.1 x.2 = d.smp x.1 x.2) ∧
        (∀ x, Member b x → b.mag x = true → d1.smp x.1 x.2 = (b.neg x).toNat * 2 ^ 31 + 3 * 2 ^ (p - 1)) ∧
        (∀ x, b.has x → b.sig x = false → ¬ (Member b x ∧ b.mag x = true) → d1.smp x.1 x.2 = 0) := by
  have hs := SpInv.init.emitAll ((groups b.w b.h).flatMap (gBits b))
  rw [List.nil_append] at hs
  obtain ⟨b', e, -⟩ := sigpropEncode_eq hb
  refine ⟨b', _, e, ?_, fun D hD => ?_⟩
  · have a1 := hs.length
    have a2 := gBits_total b (groups b.w b.h)
    rw [groups_flat, magScan_length] at a2
    have a3 := term_length (((groups b.w b.h).flatMap (gBits b)).foldl SpEnc.emit SpEnc.init)
    omega
  obtain ⟨d1, e1, h1, v1⟩ := sigpropDecode_eq hb hd hsame hD (by omega : p ≠ 0) (SpRep.start (n := 1) (SpEnc.term_spec hs))
  have hmem : ∀ x, x ∈ magScan b.w b.h ↔ b.has x := fun x => mem_magScan
  refine ⟨d1, e1, ?_, ?_, ?_⟩
  · rintro ⟨i, j⟩ h2 h3
    have hn : ¬ (Member b (i, j) ∧ b.mag (i, j) = true) := fun hc => by rw [hc.1.insig] at h3; simp at h3
    rw [v1 i j]; simp [spAmt, spSgn, hn]
  · rintro ⟨i, j⟩ h2 h3
    have h4 := hins _ h2.has h2.insig
    dsimp only at *
    have hx : (i, j) ∈ magScan b.w b.h := (hmem _).mpr h2.has
    rw [v1 i j, if_pos hx, if_pos hx, h4, Nat.zero_or, spAmt, if_pos ⟨h2, h3⟩, spSgn, if_pos ⟨h2, h3⟩]
    exact spVal_eq (by omega) hp30 _
  · rintro ⟨i, j⟩ h2 h3 h5
    have h4 := hins _ h2 h3
    dsimp only at *
    rw [v1 i j, h4, spAmt, if_neg h5, spSgn, if_neg h5]
    simp

/-- C61, two passes: cleanup and SigProp, whose stream is the whole refinement segment.  Coefficients the SigProp pass visits are found down to
bit-plane `b - 1`, all others as after the cleanup pass. -/
theorem C61_two_passes (w h mb zbp k b pm pv pd : Nat) (ca : Bool) (c : Nat → Nat → Int) (scratch : Nat → Nat) (d : List Nat)
    (hw : 0 < w) (hh : 0 < h) (hsz : w * h ≤ 4096) (hmb : mb ≤ 30) (hb : 1 ≤ b) (hpl : zbp + k + 1 + b = mb)
    (hc : ∀ y < h, ∀ x < w, (c y x).natAbs < 2 ^ mb) (hpv : pv < 4) (hpd : pd < 4)
    (he : encodeBlock w h (above b c) = some d) (hd : d ≠ []) :
    ∃ E S, sigpropEncode (planeBlock w h ca b c) = some (E, S) ∧
      ∀ l : List Nat, l.sum = (S.foldl SpEnc.emit SpEnc.init).term.length → (l.filter (· ≠ 0)).length ≤ 3 →
      ∃ o, htDecode ⟨w, h, mb, zbp, ca, 3 * k + 2, List.replicate (3 * k) 0 ++ d.length :: l, d ++ (S.foldl SpEnc.emit SpEnc.init).term⟩
          pm pv pd scratch (fun _ _ => 0) = some (.samples o) ∧
        ∀ y < h, ∀ x < w,
          (Member (planeBlock w h ca b c) (y, x) → o y x = approx (b - 1) (c y x)) ∧
          (¬ Member (planeBlock w h ca b c) (y, x) → o y x = approx b (c y x)) := by
  have hf := planeBlock_fresh w h b ca c
  have hbit := fun y (hy : y < h) x (hx : x < w) => planeBlock_bit (b := b) (ca := ca) (c := c) hy hx
  have hlt : ∀ y < h, ∀ x < w, (c y x).natAbs / 2 ^ b < 2 ^ (mb - b) := fun y hy x hx => by
    rw [Nat.div_lt_iff_lt_mul (by positivity), ← pow_add, show mb - b + b = mb by omega]
    exact hc y hy x hx
  obtain ⟨E, e, -⟩ := sigpropEncode_eq hf
  refine ⟨E, _, e, fun l hl hl3 => ?_⟩
  have hlen : (((groups (planeBlock w h ca b c).w (planeBlock w h ca b c).h).flatMap (gBits (planeBlock w h ca b c))).foldl SpEnc.emit
      SpEnc.init).term.length < 2 ^ 32 := by
    obtain ⟨b', S, e', h', -⟩ := sigprop_pass_roundtrip _ (planeBlock w h ca b c) hf hf ⟨rfl, rfl, rfl, fun _ _ => rfl⟩ hsz 1 (by omega)
      (by omega) (fun _ _ _ => rfl)
    obtain ⟨-, rfl⟩ := Prod.mk.inj (Option.some.inj (e'.symm.trans e))
    exact h'
  obtain ⟨B, D, hD, fB, sB, v1, v2, hdec⟩ := before_refinement (k := k) (z := 2) (pm := pm) (ca := ca) scratch hw hh hmb hb hpl hc hpv hpd he hd
    (by omega) hl hl3 hlen
  obtain ⟨b', S, e', -, hrt⟩ := sigprop_pass_roundtrip (planeBlock w h ca b c) B hf fB sB hsz (30 - mb + b) (by omega) (by omega)
    (fun x hx hs => by
      have h4 := (hbit x.1 hx.1 x.2 hx.2).1
      rw [hs] at h4
      exact v2 x.1 hx.1 x.2 hx.2 (not_le.mp (of_decide_eq_false h4.symm)))
  obtain ⟨-, rfl⟩ := Prod.mk.inj (Option.some.inj (e'.symm.trans e))
  obtain ⟨d1, g1, r1, r2, r3⟩ := hrt D hD
  refine ⟨fun y x => dequant (31 - mb) (d1.smp y x), ?_, fun y hy x hx => ?_⟩
  · rw [hdec]
    simp only [Option.bind_eq_bind, g1, Option.bind_some, if_neg (show ¬ 2 < 2 by decide)]
    rfl
  · have hh' : (planeBlock w h ca b c).has (y, x) := ⟨hy, hx⟩
    obtain ⟨b1, b2, b3⟩ := hbit y hy x hx
    have hP : 1 ≤ 30 - mb + b := by omega
    have hdv := div_half (c y x).natAbs b hb
    dsimp only
    by_cases h4 : 2 ^ b ≤ (c y x).natAbs
    · have hs : (planeBlock w h ca b c).sig (y, x) = true := by rw [b1]; simp [h4]
      refine ⟨fun hn => absurd hs (by rw [hn.insig]; decide), fun _ => ?_⟩
      have := r1 _ hh' hs
      dsimp only at this
      rw [this, v1 y hy x hx h4, show 31 - mb = (30 - mb + b + 1) - b by omega]
      refine dequant_approx (by omega) (by omega) rfl h4 ?_ ?_
      · exact word_lt (hlt y hy x hx) (by omega)
      · rw [Nat.add_sub_cancel]
        generalize (if c y x < 0 then 1 else 0) = sg
        generalize (c y x).natAbs / 2 ^ b = a
        have : 2 ^ 31 = 2 * 2 ^ (mb - b) * 2 ^ (30 - mb + b) := by
          rw [← pow_succ', ← pow_add]; congr 1; omega
        rw [this]; ring
    · have hsig : (planeBlock w h ca b c).sig (y, x) = false := by rw [b1]; simp [h4]
      by_cases hm : Member (planeBlock w h ca b c) (y, x)
      · refine ⟨fun _ => ?_, fun hn => absurd hm hn⟩
        have h5 : (c y x).natAbs / 2 ^ b = 0 := Nat.div_eq_of_lt (not_le.mp h4)
        by_cases hbt : (c y x).natAbs.testBit (b - 1) = true
        · have := r2 _ hm (by rw [b2, hbt])
          dsimp only at this
          rw [h5, hbt] at hdv
          rw [this, b3, show 31 - mb = (30 - mb + b) - (b - 1) by omega]
          have hlb : 2 ^ (b - 1) ≤ (c y x).natAbs := Nat.ge_two_pow_of_testBit hbt
          refine dequant_approx (N := 1) hP (by omega) (by rw [hdv]; rfl) hlb (word_lt (n := 1) (by decide) (by omega)) ?_
          by_cases hn : c y x < 0 <;> simp [hn]
        · have := r3 _ hh' hsig (fun hn => hbt (by rw [← b2]; exact hn.2))
          dsimp only at this
          rw [this, dequant_zero]
          rw [h5, Bool.eq_false_iff.mpr hbt] at hdv
          unfold approx
          rw [if_pos]
          by_contra hn
          have := Nat.div_pos (not_lt.mp hn) (show 0 < 2 ^ (b - 1) by positivity)
          simp at hdv; omega
      · refine ⟨fun hn => absurd hn hm, fun _ => ?_⟩
        have := r3 _ hh' hsig (fun hn => hm hn.1)
        dsimp only at this
        rw [this, dequant_zero]
        unfold approx
        rw [if_pos (not_le.mp h4)]

/-! Concrete cases: a causal block of 5 x 5 coefficients, coded at bit-planes 2 and 1 behind three empty passes. -/

/-- Large coefficients in the middle row; around them small ones, of which those next to it are visited; the one in the corner is not. -/
def htExample (y x : Nat) : Int :=
  if y = 2 then 9 - 5 * (x : Int) else if y = 1 then 2 * (x : Int) - 4 else if y = 4 ∧ x = 0 then 3 else 0

def htExampleRun (z : Nat) : Option (List (List Int)) := do
  let d ← encodeBlock 5 5 (above 2 htExample)
  let seg ← if z = 1 then some [] else if z = 2 then (sigpropEncode (planeBlock 5 5 true 2 htExample)).map (fun r => (r.2.foldl SpEnc.emit SpEnc.init).term)
    else refineEncode (planeBlock 5 5 true 2 htExample)
  let o ← htDecode ⟨5, 5, 6, 2, true, 3 + z, [0, 0, 0, d.length, seg.length, 0], d ++ seg⟩ 0 0 0 (fun _ => 7) (fun _ _ => 0)
  match o with
  | .samples f => return (List.range 5).map fun y => (List.range 5).map fun x => f y x
  | _ => none

example : (List.range 5).map (fun y => (List.range 5).map fun x => htExample y x) =
      [[0, 0, 0, 0, 0], [-4, -2, 0, 2, 4], [9, 4, -1, -6, -11], [0, 0, 0, 0, 0], [3, 0, 0, 0, 0]] ∧
    htExampleRun 1 = some [[0, 0, 0, 0, 0], [-6, 0, 0, 0, 6], [10, 6, 0, -6, -10], [0, 0, 0, 0, 0], [0, 0, 0, 0, 0]] ∧
    htExampleRun 2 = some [[0, 0, 0, 0, 0], [-6, -3, 0, 3, 6], [10, 6, 0, -6, -10], [0, 0, 0, 0, 0], [0, 0, 0, 0, 0]] ∧
    htExampleRun 3 = some [[0, 0, 0, 0, 0], [-5, -3, 0, 3, 5], [9, 5, 0, -7, -11], [0, 0, 0, 0, 0], [0, 0, 0, 0, 0]] := by
  decide +kernel

end Verif.Ht
