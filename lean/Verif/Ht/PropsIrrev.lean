import Verif.Ht.Irrev
import Verif.Ht.HtLemmas
import Mathlib.Tactic.FieldSimp
import Mathlib.Tactic.Linarith
/-!
# C75: what quantisation costs, HT block coder

The definitions in Irrev.lean have the sources.  `step` is the `stepsize` of the subband; coefficients are scaled by 2^13
(`FRACBITS`), so that `step * 2 ^ 13` is the width of a quantiser interval.
-/

namespace Verif.Ht

/-- Midpoint reconstruction of a dead-zone quantiser: what the decoder should make (`r`) of the coefficient `c`.  In the dead zone it
is zero; otherwise `c` lies in the `n`-th interval of width `D` from zero, and `r` is its middle, on the same side. -/
def Midpoint (D c r : ℚ) : Prop :=
  (|c| < D → r = 0) ∧ (D ≤ |c| → 0 < r * c ∧ ∃ n : ℕ, 1 ≤ n ∧ n * D ≤ |c| ∧ |c| < (n + 1) * D ∧ |r| = (n + 1 / 2) * D)

theorem truncQ_abs (x : ℚ) : (((truncQ x).natAbs : ℕ) : ℚ) ≤ |x| ∧ |x| < (truncQ x).natAbs + 1 := by
  unfold truncQ
  split_ifs with h
  · rw [abs_of_nonneg h]
    have h1 := Int.floor_le x
    have h2 := Int.lt_floor_add_one x
    have h3 : 0 ≤ ⌊x⌋ := Int.floor_nonneg.mpr h
    have : ((⌊x⌋.natAbs : ℕ) : ℚ) = (⌊x⌋ : ℚ) := by
      rw [← Int.cast_natCast, Int.natAbs_of_nonneg h3]
    rw [this]; exact ⟨h1, h2⟩
  · have h := not_le.mp h
    rw [abs_of_neg h, Int.natAbs_neg]
    have h1 := Int.floor_le (-x)
    have h2 := Int.lt_floor_add_one (-x)
    have h3 : 0 ≤ ⌊-x⌋ := Int.floor_nonneg.mpr (by linarith)
    have : ((⌊-x⌋.natAbs : ℕ) : ℚ) = (⌊-x⌋ : ℚ) := by
      rw [← Int.cast_natCast, Int.natAbs_of_nonneg h3]
    rw [this]; exact ⟨h1, h2⟩

theorem truncQ_neg {x : ℚ} (h : truncQ x ≠ 0) : truncQ x < 0 ↔ x < 0 := by
  unfold truncQ at *
  split_ifs at h ⊢ with h0
  · have h3 : 0 ≤ ⌊x⌋ := Int.floor_nonneg.mpr h0
    constructor
    · intro; omega
    · intro; linarith
  · have h0 := not_le.mp h0
    have h3 : 0 ≤ ⌊-x⌋ := Int.floor_nonneg.mpr (by linarith)
    constructor
    · intro; exact h0
    · intro; omega

theorem quantIrr_abs {step c : ℚ} (hs : 0 < step) :
    ((quantIrr step c).natAbs : ℚ) * (step * 2 ^ 13) ≤ |c| ∧ |c| < ((quantIrr step c).natAbs + 1) * (step * 2 ^ 13) := by
  have hD : 0 < step * 2 ^ 13 := by positivity
  have h := truncQ_abs (c * (1 / step / 2 ^ 13))
  have e : |c * (1 / step / 2 ^ 13)| = |c| / (step * 2 ^ 13) := by
    rw [abs_mul, abs_of_pos (show (0 : ℚ) < 1 / step / 2 ^ 13 by positivity)]
    field_simp
  rw [e, le_div_iff₀ hD, div_lt_iff₀ hD] at h
  exact h

theorem quantIrr_neg {step c : ℚ} (hs : 0 < step) (h : quantIrr step c ≠ 0) : quantIrr step c < 0 ↔ c < 0 := by
  have := truncQ_neg h
  unfold quantIrr at *
  rw [this]
  have hp : (0 : ℚ) < 1 / step / 2 ^ 13 := by positivity
  constructor
  · intro h1
    by_contra h2
    have := mul_nonneg (not_lt.mp h2) hp.le
    linarith
  · intro h1
    exact mul_neg_of_neg_of_pos h1 hp

theorem dequantIrr_eq {step : ℚ} {mb sg t : Nat} (hsg : sg ≤ 1) (ht : t < 2 ^ 31) :
    dequantIrr step mb (sg * 2 ^ 31 + t) = if sg = 1 then -((t : ℚ) * scaleDirect step mb) else (t : ℚ) * scaleDirect step mb := by
  have m1 : (sg * 2 ^ 31 + t) &&& 0x7FFFFFFF = t := by
    rw [show (0x7FFFFFFF : Nat) = 2 ^ 31 - 1 from rfl, Nat.and_two_pow_sub_one_eq_mod, Nat.add_comm, Nat.add_mul_mod_self_right,
      Nat.mod_eq_of_lt ht]
  have m3 : (sg * 2 ^ 31 + t).testBit 31 = decide (sg = 1) := by
    rw [tb_div, Nat.add_comm, Nat.add_mul_div_right _ _ (by positivity), Nat.div_eq_of_lt ht]
    apply decide_eq_decide.mpr; omega
  unfold dequantIrr
  simp only [m1, m3, decide_eq_true_eq]

theorem scaleDirect_half {step : ℚ} {mb n : Nat} (hmb : mb ≤ 30) :
    (((2 * n + 1) * 2 ^ (30 - mb) : Nat) : ℚ) * scaleDirect step mb = (n + 1 / 2) * (step * 2 ^ 13) := by
  unfold scaleDirect
  rw [if_pos (by omega), show 31 - mb = 30 - mb + 1 by omega, pow_succ (2 : ℚ) (30 - mb)]
  have : (2 : ℚ) ^ (30 - mb) ≠ 0 := by positivity
  push_cast
  generalize (2 : ℚ) ^ (30 - mb) = P at *
  field_simp

/-- The word step 2 stores for the index of `c`, dequantised. -/
theorem midpoint_word {step c : ℚ} {mb : Nat} (hs : 0 < step) (h1 : 1 ≤ mb) (h2 : mb ≤ 30) (hc : (quantIrr step c).natAbs < 2 ^ mb) :
    Midpoint (step * 2 ^ 13) c (dequantIrr step mb (sampleVal (31 - mb) (quantWord (quantIrr step c)))) := by
  have hD : 0 < step * 2 ^ 13 := by positivity
  obtain ⟨a1, a2⟩ := quantIrr_abs (c := c) hs
  have hneg := quantIrr_neg (c := c) hs
  set q := quantIrr step c with hq
  by_cases h0 : q = 0
  · rw [h0] at a2 ⊢
    have e : dequantIrr step mb (sampleVal (31 - mb) (quantWord 0)) = 0 := by
      simp [quantWord, sampleVal, dequantIrr]
    rw [e]
    refine ⟨fun _ => rfl, fun h => ?_⟩
    simp only [Int.natAbs_zero, Nat.cast_zero, zero_add, one_mul] at a2
    linarith
  · have hpos : 1 ≤ q.natAbs := by omega
    have hlt : (2 * q.natAbs + 1) * 2 ^ (30 - mb) < 2 ^ 31 := by
      calc (2 * q.natAbs + 1) * 2 ^ (30 - mb) < 2 ^ (mb + 1) * 2 ^ (30 - mb) := by
            apply Nat.mul_lt_mul_of_pos_right _ (by positivity)
            rw [pow_succ]; omega
        _ = 2 ^ 31 := by rw [← pow_add]; congr 1; omega
    rw [sampleVal_quantWord h1 h2 hc h0, dequantIrr_eq (by split_ifs <;> omega) hlt, scaleDirect_half h2]
    have hq1 : (1 : ℚ) ≤ (q.natAbs : ℚ) := by exact_mod_cast hpos
    have hr : 0 < ((q.natAbs : ℚ) + 1 / 2) * (step * 2 ^ 13) := by positivity
    have hge : step * 2 ^ 13 ≤ |c| := by
      calc step * 2 ^ 13 ≤ (q.natAbs : ℚ) * (step * 2 ^ 13) := le_mul_of_one_le_left hD.le hq1
        _ ≤ |c| := a1
    refine ⟨fun h => absurd h (not_lt.mpr hge), fun _ => ⟨?_, q.natAbs, hpos, a1, a2, ?_⟩⟩
    · by_cases hn : q < 0
      · rw [if_pos hn, if_pos rfl]
        exact mul_pos_of_neg_of_neg (by linarith) ((hneg h0).mp hn)
      · rw [if_neg hn, if_neg (by decide)]
        have : ¬c < 0 := fun h => hn ((hneg h0).mpr h)
        have : c ≠ 0 := by
          intro h
          rw [h, abs_zero] at hge
          linarith
        exact mul_pos hr (lt_of_le_of_ne (by linarith) (Ne.symm this))
    · by_cases hn : q < 0
      · rw [if_pos hn, if_pos rfl, abs_neg, abs_of_pos hr]
      · rw [if_neg hn, if_neg (by decide), abs_of_pos hr]

/-- **C75, HT.**  A code-block of an irreversible subband, of any size: if no coefficient needs more than `M_b` bits, the decoder
accepts the segment the encoder wrote, and gives for every coefficient the middle of its quantiser interval, zero in the dead zone. -/
theorem C75_ht_roundtrip (w h mb pm pv pd : Nat) (step : ℚ) (c : Nat → Nat → ℚ) (scratch : Nat → Nat) (d : List Nat)
    (hw : 0 < w) (hh : 0 < h) (hmb : 1 ≤ mb ∧ mb ≤ 30) (hs : 0 < step) (hc : ∀ y < h, ∀ x < w, |c y x| < 2 ^ mb * (step * 2 ^ 13))
    (hpv : pv < 4) (hpd : pd < 4) (he : encodeIrr w h step c = some d) :
    ∃ o, decodeIrr w h mb (mb - 1) step pm pv pd scratch d = some o ∧ ∀ y < h, ∀ x < w, Midpoint (step * 2 ^ 13) (c y x) (o y x) := by
  have hD : 0 < step * 2 ^ 13 := by positivity
  have hq : ∀ y < h, ∀ x < w, (quantIrr step (c y x)).natAbs < 2 ^ mb := by
    intro y hy x hx
    have h1 := lt_of_le_of_lt (quantIrr_abs (c := c y x) hs).1 (hc y hy x hx)
    have := lt_of_mul_lt_mul_right h1 hD.le
    exact_mod_cast this
  unfold encodeIrr at he
  split_ifs at he with hfit
  by_cases hd : d = []
  · subst hd
    have hp : 2 ^ mb ≤ 2 ^ 30 := Nat.pow_le_pow_right (by omega) hmb.2
    refine ⟨fun _ _ => 0, by simp [decodeIrr], fun y hy x hx => ?_⟩
    have h0 : quantIrr step (c y x) = 0 := by
      by_contra h0
      have hany : ((List.range h).any fun y => (List.range w).any fun x => quantIrr step (c y x) ≠ 0) = true := by
        rw [List.any_eq_true]
        refine ⟨y, List.mem_range.mpr hy, ?_⟩
        rw [List.any_eq_true]
        exact ⟨x, List.mem_range.mpr hx, by simpa using h0⟩
      unfold encodeBlock at he
      rw [if_pos hany] at he
      obtain ⟨seg, h1, -⟩ := encodeCup_spec (ms := _) (es := _) (cs := _) he
      simp [openCup] at h1
    have a2 := (quantIrr_abs (c := c y x) hs).2
    rw [h0] at a2
    simp only [Int.natAbs_zero, Nat.cast_zero, zero_add, one_mul] at a2
    exact ⟨fun _ => rfl, fun h => by linarith⟩
  · obtain ⟨ms, vs, sp, out, e1, -, -, e2, e3, v, -⟩ := cleanup_spec (pm := pm) scratch hw hh hmb.2 hq hpv hpd he hd
    refine ⟨fun y x => dequantIrr step mb (out y x), ?_, fun y hy x hx => ?_⟩
    · unfold decodeIrr
      rw [if_neg hd, if_neg (by omega), e1]
      simp only [Option.bind_eq_bind, Option.bind_some]
      rw [e2]
      simp only [Option.bind_some]
      rw [show 30 - (mb - 1) = 31 - mb by omega, e3]
      rfl
    · simp only
      rw [v y hy x hx]
      exact midpoint_word hs hmb.1 hmb.2 (hq y hy x hx)

/-- In other words: less than one step in the dead zone, at most half a step outside of it. -/
theorem C75_error_bound (D c r : ℚ) (hD : 0 < D) (h : Midpoint D c r) : |r - c| < D ∧ (D ≤ |c| → |r - c| ≤ D / 2) := by
  have key : D ≤ |c| → |r - c| ≤ D / 2 := by
    intro hc
    obtain ⟨hp, n, -, h1, h2, h3⟩ := h.2 hc
    rcases pos_and_pos_or_neg_and_neg_of_mul_pos hp with ⟨a, b⟩ | ⟨a, b⟩
    · rw [abs_of_pos a] at h3
      rw [abs_of_pos b] at h1 h2
      rw [abs_le]; constructor <;> linarith
    · rw [abs_of_neg a] at h3
      rw [abs_of_neg b] at h1 h2
      rw [abs_le]; constructor <;> linarith
  refine ⟨?_, key⟩
  by_cases hc : D ≤ |c|
  · have := key hc; linarith
  · rw [h.1 (not_le.mp hc), zero_sub, abs_neg]
    exact not_le.mp hc

/-- A decoded coefficient, quantised again with the same step, has the index it came from: coding decoded subbands again loses
nothing more. -/
theorem C75_requantise (step c r : ℚ) (hs : 0 < step) (h : Midpoint (step * 2 ^ 13) c r) : quantIrr step r = quantIrr step c := by
  have hD : 0 < step * 2 ^ 13 := by positivity
  obtain ⟨c1, c2⟩ := quantIrr_abs (c := c) hs
  obtain ⟨r1, r2⟩ := quantIrr_abs (c := r) hs
  have lt_of : ∀ {a b : ℕ} {x : ℚ}, a * (step * 2 ^ 13) ≤ x → x < (b + 1) * (step * 2 ^ 13) → a ≤ b := by
    intro a b x h1 h2
    have := lt_of_mul_lt_mul_right (lt_of_le_of_lt h1 h2) hD.le
    have : a < b + 1 := by exact_mod_cast this
    omega
  by_cases hc : step * 2 ^ 13 ≤ |c|
  · obtain ⟨hp, n, hn, h1, h2, h3⟩ := h.2 hc
    have ec : (quantIrr step c).natAbs = n := le_antisymm (lt_of c1 h2) (lt_of h1 c2)
    have b1 : (n : ℚ) * (step * 2 ^ 13) ≤ |r| := by rw [h3]; linarith
    have b2 : |r| < ((n : ℚ) + 1) * (step * 2 ^ 13) := by rw [h3]; linarith
    have er : (quantIrr step r).natAbs = n := le_antisymm (lt_of r1 b2) (lt_of b1 r2)
    have nc := quantIrr_neg (c := c) hs (by omega)
    have nr := quantIrr_neg (c := r) hs (by omega)
    rcases pos_and_pos_or_neg_and_neg_of_mul_pos hp with ⟨a, b⟩ | ⟨a, b⟩
    · have x1 : ¬quantIrr step c < 0 := fun x => by have := nc.mp x; linarith
      have x2 : ¬quantIrr step r < 0 := fun x => by have := nr.mp x; linarith
      omega
    · have x1 := nc.mpr b
      have x2 := nr.mpr a
      omega
  · have hc := not_le.mp hc
    have ec : (quantIrr step c).natAbs = 0 := by
      have := lt_of (b := 0) c1 (by simpa using hc)
      omega
    have er : (quantIrr step r).natAbs = 0 := by
      have hr := h.1 hc
      have := lt_of (b := 0) r1 (by rw [hr, abs_zero]; positivity)
      omega
    omega

/-- A block of two coefficients: -5.5 steps and 0.9 steps. -/
example : ∃ d o, encodeIrr 2 1 (1 / 1024) (fun _ x => if x = 0 then -44 else 36 / 5) = some d ∧ decodeIrr 2 1 7 6 (1 / 1024) 0 0 0 (fun _ => 0) d = some o ∧
    o 0 0 = -44 ∧ o 0 1 = 0 := by
  have e : ∃ d, encodeIrr 2 1 (1 / 1024) (fun _ x => if x = 0 then -44 else 36 / 5) = some d := by
    rw [← Option.isSome_iff_exists]; decide +kernel
  obtain ⟨d, e⟩ := e
  obtain ⟨o, e1, ho⟩ := C75_ht_roundtrip 2 1 7 0 0 0 (1 / 1024) _ (fun _ => 0) d (by decide) (by decide) (by decide) (by norm_num)
    (fun y hy x hx => by split_ifs <;> norm_num [abs_lt]) (by decide) (by decide) e
  refine ⟨d, o, e, e1, ?_, ?_⟩
  · obtain ⟨h1, h2⟩ := ho 0 (by decide) 0 (by decide)
    rw [if_pos rfl] at h2
    norm_num at h2
    obtain ⟨hn, n, n1, n2, n3, n4⟩ := h2
    have b1 : n < 6 := by
      have : (n : ℚ) < 6 := by linarith
      exact_mod_cast this
    have b2 : 4 < n := by
      have : (4 : ℚ) < n := by linarith
      exact_mod_cast this
    obtain rfl : n = 5 := by omega
    rw [abs_of_neg (by linarith)] at n4
    push_cast at n4
    linarith
  · refine (ho 0 (by decide) 1 (by decide)).1 ?_
    norm_num [abs_lt]

end Verif.Ht
