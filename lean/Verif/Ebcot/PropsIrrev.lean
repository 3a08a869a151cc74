import Verif.Ebcot.Irrev
import Verif.Ebcot.PropsBlock
import Verif.Tile.Step
import Mathlib.Tactic.FieldSimp
import Mathlib.Tactic.Linarith
/-
C75, Part 1 block decoder: what the integer arithmetic of `j2k_dequant` makes of the quantiser indices.

`j2kBlockIrr x step` is `j2k_decode` on a block of an irreversible subband with step size `step`. Coefficients are scaled by 2^13 (`FRACBITS`), so that
`step * 2 ^ 13` is the width of a quantiser interval. The encoder is that of the standard (see PropsBlock.lean), not in the repository, and written from memory.
-/
namespace Verif.Ebcot
open Verif.Ebcot.Std (Src St Modes)

theorem dequantIrrRow_ok {x : CbIn} {s : Int} {b : Blk} {y : Nat} (f : Nat → Int) : ∀ l : List Nat,
    (∀ c ∈ l, ∃ v st, b.getSmp y c = .ok v ∧ b.getSt (y + 1) (c + 1) = .ok st ∧ dequantIrr x.mb x.roi s v st = .ok (f c)) →
    dequantIrrRow x s b y l = .ok (l.map f) := by
  intro l
  induction l with
  | nil => intro _; rfl
  | cons c l ih =>
    intro h
    obtain ⟨v, st, e1, e2, e3⟩ := h c (List.mem_cons_self ..)
    have h2 := ih fun c hc => h c (List.mem_cons_of_mem _ hc)
    simp only [dequantIrrRow]
    rw [e1, e2]
    simp only [Except.mapError, Except.bind]
    rw [e3, h2]
    rfl

theorem dequantIrrRows_ok {x : CbIn} {s : Int} {b : Blk} (f : Nat → Nat → Int) : ∀ l : List Nat,
    (∀ y ∈ l, dequantIrrRow x s b y (List.range x.w) = .ok ((List.range x.w).map (f y))) →
    dequantIrrRows x s b l = .ok (l.map fun y => (List.range x.w).map (f y)) := by
  intro l
  induction l with
  | nil => intro _; rfl
  | cons y l ih =>
    intro h
    simp only [dequantIrrRows]
    rw [h y (List.mem_cons_self ..), ih fun y hy => h y (List.mem_cons_of_mem _ hy)]
    rfl

theorem int32_ok {z : Int} (h1 : -2 ^ 31 ≤ z) (h2 : z < 2 ^ 31) : int32 z = .ok z := if_pos ⟨h1, h2⟩

theorem int32_err {z : Int} (h : 2 ^ 31 ≤ z) : int32 z = .error .overflow := if_neg fun h' => absurd h'.2 (not_lt.mpr h)

/-- The three sums and products of one sample are in range, or one is not. -/
theorem mulIrr_eq {s : Int} (hs : 0 ≤ s) (v : Nat) :
    mulIrr s v = if (v : Int) + 2 ^ 15 < 2 ^ 31 ∧ ((v : Int) + 2 ^ 15) / 2 ^ 16 * s + 2 ^ 14 < 2 ^ 31
      then .ok ((((v : Int) + 2 ^ 15) / 2 ^ 16 * s + 2 ^ 14) / 2 ^ 15) else .error .overflow := by
  unfold mulIrr
  by_cases h1 : (v : Int) + 2 ^ 15 < 2 ^ 31
  · have h0 : 0 ≤ ((v : Int) + 2 ^ 15) / 2 ^ 16 := by positivity
    have hp : 0 ≤ ((v : Int) + 2 ^ 15) / 2 ^ 16 * s := mul_nonneg h0 hs
    rw [int32_ok (by omega) h1]
    simp only [Except.bind]
    generalize ((v : Int) + 2 ^ 15) / 2 ^ 16 * s = p at *
    by_cases h2 : p + 2 ^ 14 < 2 ^ 31
    · rw [int32_ok (by omega) (by omega), if_pos ⟨h1, h2⟩]
      simp only
      rw [int32_ok (by omega) h2]
    · rw [if_neg fun h => h2 h.2]
      by_cases h3 : p < 2 ^ 31
      · rw [int32_ok (by omega) h3]
        simp only
        rw [int32_err (by omega)]
      · rw [int32_err (by omega)]
  · rw [if_neg fun h => h1 h.1, int32_err (by omega)]
    rfl

theorem scaleIrr_eq {step : ℚ} {mb : Nat} (hs : 0 < step) (hmb : mb ≤ 30) :
    scaleIrr step mb = int32 ⌊step * 2 ^ 13 * 2 ^ mb + 1 / 2⌋ := by
  unfold scaleIrr
  have e : (if mb ≤ 31 then step * 2 ^ 13 / 2 ^ (31 - mb) else step * 2 ^ 13 * 2 ^ (mb - 31)) * (2 ^ 16 * 2 ^ 15) = step * 2 ^ 13 * 2 ^ mb := by
    rw [if_pos (by omega)]
    have : (2 : ℚ) ^ 16 * 2 ^ 15 = 2 ^ (31 - mb) * 2 ^ mb := by
      rw [← pow_add, ← pow_add]; congr 1; omega
    rw [this]
    have : (2 : ℚ) ^ (31 - mb) ≠ 0 := by positivity
    generalize (2 : ℚ) ^ (31 - mb) = P at *
    generalize (2 : ℚ) ^ 13 = Q at *
    field_simp
  dsimp only
  rw [e, if_pos (by positivity)]

/-- How far the integer arithmetic is off. -/
theorem mul_error {S : ℚ} (hS : 0 ≤ S) {v : Nat} (hv : v + 2 ^ 15 < 2 ^ 31) :
    |(((((v : Int) + 2 ^ 15) / 2 ^ 16 * ⌊S + 1 / 2⌋ + 2 ^ 14) / 2 ^ 15 : Int) : ℚ) - v / 2 ^ 31 * S| ≤ S / 2 ^ 16 + 1 := by
  have hs0 : 0 ≤ ⌊S + 1 / 2⌋ := Int.floor_nonneg.mpr (by linarith)
  have hs1 := Int.floor_le (S + 1 / 2)
  have hs2 := Int.lt_floor_add_one (S + 1 / 2)
  generalize ⌊S + 1 / 2⌋ = s at *
  obtain ⟨a, ha⟩ : ∃ a, a = ((v : Int) + 2 ^ 15) / 2 ^ 16 := ⟨_, rfl⟩
  have a0 : 0 ≤ a := by omega
  have a1 : a ≤ 2 ^ 15 := by omega
  have a2 : a * 2 ^ 16 ≤ (v : Int) + 2 ^ 15 := by omega
  have a3 : (v : Int) + 2 ^ 15 < a * 2 ^ 16 + 2 ^ 16 := by omega
  rw [← ha]
  obtain ⟨p, hp⟩ : ∃ p, p = a * s := ⟨_, rfl⟩
  rw [← hp]
  obtain ⟨r, hr⟩ : ∃ r, r = (p + 2 ^ 14) / 2 ^ 15 := ⟨_, rfl⟩
  rw [← hr]
  have r1 : r * 2 ^ 15 ≤ p + 2 ^ 14 := by omega
  have r2 : p + 2 ^ 14 < r * 2 ^ 15 + 2 ^ 15 := by omega
  have q0 : (0 : ℚ) ≤ a := by exact_mod_cast a0
  have q1 : (a : ℚ) ≤ 2 ^ 15 := by exact_mod_cast a1
  have q2 : (a : ℚ) * 2 ^ 16 ≤ v + 2 ^ 15 := by exact_mod_cast a2
  have q3 : (v : ℚ) + 2 ^ 15 < a * 2 ^ 16 + 2 ^ 16 := by exact_mod_cast a3
  have qp : (p : ℚ) = a * s := by exact_mod_cast hp
  have qr1 : (r : ℚ) * 2 ^ 15 ≤ p + 2 ^ 14 := by exact_mod_cast r1
  have qr2 : (p : ℚ) + 2 ^ 14 < r * 2 ^ 15 + 2 ^ 15 := by exact_mod_cast r2
  have m1 : (a : ℚ) * (s - S) ≤ a * (1 / 2) := mul_le_mul_of_nonneg_left (by linarith) q0
  have m2 : (a : ℚ) * (S - s) ≤ a * (1 / 2) := mul_le_mul_of_nonneg_left (by linarith) q0
  have m3 : S * (a * 2 ^ 16 - v) ≤ S * 2 ^ 15 := mul_le_mul_of_nonneg_left (by linarith) hS
  have m4 : S * (v - a * 2 ^ 16) ≤ S * 2 ^ 15 := mul_le_mul_of_nonneg_left (by linarith) hS
  rw [mul_sub] at m1 m2 m3 m4
  have e1 : S * (a * 2 ^ 16) = a * S * 2 ^ 16 := by ring
  have e2 : (v : ℚ) / 2 ^ 31 * S = S * v / 2 ^ 31 := by ring
  rw [e1] at m3 m4
  rw [e2, qp] at *
  generalize (a : ℚ) * S = X at *
  generalize S * (v : ℚ) = Y at *
  generalize (a : ℚ) * (s : ℚ) = Z at *
  norm_num at *
  rw [abs_le]
  constructor <;> linarith

theorem midIrr_ok {mb a d st : Nat} (hmb : mb ≤ 30) (hst8 : st < 256) (hst : a / 2 ^ d ≠ 0 → st / 8 = 31 - mb + d) (hd : d ≤ mb) :
    midIrr mb 0 st (a / 2 ^ d * 2 ^ d * 2 ^ (31 - mb)) =
      .ok (if a / 2 ^ d = 0 then 0 else a / 2 ^ d * 2 ^ d * 2 ^ (31 - mb) + 2 ^ (30 - mb + d)) := by
  unfold midIrr
  simp only [ne_eq, not_true_eq_false, if_false]
  have hsh : 0 ≤ 31 - (mb : Int) - 1 + (if 30 - ((st / 8 : Nat) : Int) + 1 < mb then (mb : Int) - (30 - ((st / 8 : Nat) : Int) + 1) else 0) ∧
      31 - (mb : Int) - 1 + (if 30 - ((st / 8 : Nat) : Int) + 1 < mb then (mb : Int) - (30 - ((st / 8 : Nat) : Int) + 1) else 0) < 31 := by
    have : st / 8 ≤ 31 := by omega
    split_ifs <;> omega
  rw [if_pos hsh]
  by_cases hz : a / 2 ^ d = 0
  · rw [if_pos hz, hz]
    simp
  · rw [if_neg hz]
    have : 0 < a / 2 ^ d := Nat.pos_of_ne_zero hz
    have hne : a / 2 ^ d * 2 ^ d * 2 ^ (31 - mb) ≠ 0 := by positivity
    rw [if_pos hne]
    have h8 := hst hz
    have e : (31 - (mb : Int) - 1 + (if 30 - ((st / 8 : Nat) : Int) + 1 < mb then (mb : Int) - (30 - ((st / 8 : Nat) : Int) + 1) else 0)).toNat = 31 - mb + d - 1 := by
      split_ifs <;> omega
    rw [e, or_half (by omega) (by rw [mul_assoc, ← pow_add, Nat.add_comm d]; exact Nat.dvd_mul_left _ _), show 31 - mb + d - 1 = 30 - mb + d by omega]

/-- The words the passes leave behind. -/
theorem block_words (x : CbIn) (q : Nat → Nat → Int) (n : Nat) (h4 : x.orient < 4) (hh : x.h < 2 ^ 18) (hroi : x.roi = 0) (hmb : x.mb ≤ 30)
    (hq : ∀ r c, r < x.h → c < x.w → (q r c).natAbs < 2 ^ (x.mb - x.zbp)) (hn : x.layerPasses.sum = n) (h1 : 1 ≤ n) (hK : n + 2 ≤ 3 * (x.mb - x.zbp))
    (h32 : x.length < 2 ^ 32) (post : List Nat) :
    let B := srcOf x.w x.h x.orient (x.cmodes.testBit 3) x.mb q
    let segs := Std.blockCode B (Std.modesOf x.cmodes) (30 - x.zbp) n
    x.buf = segs.flatMap Prod.snd ++ post → (segs.flatMap Prod.snd).length ≤ x.length → Std.lensOk x.passLen 0 segs →
    ∃ (d : Nat → Nat → Nat) (b : Blk), j2kDecode x = .ok b ∧
      ∀ r c, r < x.h → c < x.w → x.mb - x.zbp - 1 - (n + 1) / 3 ≤ d r c ∧ d r c ≤ x.mb - x.zbp - 1 - (n + 1) / 3 + 1 ∧
        (n % 3 = 1 → d r c = x.mb - x.zbp - 1 - (n + 1) / 3) ∧
        b.getSmp r c = .ok ((q r c).natAbs / 2 ^ d r c * 2 ^ d r c * 2 ^ (31 - x.mb) +
          (decide ((q r c).natAbs / 2 ^ d r c ≠ 0) && decide (q r c < 0)).toNat * 2 ^ 31) ∧
        ∃ st, b.getSt (r + 1) (c + 1) = .ok st ∧ st < 256 ∧ ((q r c).natAbs / 2 ^ d r c ≠ 0 → st / 8 = 31 - x.mb + d r c) := by
  intro B segs hbuf hlen hl
  set top := 30 - x.zbp with htop
  have hnum : x.num = n := by rw [num_eq (by omega), hn]
  have hx : Fits' x B (Std.modesOf x.cmodes) top n :=
    ⟨rfl, rfl, rfl, h4, hh, rfl, rfl, by omega, hnum, by unfold CbIn.maxPasses; omega, by omega⟩
  obtain ⟨b, e, hrel, hinv⟩ := decode_state hx h32 post hbuf hlen hl
  have hmag : ∀ y, InBlk B y → B.mag y.1 y.2 < 2 ^ (top + 1) := by
    rintro ⟨r, c⟩ ⟨⟨a1, a2⟩, a3, a4⟩
    simp only at a1 a2 a3 a4
    have := hq (r - 1) (c - 1) (by have : B.h = x.h := rfl; omega) (by have : B.w = x.w := rfl; omega)
    calc B.mag r c = (q (r - 1) (c - 1)).natAbs * 2 ^ (31 - x.mb) := rfl
      _ < 2 ^ (x.mb - x.zbp) * 2 ^ (31 - x.mb) := Nat.mul_lt_mul_of_pos_right this (by positivity)
      _ = 2 ^ (top + 1) := by rw [← pow_add]; congr 1; omega
  have hst := stAt_q B (Std.modesOf x.cmodes) top hmag (n - 1) (by omega)
  rw [show n - 1 + 1 = n by omega] at hst
  set S := Std.stAt B (Std.modesOf x.cmodes) top n with hS
  set p := Std.planeOf top (n - 1) with hp
  have hp' : p = top - (n + 1) / 3 := by rw [hp]; unfold Std.planeOf; congr 2; omega
  set D := x.mb - x.zbp - 1 - (n + 1) / 3 with hD
  have hpD : p = 31 - x.mb + D := by omega
  have hlast : ∀ y, InBlk B y → Exact B y S ∧ p ≤ S.last y.1 y.2 ∧ S.last y.1 y.2 ≤ p + 1 ∧ (n % 3 = 1 → S.last y.1 y.2 = p) := by
    intro y hy
    obtain ⟨a1, a2, a3⟩ := hst y hy
    rcases (show (n - 1) % 3 = 0 ∨ (n - 1) % 3 = 1 ∨ (n - 1) % 3 = 2 by omega) with h3 | h3 | h3
    · obtain ⟨u, v⟩ := a1 h3
      exact ⟨u, by omega, by omega, fun _ => v⟩
    · obtain ⟨u, v⟩ := a2 h3
      refine ⟨u, ?_, ?_, fun _ => by omega⟩ <;> rw [v] <;> split_ifs <;> omega
    · obtain ⟨u, v⟩ := a3 h3
      refine ⟨u, ?_, ?_, fun _ => by omega⟩ <;> rw [v] <;> split_ifs <;> omega
  refine ⟨fun r c => S.last (r + 1) (c + 1) - (31 - x.mb), b, e, fun r c hr hc => ?_⟩
  beta_reduce
  obtain ⟨⟨a0, a0'⟩, a1, a2, a3⟩ := hlast (r + 1, c + 1) ⟨⟨by simp, hr⟩, by simp, hc⟩
  simp only at a0 a0' a1 a2 a3
  have hbh : b.h = x.h := hrel.h
  have hbw : b.w = x.w := hrel.w
  have hsmp := hrel.smp r c hr hc
  set a := (q r c).natAbs with ha
  set l := S.last (r + 1) (c + 1) with hl'
  have hmagrc : B.mag (r + 1) (c + 1) = a * 2 ^ (31 - x.mb) := rfl
  have hnegrc : B.neg (r + 1) (c + 1) = decide (q r c < 0) := rfl
  obtain ⟨d, hd⟩ : ∃ d, l = 31 - x.mb + d := ⟨l - (31 - x.mb), by omega⟩
  have hdiv : a * 2 ^ (31 - x.mb) / 2 ^ l = a / 2 ^ d := by
    rw [scaled_div _ _ _ (by omega)]
    congr 2
    omega
  have hval : S.val (r + 1) (c + 1) = a / 2 ^ d * 2 ^ d * 2 ^ (31 - x.mb) := by
    rw [a0, hmagrc, hdiv, hd, pow_add]
    ring
  have hsig : S.sig (r + 1) (c + 1) = decide (a / 2 ^ d ≠ 0) := by
    rw [Bool.eq_iff_iff, a0', hval, decide_eq_true_eq]
    have : (0 : Nat) < 2 ^ d := by positivity
    have : (0 : Nat) < 2 ^ (31 - x.mb) := by positivity
    simp
  have hld : l - (31 - x.mb) = d := by omega
  simp only [hld]
  refine ⟨by omega, by omega, fun h => ?_, ?_, b.st (r + 1) (c + 1), getSt_ok (by omega) (by omega), ?_, fun hne => ?_⟩
  · have := a3 h; omega
  · rw [getSmp_ok (by omega) (by omega), hsmp]
    unfold smpOf
    rw [hval, hsig, hnegrc]
  · exact (hrel.st (r + 1) (c + 1)).1
  · rw [hrel.plane (r + 1) (c + 1) (by rw [hsig]; simpa using hne)]
    exact hd

theorem bind_ok {α β : Type} (a : α) (f : α → Except IErr β) : (Except.ok a : Except IErr α).bind f = f a := rfl

theorem mapError_ok {α : Type} (a : α) : (Except.ok a : Except DErr α).mapError IErr.dec = .ok a := rfl

theorem dequantIrr_split {mb v st : Nat} {s : Int} (hmb : mb ≤ 30) (hv : v < 2 ^ 31) (b : Bool) :
    dequantIrr mb 0 s (v + b.toNat * 2 ^ 31) st = (midIrr mb 0 st v).bind fun v => (mulIrr s v).bind fun q => .ok (if b.toNat = 1 then -q else q) := by
  obtain ⟨e1, e2⟩ := sample_split hv b
  unfold dequantIrr
  rw [if_neg (by omega), e1, e2, roiUp_zero, mapError_ok, bind_ok]

/-- What the irreversible path makes of the bits of a magnitude above bit-plane `31 - mb + d`. -/
theorem dequantIrr_ok {mb z a d st : Nat} {S : ℚ} {neg : Bool} (hmb : mb ≤ 30) (hz : 1 ≤ z) (hzm : z ≤ mb) (ha : a < 2 ^ (mb - z)) (hS : 0 ≤ S)
    (hS2 : S * 2 ^ (15 - z) < 2 ^ 31 - 2 ^ 15) (hst8 : st < 256) (hst : a / 2 ^ d ≠ 0 → st / 8 = 31 - mb + d) (hd : d ≤ mb - z) :
    ∃ y : Int, dequantIrr mb 0 ⌊S + 1 / 2⌋ (a / 2 ^ d * 2 ^ d * 2 ^ (31 - mb) + (decide (a / 2 ^ d ≠ 0) && neg).toNat * 2 ^ 31) st = .ok y ∧
      (a / 2 ^ d = 0 → y = 0) ∧
      (a / 2 ^ d ≠ 0 → |(y : ℚ) - (if neg then -1 else 1) * ((a / 2 ^ d * 2 ^ d : ℕ) + 2 ^ d / 2) * (S / 2 ^ mb)| ≤ S / 2 ^ 16 + 1) := by
  have hva : a / 2 ^ d * 2 ^ d ≤ a := Nat.div_mul_le_self a _
  have hs0 : 0 ≤ ⌊S + 1 / 2⌋ := Int.floor_nonneg.mpr (by linarith)
  have hv31 : a / 2 ^ d * 2 ^ d * 2 ^ (31 - mb) + 2 ^ (30 - mb + d) < 2 ^ (31 - z) := by
    have h1 : (a / 2 ^ d + 1) * 2 ^ d ≤ 2 ^ (mb - z) := by
      have : a / 2 ^ d < 2 ^ (mb - z - d) := by
        rw [Nat.div_lt_iff_lt_mul (by positivity), ← pow_add, show mb - z - d + d = mb - z by omega]; exact ha
      calc (a / 2 ^ d + 1) * 2 ^ d ≤ 2 ^ (mb - z - d) * 2 ^ d := Nat.mul_le_mul_right _ this
        _ = 2 ^ (mb - z) := by rw [← pow_add]; congr 1; omega
    calc a / 2 ^ d * 2 ^ d * 2 ^ (31 - mb) + 2 ^ (30 - mb + d) < a / 2 ^ d * 2 ^ d * 2 ^ (31 - mb) + 2 ^ (31 - mb + d) := by
          have : 2 ^ (30 - mb + d) < 2 ^ (31 - mb + d) := Nat.pow_lt_pow_right (by norm_num) (by omega)
          omega
      _ = (a / 2 ^ d + 1) * 2 ^ d * 2 ^ (31 - mb) := by rw [pow_add]; ring
      _ ≤ 2 ^ (mb - z) * 2 ^ (31 - mb) := Nat.mul_le_mul_right _ h1
      _ = 2 ^ (31 - z) := by rw [← pow_add]; congr 1; omega
  have hzp : 2 ^ (31 - z) ≤ 2 ^ 30 := Nat.pow_le_pow_right (by norm_num) (by omega)
  have hlt31 : a / 2 ^ d * 2 ^ d * 2 ^ (31 - mb) < 2 ^ 31 := by
    generalize a / 2 ^ d * 2 ^ d * 2 ^ (31 - mb) = A at *
    generalize 2 ^ (30 - mb + d) = C at *
    omega
  rw [dequantIrr_split hmb hlt31, midIrr_ok hmb hst8 hst (by omega), bind_ok]
  by_cases h0 : a / 2 ^ d = 0
  · rw [if_pos h0, mulIrr_eq hs0, if_pos (by norm_num), bind_ok]
    simp only [h0]
    refine ⟨0, by norm_num, fun _ => rfl, fun h => absurd rfl h⟩
  · rw [if_neg h0]
    obtain ⟨v, hv⟩ : ∃ v, v = a / 2 ^ d * 2 ^ d * 2 ^ (31 - mb) + 2 ^ (30 - mb + d) := ⟨_, rfl⟩
    rw [← hv] at hv31 ⊢
    have hv1 : (v : Int) + 2 ^ 15 < 2 ^ 31 := by
      have : v < 2 ^ 30 := by omega
      omega
    have hv2 : ((v : Int) + 2 ^ 15) / 2 ^ 16 ≤ 2 ^ (15 - z) := by
      by_cases h15 : z ≤ 15
      · have e : (2 : ℕ) ^ (31 - z) = 2 ^ (15 - z) * 2 ^ 16 := by rw [← pow_add]; congr 1; omega
        rw [e] at hv31
        have : ((2 ^ (15 - z) : ℕ) : Int) = 2 ^ (15 - z) := by push_cast; rfl
        rw [← this]
        generalize 2 ^ (15 - z) = P at *
        omega
      · have : 2 ^ (31 - z) ≤ 2 ^ 15 := Nat.pow_le_pow_right (by norm_num) (by omega)
        have : ((v : Int) + 2 ^ 15) / 2 ^ 16 = 0 := by
          have : v < 2 ^ 15 := lt_of_lt_of_le hv31 this
          clear * - this
          omega
        rw [this]; positivity
    have hv3 : ((v : Int) + 2 ^ 15) / 2 ^ 16 * ⌊S + 1 / 2⌋ + 2 ^ 14 < 2 ^ 31 := by
      have h1 : ((v : Int) + 2 ^ 15) / 2 ^ 16 * ⌊S + 1 / 2⌋ ≤ 2 ^ (15 - z) * ⌊S + 1 / 2⌋ := mul_le_mul_of_nonneg_right hv2 hs0
      have h2 : ((2 ^ (15 - z) * ⌊S + 1 / 2⌋ : Int) : ℚ) ≤ 2 ^ (15 - z) * (S + 1 / 2) := by
        push_cast
        exact mul_le_mul_of_nonneg_left (Int.floor_le _) (by positivity)
      have h3 : (2 : ℚ) ^ (15 - z) ≤ 2 ^ 14 := pow_le_pow_right₀ (by norm_num) (by omega)
      have h4 : ((2 ^ (15 - z) * ⌊S + 1 / 2⌋ : Int) : ℚ) < ((2 ^ 31 - 2 ^ 14 : Int) : ℚ) := by
        refine lt_of_le_of_lt h2 ?_
        push_cast
        generalize (2 : ℚ) ^ (15 - z) = P at *
        norm_num at *
        linarith
      have h5 : (2 ^ (15 - z) * ⌊S + 1 / 2⌋ : Int) < 2 ^ 31 - 2 ^ 14 := by exact_mod_cast h4
      omega
    rw [mulIrr_eq hs0, if_pos ⟨hv1, hv3⟩, bind_ok]
    simp only [h0, ne_eq, not_false_eq_true, decide_true, Bool.true_and]
    have he := mul_error hS (v := v) (by omega)
    have hval : (v : ℚ) / 2 ^ 31 * S = ((a / 2 ^ d * 2 ^ d : ℕ) + 2 ^ d / 2) * (S / 2 ^ mb) := by
      have h31 : (2 : ℚ) ^ 31 = 2 ^ (30 - mb) * 2 * 2 ^ mb := by
        rw [← pow_succ, ← pow_add]; congr 1; omega
      rw [hv, h31, show 31 - mb = 30 - mb + 1 by omega, pow_succ 2 (30 - mb), pow_add 2 (30 - mb) d]
      generalize a / 2 ^ d * 2 ^ d = A
      push_cast
      have : (2 : ℚ) ^ (30 - mb) ≠ 0 := by positivity
      have : (2 : ℚ) ^ mb ≠ 0 := by positivity
      generalize (2 : ℚ) ^ (30 - mb) = P at *
      generalize (2 : ℚ) ^ mb = Q at *
      generalize (2 : ℚ) ^ d = R at *
      field_simp
    rw [hval] at he
    cases neg
    · refine ⟨_, rfl, fun h => absurd h (by simp), fun _ => ?_⟩
      simpa using he
    · refine ⟨_, rfl, fun h => absurd h (by simp), fun _ => ?_⟩
      rw [← abs_neg] at he
      simp only [Bool.toNat_true, if_true]
      convert he using 2
      push_cast
      ring

/-- **C75, Part 1.** A code-block of an irreversible subband, of any size, style and number of passes. If one bit-plane is empty, and the step size times `2 ^ M_b` is not so large that
the product leaves `int32_t`, then nothing is undefined, coefficients of which no bit is known come back as zero, and the others as the middle of the interval their known bits tell (`d`
bits are unknown), up to `M_b` bits of that being cut down to 16 and two roundings to integers. -/
theorem C75_part1_block (x : CbIn) (q : Nat → Nat → Int) (n : Nat) (step : ℚ) (post : List Nat) (ho : x.orient < 4) (hh : x.h < 2 ^ 18) (hroi : x.roi = 0)
    (hmb : x.mb ≤ 30) (hz : 1 ≤ x.zbp) (hq : ∀ r c, r < x.h → c < x.w → (q r c).natAbs < 2 ^ (x.mb - x.zbp)) (hn : x.layerPasses.sum = n) (h1 : 1 ≤ n)
    (hK : n ≤ 3 * (x.mb - x.zbp) - 2) (h32 : x.length < 2 ^ 32) (hs : 0 < step) (hS : step * 2 ^ 13 * 2 ^ x.mb * 2 ^ (15 - x.zbp) < 2 ^ 31 - 2 ^ 15) :
    let B : Std.Src :=
      { w := x.w, h := x.h, o := x.orient, causal := x.cmodes.testBit 3, mag := fun r c => (q (r - 1) (c - 1)).natAbs * 2 ^ (31 - x.mb),
        neg := fun r c => decide (q (r - 1) (c - 1) < 0) }
    let segs := Std.blockCode B (Std.modesOf x.cmodes) (30 - x.zbp) n
    x.buf = segs.flatMap Prod.snd ++ post → (segs.flatMap Prod.snd).length ≤ x.length → Std.lensOk x.passLen 0 segs →
    ∃ (d : Nat → Nat → Nat) (y : Nat → Nat → Int), j2kBlockIrr x step = .ok ((List.range x.h).map fun r => (List.range x.w).map fun c => y r c) ∧
      ∀ r c, r < x.h → c < x.w →
        (x.mb - x.zbp - 1 - (n + 1) / 3 ≤ d r c ∧ d r c ≤ x.mb - x.zbp - 1 - (n + 1) / 3 + 1 ∧ (n % 3 = 1 → d r c = x.mb - x.zbp - 1 - (n + 1) / 3)) ∧
        ((q r c).natAbs < 2 ^ d r c → y r c = 0) ∧
        (2 ^ d r c ≤ (q r c).natAbs →
          |(y r c : ℚ) - (if q r c < 0 then -1 else 1) * (((q r c).natAbs / 2 ^ d r c * 2 ^ d r c : ℕ) + 2 ^ d r c / 2) * (step * 2 ^ 13)| ≤
            step * 2 ^ 13 * 2 ^ x.mb / 2 ^ 16 + 1) := by
  intro B segs hb hlen hl
  obtain ⟨d, b, e, hw⟩ := block_words x q n ho hh hroi hmb hq hn h1 (by omega) h32 post hb hlen hl
  have hS0 : 0 ≤ step * 2 ^ 13 * 2 ^ x.mb := by positivity
  have hsc : scaleIrr step x.mb = .ok ⌊step * 2 ^ 13 * 2 ^ x.mb + 1 / 2⌋ := by
    rw [scaleIrr_eq hs hmb]
    have h0 : 0 ≤ ⌊step * 2 ^ 13 * 2 ^ x.mb + 1 / 2⌋ := Int.floor_nonneg.mpr (by positivity)
    refine int32_ok (by omega) ?_
    have hp : (1 : ℚ) ≤ 2 ^ (15 - x.zbp) := one_le_pow₀ (by norm_num)
    have hle := le_mul_of_one_le_right hS0 hp
    have h3 : (⌊step * 2 ^ 13 * 2 ^ x.mb + 1 / 2⌋ : ℚ) < ((2 ^ 31 : Int) : ℚ) := by
      refine lt_of_le_of_lt (Int.floor_le _) ?_
      generalize step * 2 ^ 13 * 2 ^ x.mb = S at *
      generalize (2 : ℚ) ^ (15 - x.zbp) = P at *
      norm_num at *
      linarith
    exact_mod_cast h3
  have key : ∀ r c, ∃ y : Int, r < x.h → c < x.w →
      (∃ v st, b.getSmp r c = .ok v ∧ b.getSt (r + 1) (c + 1) = .ok st ∧ dequantIrr x.mb x.roi ⌊step * 2 ^ 13 * 2 ^ x.mb + 1 / 2⌋ v st = .ok y) ∧
        ((q r c).natAbs < 2 ^ d r c → y = 0) ∧
        (2 ^ d r c ≤ (q r c).natAbs →
          |(y : ℚ) - (if q r c < 0 then -1 else 1) * (((q r c).natAbs / 2 ^ d r c * 2 ^ d r c : ℕ) + 2 ^ d r c / 2) * (step * 2 ^ 13)| ≤
            step * 2 ^ 13 * 2 ^ x.mb / 2 ^ 16 + 1) := by
    intro r c
    by_cases hrc : r < x.h ∧ c < x.w
    · obtain ⟨d1, d2, d3, hsmp, st, hst, hst8, hstd⟩ := hw r c hrc.1 hrc.2
      obtain ⟨y, y1, y2, y3⟩ := dequantIrr_ok (neg := decide (q r c < 0)) hmb hz (by omega) (hq r c hrc.1 hrc.2) hS0 hS hst8 hstd (by omega)
      refine ⟨y, fun _ _ => ⟨⟨_, st, hsmp, hst, by rw [hroi]; exact y1⟩, fun h => y2 (Nat.div_eq_of_lt h), fun h => ?_⟩⟩
      have h0 : (q r c).natAbs / 2 ^ d r c ≠ 0 := by
        have := Nat.div_pos h (by positivity)
        omega
      have := y3 h0
      simp only [decide_eq_true_eq] at this
      rwa [mul_div_assoc (step * 2 ^ 13), div_self (by positivity), mul_one] at this
    · exact ⟨0, fun h1 h2 => absurd ⟨h1, h2⟩ hrc⟩
  choose y hy using key
  refine ⟨d, y, ?_, fun r c hr hc => ?_⟩
  · unfold j2kBlockIrr
    rw [e, hsc]
    simp only [Except.mapError, Except.bind]
    refine dequantIrrRows_ok y _ fun r hr => dequantIrrRow_ok _ _ fun c hc => ?_
    exact (hy r c (List.mem_range.mp hr) (List.mem_range.mp hc)).1
  · obtain ⟨d1, d2, d3, -⟩ := hw r c hr hc
    exact ⟨⟨d1, d2, d3⟩, (hy r c hr hc).2⟩

/-- The number the condition of `C75_part1_block` is about: for the step size with exponent `eps` and mantissa `mu`, scaled by the nominal range `rho` of the subband, it depends on
the number of guard bits, not on `M_b`. -/
theorem C75_scale_of_guard_bits (eps mu guard : Nat) (rho delta : ℚ) (he : eps < 31) (hg : 1 ≤ guard) (hd : Tile.deltaOf eps mu = some delta) :
    delta * rho * 2 ^ 13 * 2 ^ (eps + guard - 1) = rho * (1 + mu / 2048) * 2 ^ (12 + guard) := by
  unfold Tile.deltaOf at hd
  rw [if_pos he] at hd
  rw [← Option.some.inj hd, show eps + guard - 1 = eps + (guard - 1) by omega, show 12 + guard = 13 + (guard - 1) by omega, pow_add, pow_add]
  have : (2 : ℚ) ^ eps ≠ 0 := by positivity
  generalize (2 : ℚ) ^ eps = E at *
  generalize (2 : ℚ) ^ (guard - 1) = G at *
  field_simp

/-- The five coefficients of `exQ`, all passes, with a step size of 1/16: 5.5, -3.5, 0, 1.5 and -7.5 steps of 512. -/
example : j2kBlockIrr (exIn 0x2E 7 0 (srcOf 1 5 2 true 4 exQ)) (1 / 16) = .ok [[2816], [-1792], [0], [768], [-3840]] := by decide +kernel

example : ∃ (d : Nat → Nat → Nat) (y : Nat → Nat → Int), j2kBlockIrr (exIn 0x2E 5 0 (srcOf 1 5 2 true 4 exQ)) (1 / 16) = .ok ((List.range 5).map fun r => [y r 0]) ∧
    (d 0 0 ≤ 1 → |(y 0 0 : ℚ) - (5 / 2 ^ d 0 0 * 2 ^ d 0 0 : ℕ) * 512 - 2 ^ d 0 0 * 256| ≤ 9 / 8) := by
  obtain ⟨d, y, e, h⟩ := C75_part1_block (exIn 0x2E 5 0 (srcOf 1 5 2 true 4 exQ)) exQ 5 (1 / 16) [0xFF, 0x91, 7] (by decide) (by decide) rfl (by decide) (by decide)
    exQ_lt (by decide) (by decide) (by decide) (by decide +kernel) (by norm_num) (by norm_num [exIn]) rfl (by decide +kernel) (by decide +kernel)
  refine ⟨d, y, e, fun h1 => ?_⟩
  have := (h 0 0 (by decide) (by decide)).2.2
  rw [show (exQ 0 0).natAbs = 5 from rfl, if_neg (by decide)] at this
  have h2 := this (by interval_cases (d 0 0) <;> decide)
  rw [abs_le] at h2 ⊢
  norm_num [exIn] at h2 ⊢
  constructor <;> linarith [h2.1, h2.2]

/-- C75 fails for small coefficients if `M_b` is 17 or more: the magnitude is cut down to 16 bits before it is multiplied, and what is below `2 ^ (M_b - 16)` is lost, whatever the step. -/
theorem C75_small_lost (mb a st : Nat) (scale : Int) (neg : Bool) (hmb : 16 ≤ mb) (hmb' : mb ≤ 30) (ha : a < 2 ^ (mb - 16)) (hs : 0 ≤ scale) (hst : st / 8 = 31 - mb) :
    dequantIrr mb 0 scale (a * 2 ^ (31 - mb) + (decide (a ≠ 0) && neg).toNat * 2 ^ 31) st = .ok 0 := by
  have hlt : a * 2 ^ (31 - mb) + 2 ^ (30 - mb) < 2 ^ 15 := by
    have e1 : 2 ^ (31 - mb) = 2 * 2 ^ (30 - mb) := by rw [← pow_succ']; congr 1; omega
    have e2 : (2 : Nat) ^ 15 = 2 ^ (mb - 16) * (2 * 2 ^ (30 - mb)) := by rw [← pow_succ', ← pow_add]; congr 1; omega
    have : 0 < 2 ^ (30 - mb) := by positivity
    rw [e2, e1]
    generalize 2 ^ (30 - mb) = P at *
    generalize 2 ^ (mb - 16) = Q at *
    nlinarith
  have hm := midIrr_ok (mb := mb) (a := a) (d := 0) (st := st) hmb' (by omega) (fun _ => by omega) (by omega)
  simp only [pow_zero, Nat.div_one, Nat.mul_one, Nat.add_zero] at hm
  have hlt31 : a * 2 ^ (31 - mb) < 2 ^ 31 := by
    generalize a * 2 ^ (31 - mb) = A at *
    generalize 2 ^ (30 - mb) = C at *
    omega
  rw [dequantIrr_split hmb' hlt31, hm, bind_ok]
  obtain ⟨v, hv⟩ : ∃ v, v = if a = 0 then 0 else a * 2 ^ (31 - mb) + 2 ^ (30 - mb) := ⟨_, rfl⟩
  have hv15 : v < 2 ^ 15 := by
    rw [hv]; split_ifs
    · norm_num
    · exact hlt
  have h0 : ((v : Int) + 2 ^ 15) / 2 ^ 16 = 0 := by
    clear * - hv15
    omega
  have h1 : (v : Int) + 2 ^ 15 < 2 ^ 31 := by
    clear * - hv15
    omega
  rw [← hv, mulIrr_eq hs, h0, zero_mul, if_pos ⟨h1, by norm_num⟩, bind_ok]
  have : ((0 : Int) + 2 ^ 14) / 2 ^ 15 = 0 := by norm_num
  rw [this]
  simp

/-- A single coefficient, with all passes of its `M_b` bit-planes. -/
def oneIrr (mb : Nat) (q : Int) : CbIn :=
  let segs := Std.blockCode (srcOf 1 1 0 false mb fun _ _ => q) (Std.modesOf 0) 30 (3 * mb - 2)
  { w := 1, h := 1, orient := 0, cmodes := 0, mb := mb, zbp := 0, roi := 0, layerPasses := [3 * mb - 2],
    passLen := segs.flatMap fun s => List.replicate (s.1 - 1) 0 ++ [s.2.length], length := (segs.flatMap Prod.snd).length, buf := segs.flatMap Prod.snd }

/-- With 18 bit-planes and a step of 2^-6, 128 on the scale of the coefficients: three steps come back as zero, four as eight. -/
theorem C75_part1_small_lost : j2kBlockIrr (oneIrr 18 3) (1 / 64) = .ok [[0]] ∧ j2kBlockIrr (oneIrr 18 4) (1 / 64) = .ok [[1024]] := by
  decide +kernel

/-- C75 fails for large coefficients: with four guard bits, exponent 7 and mantissa 1024 (a step of 1.5/128, `M_b` = 10), a coefficient with ten bits set overflows
`int32_t`; so does, with fifteen bit-planes, the largest coefficient before it is multiplied. -/
theorem C75_part1_overflow : j2kBlockIrr (oneIrr 10 1023) (3 / 256) = .error .overflow ∧ j2kBlockIrr (oneIrr 15 32767) (1 / 16384) = .error .overflow := by
  decide +kernel

end Verif.Ebcot
