import Verif.Ebcot.BlockAll
import Verif.Ebcot.BlockVal
import Verif.Ebcot.BlockDequant
/-
From the passes to the coefficients.
-/
namespace Verif.Ebcot
open Std (Src St Modes)

theorem dequantRow_ok {x : CbIn} {b : Blk} {y : Nat} (f : Nat → Int) : ∀ l : List Nat,
    (∀ c ∈ l, (b.getSmp y c).bind (fun v => (b.getSt (y + 1) (c + 1)).bind fun st => dequantRev x.mb x.roi v st) = .ok (f c)) →
    dequantRow x b y l = .ok (l.map f) := by
  intro l
  induction l with
  | nil => intro _; rfl
  | cons c l ih =>
    intro h
    have h1 := h c (List.mem_cons_self ..)
    have h2 := ih fun c hc => h c (List.mem_cons_of_mem _ hc)
    simp only [dequantRow]
    cases e1 : b.getSmp y c with
    | error e => rw [e1] at h1; simp [Except.bind] at h1
    | ok v =>
      rw [e1] at h1
      simp only [Except.bind] at h1 ⊢
      cases e2 : b.getSt (y + 1) (c + 1) with
      | error e => rw [e2] at h1; simp at h1
      | ok st =>
        rw [e2] at h1
        simp only at h1 ⊢
        rw [h1, h2]
        rfl

theorem dequantRows_ok {x : CbIn} {b : Blk} (f : Nat → Nat → Int) : ∀ l : List Nat,
    (∀ y ∈ l, dequantRow x b y (List.range x.w) = .ok ((List.range x.w).map (f y))) →
    dequantRows x b l = .ok (l.map fun y => (List.range x.w).map (f y)) := by
  intro l
  induction l with
  | nil => intro _; rfl
  | cons y l ih =>
    intro h
    simp only [dequantRows]
    rw [h y (List.mem_cons_self ..), ih fun y hy => h y (List.mem_cons_of_mem _ hy)]
    rfl

/-- The code-block with coefficients `q` (row, column from 0): magnitudes from bit-plane 30 downwards. -/
def srcOf (w h o : Nat) (causal : Bool) (mb : Nat) (q : Nat → Nat → Int) : Src :=
  { w := w, h := h, o := o, causal := causal, mag := fun r c => (q (r - 1) (c - 1)).natAbs * 2 ^ (31 - mb), neg := fun r c => decide (q (r - 1) (c - 1) < 0) }

/-- E.1.1.2, equation (E-8) with r = 1/2: the reconstruction from the bits of the magnitude `a` above bit `d`. -/
def recon (neg : Bool) (a d : Nat) : Int :=
  let v := a / 2 ^ d * 2 ^ d
  let v := if v = 0 then 0 else v + (if d = 0 then 0 else 2 ^ (d - 1))
  if neg then -(v : Int) else v

theorem or_half {v l : Nat} (hl : 1 ≤ l) (hv : 2 ^ l ∣ v) : v ||| 2 ^ (l - 1) = v + 2 ^ (l - 1) := by
  obtain ⟨k, rfl⟩ := hv
  rw [← Nat.two_pow_add_eq_or_of_lt (Nat.pow_lt_pow_right (by norm_num) (by omega))]

theorem roiUp_zero (mb v : Nat) : roiUp mb 0 v = .ok v := by
  unfold roiUp
  rw [if_neg (fun h => h.1 rfl)]

theorem sample_split {v : Nat} (hv : v < 2 ^ 31) (b : Bool) : (v + b.toNat * 2 ^ 31) % 2 ^ 31 = v ∧ (v + b.toNat * 2 ^ 31) / 2 ^ 31 % 2 = b.toNat := by
  generalize 2 ^ 31 = P at *
  have hP : 0 < P := by omega
  rw [Nat.add_mul_mod_self_right, Nat.mod_eq_of_lt hv, Nat.add_mul_div_right _ _ hP, Nat.div_eq_of_lt hv]
  cases b <;> simp

theorem dequantRev_split {mb v st : Nat} (hmb : mb ≤ 30) (hv : v < 2 ^ 31) (b : Bool) :
    dequantRev mb 0 (v + b.toNat * 2 ^ 31) st = (midBit mb 0 st v).bind fun v => .ok ((if b.toNat = 1 then -(v : Int) else v) / 2 ^ (31 - mb)) := by
  obtain ⟨e1, e2⟩ := sample_split hv b
  unfold dequantRev
  rw [if_neg (by omega), e1, e2, roiUp_zero]
  rfl

/-- What `j2k_dequant_rev_scalar` makes of the bits of a magnitude above bit-plane `31 - mb + d`. -/
theorem dequantRev_ok {mb a d st : Nat} {neg : Bool} (hmb : mb ≤ 30) (ha : a < 2 ^ mb) (hst : a / 2 ^ d ≠ 0 → st / 8 = 31 - mb + d) (hd : d ≤ mb) :
    dequantRev mb 0 (a / 2 ^ d * 2 ^ d * 2 ^ (31 - mb) + (decide (a / 2 ^ d ≠ 0) && neg).toNat * 2 ^ 31) st = .ok (recon neg a d) := by
  set v := a / 2 ^ d * 2 ^ d * 2 ^ (31 - mb) with hv
  have hva : a / 2 ^ d * 2 ^ d ≤ a := Nat.div_mul_le_self a _
  have hv31 : v < 2 ^ 31 := by
    calc v ≤ a * 2 ^ (31 - mb) := Nat.mul_le_mul_right _ hva
      _ < 2 ^ mb * 2 ^ (31 - mb) := Nat.mul_lt_mul_of_pos_right ha (by positivity)
      _ = 2 ^ 31 := by rw [← pow_add]; congr 1; omega
  have hp : (0 : Nat) < 2 ^ (31 - mb) := by positivity
  rw [dequantRev_split hmb hv31]
  unfold midBit recon
  by_cases hz : a / 2 ^ d = 0
  · have : v = 0 := by rw [hv, hz]; simp
    rw [this, hz]
    simp [Except.bind]
  · have hvne : v ≠ 0 := by
      rw [hv]
      have : 0 < a / 2 ^ d := Nat.pos_of_ne_zero hz
      positivity
    have hane : a / 2 ^ d * 2 ^ d ≠ 0 := by
      have : 0 < a / 2 ^ d := Nat.pos_of_ne_zero hz
      positivity
    rw [hst hz]
    simp only [hvne, hz, hane, ne_eq, not_true_eq_false, not_false_eq_true, true_and, decide_true, Bool.true_and, if_false]
    have hdiv : ∀ (w : Nat) (n : Bool), (if n.toNat = 1 then -((w * 2 ^ (31 - mb) : Nat) : Int) else ((w * 2 ^ (31 - mb) : Nat) : Int)) / 2 ^ (31 - mb) =
        if n = true then -(w : Int) else w := by
      intro w n
      have hpi : (2 : Int) ^ (31 - mb) ≠ 0 := by positivity
      cases n
      · simp only [Bool.toNat_false, Nat.zero_ne_one, if_false, Bool.false_eq_true]
        push_cast
        exact Int.mul_ediv_cancel _ hpi
      · simp only [Bool.toNat_true, if_true]
        push_cast
        rw [← neg_mul]
        exact Int.mul_ediv_cancel _ hpi
    by_cases hd0 : d = 0
    · subst hd0
      rw [if_neg (by push_cast; omega)]
      simp only [if_true, Nat.add_zero]
      rw [hv]
      simp only [Except.bind]
      rw [hdiv]
    · rw [if_pos (by push_cast; omega), if_pos (by constructor <;> (push_cast; omega))]
      simp only [if_neg hd0]
      rw [show ((31 - (mb : Int)) - 1 + mb - (30 - ((31 - mb + d : Nat) : Int) + 1)).toNat = (31 - mb + d) - 1 by omega]
      rw [or_half (by omega) (by rw [hv, mul_assoc, ← pow_add, Nat.add_comm d]; exact Nat.dvd_mul_left _ _)]
      rw [show v + 2 ^ (31 - mb + d - 1) = (a / 2 ^ d * 2 ^ d + 2 ^ (d - 1)) * 2 ^ (31 - mb) by
        rw [hv, add_mul, ← pow_add]; congr 2; omega]
      simp only [Except.bind]
      rw [hdiv]

theorem scaled_div (a k l : Nat) (h : k ≤ l) : a * 2 ^ k / 2 ^ l = a / 2 ^ (l - k) := by
  rw [show l = k + (l - k) by omega, pow_add, mul_comm a, Nat.mul_div_mul_left _ _ (by positivity)]
  congr 2
  omega

/-- The blocks of a reversible subband, decoded from `n` passes. -/
theorem block_truncated (x : CbIn) (q : Nat → Nat → Int) (n : Nat) (h4 : x.orient < 4) (hh : x.h < 2 ^ 18) (hroi : x.roi = 0) (hmb : x.mb ≤ 30)
    (hq : ∀ r c, r < x.h → c < x.w → (q r c).natAbs < 2 ^ (x.mb - x.zbp)) (hn : x.layerPasses.sum = n) (h1 : 1 ≤ n) (hK : n + 2 ≤ 3 * (x.mb - x.zbp))
    (h32 : x.length < 2 ^ 32) (post : List Nat) :
    let B := srcOf x.w x.h x.orient (x.cmodes.testBit 3) x.mb q
    let segs := Std.blockCode B (Std.modesOf x.cmodes) (30 - x.zbp) n
    x.buf = segs.flatMap Prod.snd ++ post → (segs.flatMap Prod.snd).length ≤ x.length → Std.lensOk x.passLen 0 segs →
    ∃ d : Nat → Nat → Nat, (∀ r c, x.mb - x.zbp - 1 - (n + 1) / 3 ≤ d r c ∧ d r c ≤ x.mb - x.zbp - 1 - (n + 1) / 3 + 1 ∧
        (n % 3 = 1 → d r c = x.mb - x.zbp - 1 - (n + 1) / 3)) ∧
      j2kBlock x = .ok ((List.range x.h).map fun r => (List.range x.w).map fun c => recon (decide (q r c < 0)) (q r c).natAbs (d r c)) := by
  intro B segs hbuf hlen hl
  set top := 30 - x.zbp with htop
  have hnum : x.num = n := by rw [num_eq (by omega), hn]
  have hx : Fits' x B (Std.modesOf x.cmodes) top n :=
    ⟨rfl, rfl, rfl, h4, hh, rfl, rfl, by omega, hnum, by unfold CbIn.maxPasses; omega, by omega⟩
  obtain ⟨b, e, hrel, hinv⟩ := decode_state hx h32 post hbuf hlen hl
  have hmag : ∀ y, InBlk B y → B.mag y.1 y.2 < 2 ^ (top + 1) := by
    rintro ⟨r, c⟩ ⟨⟨a1, a2⟩, a3, a4⟩
    simp only at a1 a2 a3 a4
    have := hq (r - 1) (c - 1) (by have : B.h = x.h := rfl; omega) (by have : B.w = x.w := rfl; omega)
    calc B.mag r c = (q (r - 1) (c - 1)).natAbs * 2 ^ (31 - x.mb) := rfl
      _ < 2 ^ (x.mb - x.zbp) * 2 ^ (31 - x.mb) := Nat.mul_lt_mul_of_pos_right this (by positivity)
      _ = 2 ^ (top + 1) := by rw [← pow_add]; congr 1; omega
  have hst := stAt_q B (Std.modesOf x.cmodes) top hmag (n - 1) (by omega)
  rw [show n - 1 + 1 = n by omega] at hst
  set S := Std.stAt B (Std.modesOf x.cmodes) top n with hS
  set p := Std.planeOf top (n - 1) with hp
  have hp' : p = top - (n + 1) / 3 := by rw [hp]; unfold Std.planeOf; congr 2; omega
  set D := x.mb - x.zbp - 1 - (n + 1) / 3 with hD
  have hpD : p = 31 - x.mb + D := by omega
  -- the last bit-plane
  have hlast : ∀ y, InBlk B y → Exact B y S ∧ p ≤ S.last y.1 y.2 ∧ S.last y.1 y.2 ≤ p + 1 ∧ (n % 3 = 1 → S.last y.1 y.2 = p) := by
    intro y hy
    obtain ⟨a1, a2, a3⟩ := hst y hy
    rcases (show (n - 1) % 3 = 0 ∨ (n - 1) % 3 = 1 ∨ (n - 1) % 3 = 2 by omega) with h3 | h3 | h3
    · obtain ⟨u, v⟩ := a1 h3
      exact ⟨u, by omega, by omega, fun _ => v⟩
    · obtain ⟨u, v⟩ := a2 h3
      refine ⟨u, ?_, ?_, fun _ => by omega⟩ <;> rw [v] <;> split_ifs <;> omega
    · obtain ⟨u, v⟩ := a3 h3
      refine ⟨u, ?_, ?_, fun _ => by omega⟩ <;> rw [v] <;> split_ifs <;> omega
  refine ⟨fun r c => if r < x.h ∧ c < x.w then S.last (r + 1) (c + 1) - (31 - x.mb) else D, fun r c => ?_, ?_⟩
  · by_cases hin : r < x.h ∧ c < x.w
    · simp only [if_pos hin]
      obtain ⟨-, a1, a2, a3⟩ := hlast (r + 1, c + 1) ⟨⟨by simp, hin.1⟩, by simp, hin.2⟩
      simp only at a1 a2 a3
      refine ⟨by omega, by omega, fun h => ?_⟩
      have := a3 h
      omega
    · simp only [if_neg hin]
      exact ⟨le_rfl, by omega, fun _ => trivial⟩
  · unfold j2kBlock
    rw [e]
    simp only [Except.bind]
    refine dequantRows_ok (fun r c => recon (decide (q r c < 0)) (q r c).natAbs (if r < x.h ∧ c < x.w then S.last (r + 1) (c + 1) - (31 - x.mb) else D)) _ fun r hr => ?_
    refine dequantRow_ok _ _ fun c hc => ?_
    rw [List.mem_range] at hr hc
    have hbh : b.h = x.h := hrel.h
    have hbw : b.w = x.w := hrel.w
    rw [getSmp_ok (by omega) (by omega), getSt_ok (by omega) (by omega)]
    simp only [Except.bind]
    rw [if_pos ⟨hr, hc⟩, hroi]
    obtain ⟨⟨a0, a0'⟩, a1, a2, a3⟩ := hlast (r + 1, c + 1) ⟨⟨by simp, hr⟩, by simp, hc⟩
    simp only at a0 a0' a1 a2 a3
    have hsmp := hrel.smp r c hr hc
    set a := (q r c).natAbs with ha
    set l := S.last (r + 1) (c + 1) with hl'
    have hmagrc : B.mag (r + 1) (c + 1) = a * 2 ^ (31 - x.mb) := rfl
    have hnegrc : B.neg (r + 1) (c + 1) = decide (q r c < 0) := rfl
    obtain ⟨d, hd⟩ : ∃ d, l = 31 - x.mb + d := ⟨l - (31 - x.mb), by omega⟩
    have hdiv : a * 2 ^ (31 - x.mb) / 2 ^ l = a / 2 ^ d := by
      rw [scaled_div _ _ _ (by omega)]
      congr 2
      omega
    have hval : S.val (r + 1) (c + 1) = a / 2 ^ d * 2 ^ d * 2 ^ (31 - x.mb) := by
      rw [a0, hmagrc, hdiv, hd, pow_add]
      ring
    have hsig : S.sig (r + 1) (c + 1) = decide (a / 2 ^ d ≠ 0) := by
      rw [Bool.eq_iff_iff, a0', hval, decide_eq_true_eq]
      have : (0 : Nat) < 2 ^ d := by positivity
      have : (0 : Nat) < 2 ^ (31 - x.mb) := by positivity
      simp
    rw [hsmp]
    unfold smpOf
    rw [hval, hsig, hnegrc, show l - (31 - x.mb) = d by omega]
    refine dequantRev_ok hmb ?_ ?_ (by omega)
    · refine lt_of_lt_of_le (hq r c hr hc) (Nat.pow_le_pow_right (by norm_num) (by omega))
    · intro hne
      rw [hrel.plane (r + 1) (c + 1) (by rw [hsig]; simpa using hne)]
      exact hd

end Verif.Ebcot
