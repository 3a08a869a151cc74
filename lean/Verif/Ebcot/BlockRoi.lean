import Verif.Ebcot.BlockLossless
/-
Code-blocks with a region of interest (Maxshift).
-/
namespace Verif.Ebcot
open Std (Src St Modes)

/-- T.800 H.1 (Maxshift): the coefficients outside of the region of interest `roi` are scaled down by `s` bit-planes. -/
def srcRoi (w h o : Nat) (causal : Bool) (mb s : Nat) (roi : Nat → Nat → Bool) (q : Nat → Nat → Int) : Src :=
  { w := w, h := h, o := o, causal := causal,
    mag := fun r c => (q (r - 1) (c - 1)).natAbs * 2 ^ (if roi (r - 1) (c - 1) then 31 - mb else 31 - mb - s),
    neg := fun r c => decide (q (r - 1) (c - 1) < 0) }

theorem midBit_roi {mb roi st v : Nat} (hroi : roi ≠ 0) : midBit mb roi st v = .ok v := by
  unfold midBit
  simp only [if_pos hroi]
  rw [if_neg (fun h => absurd h.2 (by omega))]

theorem signed_div (mb w : Nat) (n : Bool) : (if n.toNat = 1 then -((w * 2 ^ (31 - mb) : Nat) : Int) else ((w * 2 ^ (31 - mb) : Nat) : Int)) / 2 ^ (31 - mb) =
    if n = true then -(w : Int) else w := by
  have hpi : (2 : Int) ^ (31 - mb) ≠ 0 := by positivity
  cases n
  · simp only [Bool.toNat_false, Nat.zero_ne_one, if_false, Bool.false_eq_true]
    push_cast
    exact Int.mul_ediv_cancel _ hpi
  · simp only [Bool.toNat_true, if_true]
    push_cast
    rw [← neg_mul]
    exact Int.mul_ediv_cancel _ hpi

theorem dequantRev_roi {mb s st a : Nat} {inRoi neg : Bool} (hmb : mb ≤ 30) (hs : s ≠ 0) (hs32 : mb + s ≤ 31) (ha : a < 2 ^ mb) (hb : inRoi = false → a < 2 ^ s) :
    dequantRev mb s (a * 2 ^ (if inRoi then 31 - mb else 31 - mb - s) + (decide (a ≠ 0) && neg).toNat * 2 ^ 31) st = .ok (if neg then -(a : Int) else a) := by
  have hfull : a * 2 ^ (31 - mb) < 2 ^ 31 := by
    calc a * 2 ^ (31 - mb) < 2 ^ mb * 2 ^ (31 - mb) := Nat.mul_lt_mul_of_pos_right ha (by positivity)
      _ = 2 ^ 31 := by rw [← pow_add]; congr 1; omega
  have hv : a * 2 ^ (if inRoi then 31 - mb else 31 - mb - s) < 2 ^ 31 := by
    refine lt_of_le_of_lt (Nat.mul_le_mul_left _ (Nat.pow_le_pow_right (by norm_num) ?_)) hfull
    split_ifs <;> omega
  obtain ⟨e1, e2⟩ := sample_split hv (decide (a ≠ 0) && neg)
  have hup : roiUp mb s (a * 2 ^ (if inRoi then 31 - mb else 31 - mb - s)) = .ok (a * 2 ^ (31 - mb)) := by
    unfold roiUp
    cases inRoi
    · simp only [Bool.false_eq_true, if_false]
      have hlt : a * 2 ^ (31 - mb - s) < 2 ^ (31 - mb) := by
        calc a * 2 ^ (31 - mb - s) < 2 ^ s * 2 ^ (31 - mb - s) := Nat.mul_lt_mul_of_pos_right (hb rfl) (by positivity)
          _ = 2 ^ (31 - mb) := by rw [← pow_add]; congr 1; omega
      have he : a * 2 ^ (31 - mb - s) * 2 ^ s = a * 2 ^ (31 - mb) := by
        rw [mul_assoc, ← pow_add]; congr 2; omega
      rw [if_pos ⟨hs, Nat.div_eq_of_lt hlt⟩, he, if_pos ⟨hfull, by omega⟩]
    · simp only [if_true]
      by_cases h0 : a = 0
      · subst h0
        rw [if_pos ⟨hs, by simp⟩, if_pos ⟨by simp, by omega⟩]
        simp
      · rw [if_neg]
        rintro ⟨-, h⟩
        rw [Nat.mul_div_cancel _ (by positivity)] at h
        exact h0 h
  unfold dequantRev
  rw [if_neg (by omega), e1, e2, hup]
  simp only [Except.bind]
  rw [midBit_roi hs]
  simp only
  rw [signed_div]
  congr 1
  by_cases h0 : a = 0
  · subst h0; simp
  · simp [h0]

/-- All passes of a block with a region of interest. -/
theorem block_roi (x : CbIn) (q : Nat → Nat → Int) (roi : Nat → Nat → Bool) (h4 : x.orient < 4) (hh : x.h < 2 ^ 18) (hs : x.roi ≠ 0) (hs31 : x.mb + x.roi ≤ 31)
    (hq : ∀ r c, r < x.h → c < x.w → (q r c).natAbs < 2 ^ x.mb ∧ (roi r c = true → (q r c).natAbs < 2 ^ (x.mb - x.zbp)) ∧
      (roi r c = false → (q r c).natAbs < 2 ^ (x.mb + x.roi - x.zbp)) ∧ (roi r c = false → (q r c).natAbs < 2 ^ x.roi))
    (hz : x.zbp < x.mb + x.roi) (hn : x.layerPasses.sum + 2 = 3 * (x.mb + x.roi - x.zbp)) (h32 : x.length < 2 ^ 32) (post : List Nat) :
    let B := srcRoi x.w x.h x.orient (x.cmodes.testBit 3) x.mb x.roi roi q
    let segs := Std.blockCode B (Std.modesOf x.cmodes) (30 - x.zbp) x.layerPasses.sum
    x.buf = segs.flatMap Prod.snd ++ post → (segs.flatMap Prod.snd).length ≤ x.length → Std.lensOk x.passLen 0 segs →
    j2kBlock x = .ok ((List.range x.h).map fun r => (List.range x.w).map fun c => q r c) := by
  intro B segs hbuf hlen hl
  set n := x.layerPasses.sum with hnn
  set top := 30 - x.zbp with htop
  have hnum : x.num = n := by rw [num_eq (by omega)]
  have hx : Fits' x B (Std.modesOf x.cmodes) top n :=
    ⟨rfl, rfl, rfl, h4, hh, rfl, rfl, by omega, hnum, by unfold CbIn.maxPasses; omega, by omega⟩
  obtain ⟨b, e, hrel, hinv⟩ := decode_state hx h32 post hbuf hlen hl
  have hmag : ∀ y, InBlk B y → B.mag y.1 y.2 < 2 ^ (top + 1) := by
    rintro ⟨r, c⟩ ⟨⟨a1, a2⟩, a3, a4⟩
    simp only at a1 a2 a3 a4
    obtain ⟨-, q1, q2, -⟩ := hq (r - 1) (c - 1) (by have : B.h = x.h := rfl; omega) (by have : B.w = x.w := rfl; omega)
    show (q (r - 1) (c - 1)).natAbs * 2 ^ (if roi (r - 1) (c - 1) then 31 - x.mb else 31 - x.mb - x.roi) < 2 ^ (top + 1)
    cases hr : roi (r - 1) (c - 1)
    · simp only [Bool.false_eq_true, if_false]
      calc _ < 2 ^ (x.mb + x.roi - x.zbp) * 2 ^ (31 - x.mb - x.roi) := Nat.mul_lt_mul_of_pos_right (q2 hr) (by positivity)
        _ = 2 ^ (top + 1) := by rw [← pow_add]; congr 1; omega
    · simp only [if_true]
      have hq1 := q1 hr
      by_cases hzm : x.zbp ≤ x.mb
      · calc _ < 2 ^ (x.mb - x.zbp) * 2 ^ (31 - x.mb) := Nat.mul_lt_mul_of_pos_right hq1 (by positivity)
          _ = 2 ^ (top + 1) := by rw [← pow_add]; congr 1; omega
      · rw [show x.mb - x.zbp = 0 by omega, pow_zero] at hq1
        rw [show (q (r - 1) (c - 1)).natAbs = 0 by omega, Nat.zero_mul]
        positivity
  have hst := stAt_q B (Std.modesOf x.cmodes) top hmag (n - 1) (by omega)
  rw [show n - 1 + 1 = n by omega] at hst
  set S := Std.stAt B (Std.modesOf x.cmodes) top n with hS
  have hp : Std.planeOf top (n - 1) = 31 - x.mb - x.roi := by unfold Std.planeOf; omega
  have hval : ∀ r c, r < x.h → c < x.w → S.val (r + 1) (c + 1) = B.mag (r + 1) (c + 1) ∧ (S.sig (r + 1) (c + 1) = true ↔ B.mag (r + 1) (c + 1) ≠ 0) := by
    intro r c hr hc
    obtain ⟨⟨e1, e2⟩, e3⟩ := (hst (r + 1, c + 1) ⟨⟨by simp, hr⟩, by simp, hc⟩).1 (by omega)
    simp only at e1 e2 e3
    have hd : 2 ^ (31 - x.mb - x.roi) ∣ B.mag (r + 1) (c + 1) := by
      show 2 ^ (31 - x.mb - x.roi) ∣ (q r c).natAbs * 2 ^ (if roi r c then 31 - x.mb else 31 - x.mb - x.roi)
      refine Dvd.dvd.mul_left (pow_dvd_pow 2 ?_) _
      split_ifs <;> omega
    rw [e3, hp, Nat.div_mul_cancel hd] at e1
    exact ⟨e1, by rw [e2, e1]⟩
  unfold j2kBlock
  rw [e]
  simp only [Except.bind]
  refine dequantRows_ok (fun r c => q r c) _ fun r hr => ?_
  refine dequantRow_ok _ _ fun c hc => ?_
  rw [List.mem_range] at hr hc
  have hbh : b.h = x.h := hrel.h
  have hbw : b.w = x.w := hrel.w
  rw [getSmp_ok (by omega) (by omega), getSt_ok (by omega) (by omega)]
  simp only [Except.bind]
  obtain ⟨v1, v2⟩ := hval r c hr hc
  rw [hrel.smp r c hr hc]
  unfold smpOf
  set a := (q r c).natAbs with ha
  have hm : B.mag (r + 1) (c + 1) = a * 2 ^ (if roi r c then 31 - x.mb else 31 - x.mb - x.roi) := rfl
  have hsig : S.sig (r + 1) (c + 1) = decide (a ≠ 0) := by
    rw [Bool.eq_iff_iff, v2, hm, decide_eq_true_eq, Nat.mul_ne_zero_iff]
    exact ⟨And.left, fun h => ⟨h, by positivity⟩⟩
  obtain ⟨q0, q1, q2, q3⟩ := hq r c hr hc
  rw [v1, hsig, hm, show B.neg (r + 1) (c + 1) = decide (q r c < 0) from rfl, dequantRev_roi (by omega) hs hs31 q0 q3]
  congr 1
  by_cases hneg : q r c < 0
  · rw [if_pos (by simpa using hneg)]; omega
  · rw [if_neg (by simpa using hneg)]; omega

end Verif.Ebcot
