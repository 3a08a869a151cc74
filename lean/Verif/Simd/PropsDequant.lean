import Verif.Simd.RowLemmas
import Verif.Ebcot.PropsBlock
import Verif.Ht.HtLemmas
/-
C79: the vector builds dequantise code-blocks as the scalar code does.

`j2kBlock` and `j2kBlockIrr` are `j2k_decode` with the scalar dequantisation, `j2kBlockSimd a` and `j2kBlockIrrSimd a` the same with the registers of the build `a` (AVX2: 8 lanes of 32
bits, AVX-512: 16, NEON: 4) and the remaining samples of a row one at a time.  In the scalar model a count of a shift outside of 0..31, a left shift out of `int32_t` and an overflow of a product are
errors; the theorems say nothing on them, the builds do differ there (`C79_undefined_differ`).
-/
namespace Verif.Simd
open Verif.Ebcot

/-- C79, Part 1 code-blocks of reversible subbands: whatever the code-block, its size, its width modulo the registers, a region of interest or none; where the scalar code is defined each build
gives the same coefficients. -/
theorem C79_part1_rev (a : Arch) (x : CbIn) (rows : List (List Int)) (h : j2kBlock x = .ok rows) : j2kBlockSimd a x = .ok rows := by
  unfold j2kBlock at h
  obtain ⟨b, hb, h⟩ := bind_ok h
  unfold j2kBlockSimd
  rw [hb]
  exact revRows_ok a x b _ _ h

/-- C79, Part 1 code-blocks of irreversible subbands. -/
theorem C79_part1_irr (a : Arch) (x : CbIn) (step : ℚ) (rows : List (List Int)) (h : j2kBlockIrr x step = .ok rows) : j2kBlockIrrSimd a x step = .ok rows := by
  unfold j2kBlockIrr at h
  obtain ⟨b, hb, h⟩ := bind_ok h
  obtain ⟨s, hs, h⟩ := bind_ok h
  unfold j2kBlockIrrSimd
  rw [hb]
  simp only [Except.bind]
  rw [hs]
  have hr : -2 ^ 31 ≤ s ∧ s < 2 ^ 31 := by
    unfold scaleIrr at hs
    obtain ⟨e, r1, r2⟩ := int32_ok hs
    rw [e]
    exact ⟨r1, r2⟩
  exact irrRows_ok a x hr.1 hr.2 b _ _ h

/-- C79, so what C56 says of the scalar code holds for each build: every code-block of the standard's encoder comes back. -/
theorem C79_part1_lossless (a : Arch) (x : CbIn) (q : Nat → Nat → Int) (post : List Nat) (ho : x.orient < 4) (hh : x.h < 2 ^ 18) (hroi : x.roi = 0) (hmb : x.mb ≤ 30)
    (hz : x.zbp < x.mb) (hq : ∀ r c, r < x.h → c < x.w → (q r c).natAbs < 2 ^ (x.mb - x.zbp)) (hn : x.layerPasses.sum = 3 * (x.mb - x.zbp) - 2)
    (h32 : x.length < 2 ^ 32) :
    let B : Std.Src :=
      { w := x.w, h := x.h, o := x.orient, causal := x.cmodes.testBit 3, mag := fun r c => (q (r - 1) (c - 1)).natAbs * 2 ^ (31 - x.mb),
        neg := fun r c => decide (q (r - 1) (c - 1) < 0) }
    let segs := Std.blockCode B (Std.modesOf x.cmodes) (30 - x.zbp) (3 * (x.mb - x.zbp) - 2)
    x.buf = segs.flatMap Prod.snd ++ post → (segs.flatMap Prod.snd).length ≤ x.length → Std.lensOk x.passLen 0 segs →
    j2kBlockSimd a x = .ok ((List.range x.h).map fun r => (List.range x.w).map fun c => q r c) := by
  intro B segs hb hlen hl
  exact C79_part1_rev a x _ (C56_block_lossless x q post ho hh hroi hmb hz hq hn h32 hb hlen hl)

/-- C79, the same for a single register, on its own: each lane is the sample the scalar code computes from the sample and the state byte of that lane. -/
theorem C79_part1_lane (a : Arch) (mb roi : Nat) (v st : List Nat) (i : Fin a.lanes) (q : Int) (h : dequantRev mb roi (v.getD i 0) (st.getD i 0) = .ok q) :
    (a.rev mb roi (fun i => BitVec.ofNat 32 (v.getD i 0)) (fun i => BitVec.ofNat 8 (st.getD i 0)) i).toInt = q :=
  rev_lane a v st i h

/-- C79, HT code-blocks of reversible subbands, a row of `w` samples: AVX2 (two registers of eight) and NEON (two of four). -/
theorem C79_ht_rev (mb roi w : Nat) (smp : Nat → Nat) (row : List Int) (h : htRow (htRev mb roi) smp (List.range w) = .ok row) :
    htRowSimd 8 (htRevAvx2 mb roi) (htRev mb roi) w smp 0 = .ok row ∧ htRowSimd 4 (htRevNeon mb roi) (htRev mb roi) w smp 0 = .ok row := by
  rw [List.range_eq_range'] at h
  exact ⟨htRowSimd_ok _ _ (fun val i _ hq => htRevAvx2_ok val i hq) w smp w 0 row (by omega) h,
    htRowSimd_ok _ _ (fun val i _ hq => htRevNeon_ok val i hq) w smp w 0 row (by omega) h⟩

/-- C79, HT code-blocks of irreversible subbands with a region of interest. -/
theorem C79_ht_irr_roi (mb roi w : Nat) (scale : Int) (h0 : 0 ≤ scale) (h31 : scale < 2 ^ 31) (smp : Nat → Nat) (row : List Int)
    (h : htRow (htIrrRoi mb roi scale) smp (List.range w) = .ok row) :
    htRowSimd 8 (htIrrAvx2 mb roi scale) (htIrrRoi mb roi scale) w smp 0 = .ok row ∧
      htRowSimd 4 (htIrrNeon mb roi scale) (htIrrRoi mb roi scale) w smp 0 = .ok row := by
  rw [List.range_eq_range'] at h
  exact ⟨htRowSimd_ok _ _ (fun val i _ hq => htIrrAvx2_ok h0 h31 val i hq) w smp w 0 row (by omega) h,
    htRowSimd_ok _ _ (fun val i _ hq => htIrrNeon_ok h0 h31 val i hq) w smp w 0 row (by omega) h⟩

/-- C79, without a region of interest the scalar code is the `dequant` of the HT decoder (C12, C61), so nothing is undefined there and each build gives its coefficients. -/
theorem C79_ht_lossless (mb w : Nat) (hmb : mb ≤ 30) (smp : Nat → Nat) (hs : ∀ c < w, smp c < 2 ^ 32) :
    htRowSimd 8 (htRevAvx2 mb 0) (htRev mb 0) w smp 0 = .ok ((List.range w).map fun c => Ht.dequant (31 - mb) (smp c)) ∧
      htRowSimd 4 (htRevNeon mb 0) (htRev mb 0) w smp 0 = .ok ((List.range w).map fun c => Ht.dequant (31 - mb) (smp c)) := by
  have one : ∀ v, v < 2 ^ 32 → htRev mb 0 v = .ok (Ht.dequant (31 - mb) v) := by
    intro v hv
    have e : v = v / 2 ^ 31 * 2 ^ 31 + v % 2 ^ 31 := by omega
    have hd := Ht.dequant_eq (sg := v / 2 ^ 31) (t := v % 2 ^ 31) (p := 31 - mb) (by omega) (Nat.mod_lt _ (by decide))
    rw [← e] at hd
    rw [hd]
    unfold htRev roiUp
    rw [if_neg (by omega)]
    simp only [ne_eq, not_true_eq_false, false_and, if_false, Except.bind]
    have hl : v % 2 ^ 31 / 2 ^ (31 - mb) < 2 ^ 31 := Nat.lt_of_le_of_lt (Nat.div_le_self _ _) (Nat.mod_lt _ (by decide))
    rw [Nat.mod_eq_of_lt hl]
    congr 1
    have hc : (v / 2 ^ 31 % 2 = 1) = (v / 2 ^ 31 = 1) := by
      rw [eq_iff_iff]; omega
    simp only [hc]
  have all : ∀ l : List Nat, (∀ c ∈ l, smp c < 2 ^ 32) → htRow (htRev mb 0) smp l = .ok (l.map fun c => Ht.dequant (31 - mb) (smp c)) := by
    intro l
    induction l with
    | nil => intro _; rfl
    | cons c l ih =>
      intro hl
      rw [htRow, one _ (hl c (List.mem_cons_self ..))]
      simp only [Except.bind]
      rw [ih fun c hc => hl c (List.mem_cons_of_mem _ hc)]
      rfl
  exact C79_ht_rev mb 0 w smp _ (all _ fun c hc => hs c (List.mem_range.1 hc))

/-- Where the scalar code is undefined the builds differ: with eight bit-planes and a shift of 37 — the largest that Part 1 allows — a background sample gives 0 with AVX2 and is scaled up with NEON;
with 24 bit-planes and a shift of 30 the left shift of AVX2 runs into the sign. -/
theorem C79_undefined_differ : htRev 8 37 0x2000 = .error .shift ∧ (htRevAvx2 8 37 (fun _ => 0x2000#32) 0).toInt = 0 ∧
    (htRevNeon 8 37 (fun _ => 0x2000#32) 0).toInt = 0x2000 * 2 ^ 14 ∧
    htRev 24 30 2 = .error .shift ∧ (htRevAvx2 24 30 (fun _ => 2#32) 0).toInt = -2 ^ 24 ∧ (htRevNeon 24 30 (fun _ => 2#32) 0).toInt = 2 ^ 24 := by
  refine ⟨by decide +kernel, by decide +kernel, by decide +kernel, by decide +kernel, by decide +kernel, by decide +kernel⟩

/-! Concrete cases. -/

/-- A row of 19 samples: two registers of AVX2 and three samples behind them; positive and negative, with a region of interest. -/
example : htRowSimd 8 (htRevAvx2 8 6) (htRev 8 6) 19 (fun c => c * 0x20000 + c % 2 * 0x80000000) 0 =
    .ok ((List.range 19).map fun c => (if c % 2 = 1 then -1 else 1) * (c : Int) * 2 ^ 17 * 2 ^ 6 / 2 ^ 23) := by decide +kernel

/-- A row of six coefficients. -/
def exRow (_ c : Nat) : Int := [5, -3, 0, 1, -7, 2].getD c 0

/-- Its block: all seven passes, contexts are reset, every pass is a segment. -/
def exRowIn : CbIn :=
  let segs := Std.blockCode (srcOf 6 1 2 true 4 exRow) (Std.modesOf 0x2E) (30 - 1) 7
  { w := 6, h := 1, orient := 2, cmodes := 0x2E, mb := 4, zbp := 1, roi := 0, layerPasses := [2, 5],
    passLen := segs.flatMap fun s => List.replicate (s.1 - 1) 0 ++ [s.2.length], length := (segs.flatMap Prod.snd).length, buf := segs.flatMap Prod.snd ++ [9] }

/-- With NEON: one register and two samples behind it. -/
example : j2kBlockSimd .neon exRowIn = .ok [[5, -3, 0, 1, -7, 2]] :=
  C79_part1_lossless .neon exRowIn exRow [9] (by decide) (by decide) rfl (by decide) (by decide)
    (by intro r c _ hc; have : c < 6 := hc; unfold exRow; interval_cases c <;> decide) (by decide)
    (by decide +kernel) rfl (by decide +kernel) (by decide +kernel)

/-- A lane that is defined: magnitude 5 of 4 bit-planes, negative, last decoded bit-plane 1. -/
example : dequantRev 4 0 (0x80000000 + 4 * 2 ^ 27) (8 * 29) = .ok (-6) := by decide +kernel

/-- A lane of an irreversible subband. -/
example : dequantIrr 12 0 26214 (0x80000000 + 5 * 2 ^ 19) (8 * 19) = .ok (-35) := by decide +kernel

end Verif.Simd
