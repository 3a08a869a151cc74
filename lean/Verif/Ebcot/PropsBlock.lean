import Verif.Ebcot.BlockRoi
/-
C55 to C57: the Part 1 code-block decoder.

`j2kBlock x` is `j2k_decode` on a block of a reversible subband (`CbIn`: the fields of the code-block the decoder reads). An access outside of one of the
arrays, a shift count out of range or a failure of the MQ decoder is an `.error`. The encoder on the other side is that of T.800 Annexes C and D
(BlockSpec.lean, BlockCode.lean), which is not in the repository: `Std.blockCode B M top n` are the codeword segments of the first `n` coding passes of the
block `B` coded with style `M` from bit-plane `top` on.
-/
namespace Verif.Ebcot

/-- C55, Table D.1. The lookup table for significance coding, on every window of 3 × 3 significance bits (bit 4 is the coefficient itself) and every
subband, is the table of the standard on the numbers of significant horizontal, vertical and diagonal neighbours. -/
theorem C55_sig_table (o n : Nat) (ho : o < 4) (hn : n < 512) :
    sigLUT9 o n = .ok (Std.zeroCtx o ((n.testBit 3).toNat + (n.testBit 5).toNat) ((n.testBit 1).toNat + (n.testBit 7).toNat)
      ((n.testBit 0).toNat + (n.testBit 2).toNat + (n.testBit 6).toNat + (n.testBit 8).toNat)) :=
  sigLUT9_table ⟨o, ho⟩ ⟨n, hn⟩

/-- C55, Tables D.2 and D.3. The lookup tables for sign coding, indexed with significance (`t`op, `d`own, `l`eft, `r`ight) and sign (`n..`) of the neighbours, are those of the
standard; the mask 0xDD takes the neighbour below away. -/
theorem C55_sign_table (t d l r nt nd nl nr : Bool) :
    let i := t.toNat + l.toNat * 4 + r.toNat * 8 + d.toNat * 2 + (t && nt).toNat * 16 + (l && nl).toNat * 64 + (r && nr).toNat * 128 + (d && nd).toNat * 32
    let x := fun s n : Bool => if s then (if n then (-1 : Int) else 1) else 0
    let e := Std.signCtx (Std.clamp (x l nl + x r nr)) (Std.clamp (x t nt + x d nd))
    let e' := Std.signCtx (Std.clamp (x l nl + x r nr)) (Std.clamp (x t nt + 0))
    (signLUT0[i]? = some e.1 ∧ signLUT1[i]? = some e.2) ∧ signLUT0[i &&& 0xDD]? = some e'.1 ∧ signLUT1[i &&& 0xDD]? = some e'.2 := by
  intro i x e e'
  obtain ⟨h1, h2, h3, -⟩ := signLUT_table t d l r nt nd nl nr
  obtain ⟨g1, g2, -, -⟩ := signLUT_table t false l r nt nd nl nr
  refine ⟨⟨h1, h2⟩, ?_, ?_⟩
  · show signLUT0[signIdxB t d l r nt nd nl nr &&& 0xDD]? = _
    rw [h3]; exact g1
  · show signLUT1[signIdxB t d l r nt nd nl nr &&& 0xDD]? = _
    rw [h3]; exact g2

/-- `broadcast_sigma_context` for one coefficient after the other. -/
def broadcastAll : List (Nat × Nat) → Blk → Except DErr Blk
  | [], b => .ok b
  | y :: l, b => (broadcast b y.1 y.2).bind (broadcastAll l)

/-- C55, the packed context words. Whatever coefficients of the code-block became significant, in whatever order: the words maintained by `broadcast_sigma_context`
give `get_context_label_sig` the label that the standard defines from the significance of the eight neighbours — with vertically causal contexts,
without the neighbours in the next stripe —, at every coefficient. -/
theorem C55_labels (w h o : Nat) (causal : Bool) (l : List (Nat × Nat)) (ho : o < 4) (hl : ∀ y ∈ l, y.1 < h ∧ y.2 < w) :
    ∃ b, broadcastAll l (freshBlk w h o causal) = .ok b ∧
      ∀ r c, r < h → c < w →
        let near := fun r' c' : Nat => decide (∃ y ∈ l, y.1 + 1 = r' ∧ y.2 + 1 = c') && !(causal && (r + 1) % 4 == 0 && r' == r + 2)
        let cnt := fun x : Bool => if x then 1 else 0
        labelSig b r c = .ok (Std.zeroCtx o (cnt (near (r + 1) c) + cnt (near (r + 1) (c + 2))) (cnt (near r (c + 1)) + cnt (near (r + 2) (c + 1)))
          (cnt (near r c) + cnt (near r (c + 2)) + cnt (near (r + 2) c) + cnt (near (r + 2) (c + 2)))) := by
  have key : ∀ (l : List (Nat × Nat)) (b : Blk) (sig : Nat → Nat → Bool), b.w = w → b.h = h → b.orient = o → b.causal = causal →
      (∀ y ∈ l, y.1 < h ∧ y.2 < w) → CtxRel ⟨w, h, o, causal, fun _ _ => 0, fun _ _ => false⟩ sig b.ctx →
      ∃ b', broadcastAll l b = .ok b' ∧ b'.w = w ∧ b'.h = h ∧ b'.orient = o ∧ b'.causal = causal ∧
        CtxRel ⟨w, h, o, causal, fun _ _ => 0, fun _ _ => false⟩ (fun r c => sig r c || decide (∃ y ∈ l, y.1 + 1 = r ∧ y.2 + 1 = c)) b'.ctx := by
    intro l
    induction l with
    | nil =>
      intro b sig h1 h2 h3 h4 _ hc
      refine ⟨b, rfl, h1, h2, h3, h4, ?_⟩
      simpa using hc
    | cons y l ih =>
      intro b sig h1 h2 h3 h4 hy hc
      obtain ⟨y1, y2⟩ := hy y (List.mem_cons_self ..)
      obtain ⟨ctx', e, k⟩ := broadcast_ok (b := b) (j1 := y.1) (j2 := y.2) (by omega) (by omega)
      obtain ⟨b', e', g1, g2, g3, g4, g5⟩ := ih { b with ctx := ctx' } _ h1 h2 h3 h4 (fun y hy' => hy y (List.mem_cons_of_mem _ hy')) (k _ _ hc)
      refine ⟨b', by simp only [broadcastAll, e, Except.bind]; exact e', g1, g2, g3, g4, ?_⟩
      intro s c i d hc hi hd
      rw [g5 s c i d hc hi hd, Bool.eq_iff_iff]
      simp only [Std.put, Bool.or_eq_true, decide_eq_true_eq, List.mem_cons, exists_eq_or_imp]
      split_ifs with hq
      · simp only [true_or, true_iff]
        exact Or.inr (Or.inl ⟨hq.1.symm, hq.2.symm⟩)
      · have : ¬(y.1 + 1 = 4 * s + i ∧ y.2 + 1 = c + d) := fun hh => hq ⟨hh.1.symm, hh.2.symm⟩
        simp only [this, false_or]
  obtain ⟨b, e, g1, g2, g3, g4, g5⟩ := key l (freshBlk w h o causal) (fun _ _ => false) rfl rfl rfl rfl hl
    (fun s c i d _ _ _ => by simp [freshBlk])
  refine ⟨b, e, fun r c hr hc => ?_⟩
  intro near cnt
  have := labelSig_ok (B := ⟨w, h, o, causal, fun _ _ => 0, fun _ _ => false⟩) g1 g2 g3 g4 g5 ho
    (S := { sig := fun r c => false || decide (∃ y ∈ l, y.1 + 1 = r ∧ y.2 + 1 = c), vis := fun _ _ => false, ref := fun _ _ => false, val := fun _ _ => 0, last := fun _ _ => 0 })
    rfl hr hc
  rw [this]
  have ct : ∀ x : Bool, cnt x = x.toNat := fun x => by cases x <;> rfl
  have ne : ((r + 1 : Nat) == r + 2) = false := by simp
  have ne' : ((r : Nat) == r + 2) = false := by simp
  simp only [Std.zc, Std.hSum, Std.vSum, Std.dSum, Std.seen, ct, near, Bool.false_or, Nat.add_sub_cancel, Nat.add_assoc, Nat.reduceAdd, ne, ne']

/-- Five coefficients, two of them in the next stripe. -/
example : ∀ b, broadcastAll [(3, 1), (4, 2), (4, 1), (2, 0), (0, 0)] (freshBlk 4 6 0 true) = .ok b →
    labelSig b 3 2 = .ok 5 ∧ labelSig b 4 2 = .ok 6 ∧ labelSig b 1 3 = .ok 0 := by
  obtain ⟨b, e, hb⟩ := C55_labels 4 6 0 true [(3, 1), (4, 2), (4, 1), (2, 0), (0, 0)] (by decide) (by decide)
  intro b' e'
  rw [e] at e'
  obtain rfl := Except.ok.inj e'
  exact ⟨by rw [hb 3 2 (by decide) (by decide)]; decide, by rw [hb 4 2 (by decide) (by decide)]; decide,
    by rw [hb 1 3 (by decide) (by decide)]; decide⟩

/-- C56. Every code-block comes back, whatever its size, its subband, its coefficients and its style (selective arithmetic coding bypass, reset of the contexts, termination on each
pass, vertically causal contexts, segmentation symbols, in any combination): if its coefficients have at most `M_b - zbp` bits, all coding passes are there,
the bytes are those of the standard's encoder, with anything behind them, and the lengths of the passes of each segment add up to that of the segment, then
`j2k_decode` gives the coefficients. -/
theorem C56_block_lossless (x : CbIn) (q : Nat → Nat → Int) (post : List Nat) (ho : x.orient < 4) (hh : x.h < 2 ^ 18) (hroi : x.roi = 0) (hmb : x.mb ≤ 30)
    (hz : x.zbp < x.mb) (hq : ∀ r c, r < x.h → c < x.w → (q r c).natAbs < 2 ^ (x.mb - x.zbp)) (hn : x.layerPasses.sum = 3 * (x.mb - x.zbp) - 2)
    (h32 : x.length < 2 ^ 32) :
    let B : Std.Src :=
      { w := x.w, h := x.h, o := x.orient, causal := x.cmodes.testBit 3, mag := fun r c => (q (r - 1) (c - 1)).natAbs * 2 ^ (31 - x.mb),
        neg := fun r c => decide (q (r - 1) (c - 1) < 0) }
    let segs := Std.blockCode B (Std.modesOf x.cmodes) (30 - x.zbp) (3 * (x.mb - x.zbp) - 2)
    x.buf = segs.flatMap Prod.snd ++ post → (segs.flatMap Prod.snd).length ≤ x.length → Std.lensOk x.passLen 0 segs →
    j2kBlock x = .ok ((List.range x.h).map fun r => (List.range x.w).map fun c => q r c) := by
  intro B segs hb hlen hl
  obtain ⟨d, hd, e⟩ := block_truncated x q (3 * (x.mb - x.zbp) - 2) ho hh hroi hmb hq hn (by omega) (by omega) h32 post hb hlen hl
  rw [e]
  congr 1
  refine List.map_congr_left fun r _ => List.map_congr_left fun c _ => ?_
  have h0 : d r c = 0 := by rw [(hd r c).2.2 (by omega)]; omega
  unfold recon
  rw [h0]
  simp only [pow_zero, Nat.div_one, Nat.mul_one, if_true, Nat.add_zero]
  by_cases hs : q r c < 0
  · simp only [hs, decide_true, if_true]; split_ifs <;> omega
  · simp only [hs, decide_false, Bool.false_eq_true, if_false]; split_ifs <;> omega

/-- C56, with a region of interest (Maxshift, Annex H): the coefficients of the background come `s` bit-planes further down. -/
theorem C56_block_lossless_roi (x : CbIn) (q : Nat → Nat → Int) (roi : Nat → Nat → Bool) (post : List Nat) (ho : x.orient < 4) (hh : x.h < 2 ^ 18)
    (hs : x.roi ≠ 0) (hs31 : x.mb + x.roi ≤ 31) (hz : x.zbp < x.mb + x.roi)
    (hq : ∀ r c, r < x.h → c < x.w → (q r c).natAbs < 2 ^ x.mb ∧ (roi r c = true → (q r c).natAbs < 2 ^ (x.mb - x.zbp)) ∧
      (roi r c = false → (q r c).natAbs < 2 ^ (x.mb + x.roi - x.zbp) ∧ (q r c).natAbs < 2 ^ x.roi))
    (hn : x.layerPasses.sum = 3 * (x.mb + x.roi - x.zbp) - 2) (h32 : x.length < 2 ^ 32) :
    let B : Std.Src :=
      { w := x.w, h := x.h, o := x.orient, causal := x.cmodes.testBit 3,
        mag := fun r c => (q (r - 1) (c - 1)).natAbs * 2 ^ (if roi (r - 1) (c - 1) then 31 - x.mb else 31 - x.mb - x.roi),
        neg := fun r c => decide (q (r - 1) (c - 1) < 0) }
    let segs := Std.blockCode B (Std.modesOf x.cmodes) (30 - x.zbp) x.layerPasses.sum
    x.buf = segs.flatMap Prod.snd ++ post → (segs.flatMap Prod.snd).length ≤ x.length → Std.lensOk x.passLen 0 segs →
    j2kBlock x = .ok ((List.range x.h).map fun r => (List.range x.w).map fun c => q r c) :=
  block_roi x q roi ho hh hs hs31
    (fun r c hr hc => ⟨(hq r c hr hc).1, (hq r c hr hc).2.1, fun e => ((hq r c hr hc).2.2 e).1, fun e => ((hq r c hr hc).2.2 e).2⟩)
    hz (by omega) h32 post

/-! Concrete blocks. -/

/-- A column of five coefficients. -/
def exQ (r c : Nat) : Int := if c = 0 then [5, -3, 0, 1, -7].getD r 0 else 0

/-- The block of `exQ` in the LH subband, `M_b` = 4, one zero bit-plane, `n` passes in two layers, all coded in style `style`; three bytes follow. -/
def exIn (style n roi : Nat) (B : Std.Src) : CbIn :=
  let segs := Std.blockCode B (Std.modesOf style) (30 - 1) n
  { w := 1, h := 5, orient := 2, cmodes := style, mb := 4, zbp := 1, roi := roi, layerPasses := [2, n - 2],
    passLen := segs.flatMap fun s => List.replicate (s.1 - 1) 0 ++ [s.2.length], length := (segs.flatMap Prod.snd).length + 1,
    buf := segs.flatMap Prod.snd ++ [0xFF, 0x91, 7] }

theorem exQ_lt : ∀ r c, r < 5 → c < 1 → (exQ r c).natAbs < 2 ^ 3 := by
  intro r c hr hc
  obtain rfl : c = 0 := by omega
  interval_cases r <;> decide

/-- All seven passes; contexts are reset, every pass is a segment, contexts are causal, cleanup passes end with the segmentation symbol. -/
example : j2kBlock (exIn 0x2E 7 0 (srcOf 1 5 2 true 4 exQ)) = .ok [[5], [-3], [0], [1], [-7]] :=
  C56_block_lossless (exIn 0x2E 7 0 (srcOf 1 5 2 true 4 exQ)) exQ [0xFF, 0x91, 7] (by decide) (by decide) rfl (by decide) (by decide) exQ_lt (by decide)
    (by decide +kernel) rfl (by decide +kernel) (by decide +kernel)

/-- A region of interest of two coefficients, scaled up by three bit-planes. -/
example : j2kBlock (exIn 0 16 3 (srcRoi 1 5 2 false 4 3 (fun r _ => decide (r < 2)) exQ)) = .ok [[5], [-3], [0], [1], [-7]] :=
  C56_block_lossless_roi (exIn 0 16 3 (srcRoi 1 5 2 false 4 3 (fun r _ => decide (r < 2)) exQ)) exQ (fun r _ => decide (r < 2)) [0xFF, 0x91, 7] (by decide) (by decide)
    (by decide) (by decide) (by decide)
    (fun r c hr hc => by
      have := exQ_lt r c hr hc
      exact ⟨by show _ < 2 ^ 4; omega, fun _ => this, fun _ => ⟨by show _ < 2 ^ 6; omega, this⟩⟩)
    (by decide) (by decide +kernel) rfl (by decide +kernel) (by decide +kernel)

/-- C57. Only the first `n` passes are there. Every coefficient comes back as zero or with its sign; with `D` bits of the magnitudes still missing
(`D + 1` for the coefficients the last, incomplete bit-plane has not reached), the error is below `2 ^ (D + 1)`, at most half of `2 ^ (D + 1)` if the coefficient is not zero,
and a coefficient that comes back as zero is below `2 ^ (D + 1)`. Behind a cleanup pass (`n % 3 = 1`) it is `D` instead of `D + 1`. -/
theorem C57_block_truncated (x : CbIn) (q : Nat → Nat → Int) (n : Nat) (post : List Nat) (ho : x.orient < 4) (hh : x.h < 2 ^ 18) (hroi : x.roi = 0)
    (hmb : x.mb ≤ 30) (hq : ∀ r c, r < x.h → c < x.w → (q r c).natAbs < 2 ^ (x.mb - x.zbp)) (hn : x.layerPasses.sum = n) (h1 : 1 ≤ n)
    (hK : n ≤ 3 * (x.mb - x.zbp) - 2) (h32 : x.length < 2 ^ 32) :
    let B : Std.Src :=
      { w := x.w, h := x.h, o := x.orient, causal := x.cmodes.testBit 3, mag := fun r c => (q (r - 1) (c - 1)).natAbs * 2 ^ (31 - x.mb),
        neg := fun r c => decide (q (r - 1) (c - 1) < 0) }
    let segs := Std.blockCode B (Std.modesOf x.cmodes) (30 - x.zbp) n
    let D := x.mb - x.zbp - 1 - (n + 1) / 3 + (if n % 3 = 1 then 0 else 1)
    x.buf = segs.flatMap Prod.snd ++ post → (segs.flatMap Prod.snd).length ≤ x.length → Std.lensOk x.passLen 0 segs →
    ∃ y : Nat → Nat → Int, j2kBlock x = .ok ((List.range x.h).map fun r => (List.range x.w).map fun c => y r c) ∧
      ∀ r c, r < x.h → c < x.w → (y r c = 0 ∧ (q r c).natAbs < 2 ^ D) ∨
        (y r c ≠ 0 ∧ q r c ≠ 0 ∧ (0 < y r c ↔ 0 < q r c) ∧ 2 * (q r c - y r c).natAbs ≤ 2 ^ D ∧ (D = 0 → y r c = q r c)) := by
  intro B segs D hb hlen hl
  obtain ⟨d, hd, e⟩ := block_truncated x q n ho hh hroi hmb hq hn h1 (by omega) h32 post hb hlen hl
  refine ⟨_, e, fun r c hr hc => ?_⟩
  have hdD : d r c ≤ D := by
    obtain ⟨-, h2, h3⟩ := hd r c
    show d r c ≤ _ + (if n % 3 = 1 then 0 else 1)
    split_ifs with c3
    · have := h3 c3; omega
    · omega
  have hpow : 2 ^ d r c ≤ 2 ^ D := Nat.pow_le_pow_right (by norm_num) hdD
  generalize d r c = k at hdD hpow ⊢
  have hm := Nat.div_add_mod (q r c).natAbs (2 ^ k)
  have hlt := Nat.mod_lt (q r c).natAbs (show 0 < 2 ^ k by positivity)
  rw [Nat.mul_comm] at hm
  unfold recon
  set a := (q r c).natAbs with ha
  set v := a / 2 ^ k * 2 ^ k with hv
  by_cases h0 : v = 0
  · left
    simp only [h0, if_true]
    exact ⟨by split_ifs <;> rfl, by omega⟩
  · right
    simp only [h0, if_false]
    by_cases hk : k = 0
    · subst hk
      simp only [pow_zero] at hlt
      simp only [if_true, Nat.add_zero]
      by_cases hs : q r c < 0
      · simp only [hs, decide_true, if_true]; exact ⟨by omega, by omega, by omega, by omega, by omega⟩
      · simp only [hs, decide_false, Bool.false_eq_true, if_false]; exact ⟨by omega, by omega, by omega, by omega, by omega⟩
    · simp only [hk, if_false]
      have h2 : 2 ^ k = 2 * 2 ^ (k - 1) := by rw [← pow_succ']; congr 1; omega
      have hp1 : 0 < 2 ^ (k - 1) := by positivity
      generalize 2 ^ (k - 1) = p at h2 hp1 ⊢
      rw [h2] at hlt hpow
      by_cases hs : q r c < 0
      · simp only [hs, decide_true, if_true]; push_cast; exact ⟨by omega, by omega, by omega, by omega, by omega⟩
      · simp only [hs, decide_false, Bool.false_eq_true, if_false]; push_cast; exact ⟨by omega, by omega, by omega, by omega, by omega⟩

/-- Four of seven passes: one bit-plane is missing. -/
example : ∃ y : Nat → Nat → Int, j2kBlock (exIn 0 4 0 (srcOf 1 5 2 false 4 exQ)) = .ok ((List.range 5).map fun r => (List.range 1).map fun c => y r c) ∧
    ∀ r c, r < 5 → c < 1 → (y r c = 0 ∧ (exQ r c).natAbs < 2 ^ 1) ∨
      (y r c ≠ 0 ∧ exQ r c ≠ 0 ∧ (0 < y r c ↔ 0 < exQ r c) ∧ 2 * (exQ r c - y r c).natAbs ≤ 2 ^ 1 ∧ (1 = 0 → y r c = exQ r c)) :=
  C57_block_truncated (exIn 0 4 0 (srcOf 1 5 2 false 4 exQ)) exQ 4 [0xFF, 0x91, 7] (by decide) (by decide) rfl (by decide) exQ_lt (by decide) (by decide) (by decide)
    (by decide +kernel) rfl (by decide +kernel) (by decide +kernel)

/-- A block without coding passes is zero. -/
theorem C57_block_empty (x : CbIn) (hmb : x.mb ≤ 30) (hroi : x.roi < 32) (hn : x.layerPasses = []) :
    j2kBlock x = .ok ((List.range x.h).map fun _ => (List.range x.w).map fun _ => 0) := by
  have hnum : x.num = 0 := by unfold CbIn.num; rw [hn]; rfl
  unfold j2kBlock j2kDecode
  rw [hnum]
  simp only [CbIn.rounds, Except.map, Except.bind]
  refine dequantRows_ok (fun _ _ => 0) _ fun y hy => dequantRow_ok (fun _ => 0) _ fun c hc => ?_
  have hy' := List.mem_range.1 hy
  have hc' := List.mem_range.1 hc
  have i1 : x.start.b.inSmp y c := by
    have := le_rup8 x.h; have := le_rup8 x.w
    exact ⟨by show y < rup8 x.h; omega, by show c < rup8 x.w; omega⟩
  have i2 : x.start.b.inSt (y + 1) (c + 1) := by
    have := le_rup8 x.h; have := le_rup8 x.w
    exact ⟨by show y + 1 < rup8 x.h + 2; omega, by show c + 1 < rup8 x.w + 2; omega⟩
  unfold Blk.getSmp Blk.getSt
  rw [if_pos i1, if_pos i2]
  show dequantRev x.mb x.roi 0 0 = .ok 0
  unfold dequantRev roiUp midBit
  rw [if_neg (by omega)]
  simp [hroi, Except.bind]

end Verif.Ebcot
