import Verif.Ht.HtDecode
import Verif.Ht.PropsBlock
import Verif.Ht.PropsRefine

/-!
# HT decoder, any number of passes: lemmas
-/

namespace Verif.Ht

/-! ## Setup -/

theorem takeWhile_zeros (n a : Nat) (l : List Nat) (ha : a ≠ 0) :
    ((List.replicate n 0 ++ a :: l).takeWhile (· == 0)).length = n := by
  induction n with
  | zero => simp [ha]
  | succ n ih => simp [List.replicate_succ, ha]

theorem filter_zeros (n a : Nat) (l : List Nat) (ha : a ≠ 0) :
    (List.replicate n 0 ++ a :: l).filter (· ≠ 0) = a :: l.filter (· ≠ 0) := by
  induction n with
  | zero => simp [ha]
  | succ n ih => simpa [List.replicate_succ] using ih

theorem sum_filter (l : List Nat) : (l.filter (· ≠ 0)).sum = l.sum := by
  induction l with
  | nil => rfl
  | cons a l ih =>
    by_cases h : a = 0
    · simp only [h, List.filter_cons, ne_eq, not_true_eq_false, decide_false, Bool.false_eq_true, if_false, List.sum_cons, Nat.zero_add]
      exact ih
    · rw [List.filter_cons_of_pos (by simpa using h), List.sum_cons, List.sum_cons, ih]

/-- A block of `3k` empty passes and then one, two or three passes. -/
theorem htSetup_eq {w h mb zbp k z : Nat} {ca : Bool} {l d seg ms vs : List Nat} (hz : 1 ≤ z ∧ z ≤ 3) (hk : zbp + k < 30)
    (h2 : 2 ≤ d.length) (h31 : d.length < 2 ^ 31) (ho : openCup d = some (ms, vs))
    (hl : l.sum = seg.length) (hl3 : (l.filter (· ≠ 0)).length ≤ 3) (hseg : seg.length < 2 ^ 32) :
    htSetup ⟨w, h, mb, zbp, ca, 3 * k + z, List.replicate (3 * k) 0 ++ d.length :: l, d ++ seg⟩ =
      .go d.length seg.length (zbp + k) z (decide (1 < 3 * k + z) && decide (1 < (l.filter (· ≠ 0)).length + 1)) ms vs := by
  have hp : placeholder ⟨w, h, mb, zbp, ca, 3 * k + z, List.replicate (3 * k) 0 ++ d.length :: l, d ++ seg⟩ = k := by
    unfold placeholder
    dsimp only
    split_ifs with c1 c2
    · rw [takeWhile_zeros _ _ _ (by omega)]; omega
    · rw [List.length_append] at c2; omega
    · omega
  unfold htSetup
  dsimp only
  rw [hp, if_neg (by omega), if_neg (by omega), filter_zeros _ _ _ (by omega)]
  dsimp only
  rw [if_neg (by rw [List.length_cons]; omega), if_neg (by omega), if_neg (by rw [List.length_append]; omega), sum_filter, hl,
    Nat.mod_eq_of_lt hseg, if_neg (by rw [List.length_append]; omega), if_neg (by omega), List.take_left, ho]
  dsimp only
  congr 1 <;> omega

/-! ## Cleanup pass -/

theorem sampleVal_quantWord {c : Int} {mb : Nat} (h1 : 1 ≤ mb) (h2 : mb ≤ 30) (hc : c.natAbs < 2 ^ mb) (h0 : c ≠ 0) :
    sampleVal (31 - mb) (quantWord c) = (if c < 0 then 1 else 0) * 2 ^ 31 + (2 * c.natAbs + 1) * 2 ^ (30 - mb) := by
  have hp : 2 ^ mb ≤ 2 ^ 30 := Nat.pow_le_pow_right (by omega) h2
  have hq := quantWord_eq h0 (by omega)
  generalize hsg : (if c < 0 then 1 else 0 : Nat) = sg at hq ⊢
  have hsg1 : sg ≤ 1 := by rw [← hsg]; split_ifs <;> omega
  have hv : quantWord c % 2 ^ 31 = 2 * (c.natAbs - 1) + sg := by omega
  have hor : (2 * (c.natAbs - 1) + sg) ||| 1 = 2 * (c.natAbs - 1) + 1 := by
    have ha : 2 * (c.natAbs - 1) ||| 1 = 2 * (c.natAbs - 1) + 1 := by
      have := Nat.two_pow_add_eq_or_of_lt (i := 1) (b := 1) (by decide) (c.natAbs - 1)
      simpa using this.symm
    rcases Nat.lt_or_ge sg 1 with h | h
    · obtain rfl : sg = 0 := by omega
      rw [Nat.add_zero, ha]
    · obtain rfl : sg = 1 := by omega
      rw [← ha, Nat.or_assoc]; rfl
  have hlt : (2 * c.natAbs + 1) * 2 ^ (30 - mb) < 2 ^ 31 := by
    calc (2 * c.natAbs + 1) * 2 ^ (30 - mb) < 2 ^ (mb + 1) * 2 ^ (30 - mb) := by
          apply Nat.mul_lt_mul_of_pos_right _ (by positivity)
          rw [pow_succ]; omega
      _ = 2 ^ 31 := by rw [← pow_add]; congr 1; omega
  unfold sampleVal
  rw [if_neg (by omega), hv, hor, show 31 - mb - 1 = 30 - mb by omega, show (2 * (c.natAbs - 1) + sg) % 2 = sg by omega,
    show 2 * (c.natAbs - 1) + 1 + 2 = 2 * c.natAbs + 1 by omega, Nat.mod_eq_of_lt (show 2 * c.natAbs + 1 < 2 ^ 32 by omega),
    Nat.shiftLeft_eq, Nat.mod_eq_of_lt (by omega), Nat.mul_comm sg, ← Nat.two_pow_add_eq_or_of_lt hlt]

theorem dequant_eq {sg t p : Nat} (hsg : sg ≤ 1) (ht : t < 2 ^ 31) :
    dequant p (sg * 2 ^ 31 + t) = if sg = 1 then -((t / 2 ^ p : Nat) : Int) else ((t / 2 ^ p : Nat) : Int) := by
  have m1 : (sg * 2 ^ 31 + t) &&& 0x7FFFFFFF = t := by
    rw [show (0x7FFFFFFF : Nat) = 2 ^ 31 - 1 from rfl, Nat.and_two_pow_sub_one_eq_mod, Nat.add_comm, Nat.add_mul_mod_self_right,
      Nat.mod_eq_of_lt ht]
  have m3 : (sg * 2 ^ 31 + t).testBit 31 = decide (sg = 1) := by
    rw [tb_div, Nat.add_comm, Nat.add_mul_div_right _ _ (by positivity), Nat.div_eq_of_lt ht]
    apply decide_eq_decide.mpr; omega
  unfold dequant
  simp only [m1, m3, Nat.shiftRight_eq_div_pow, decide_eq_true_eq]

theorem openCup_two {d : List Nat} {r : List Nat × List Nat} (h : openCup d = some r) : 2 ≤ d.length := by
  unfold openCup at h
  dsimp only at h
  split_ifs at h
  omega

theorem finish_length {st : Enc} {d : List Nat} (h : st.finish = some d) : d.length < 2 ^ 31 := by
  unfold Enc.finish at h
  simp only [Option.bind_eq_bind] at h
  obtain ⟨v, -, h⟩ := Option.bind_eq_some_iff.mp h
  obtain ⟨s, -, h⟩ := Option.bind_eq_some_iff.mp h
  unfold assembleCup at h
  dsimp only at h
  split_ifs at h with h1
  obtain rfl := Option.some.inj h
  simp only [List.length_set]
  unfold maxLcup at h1
  omega

/-- What the cleanup pass of the decoder makes of a segment of the encoder. -/
theorem cleanup_spec {w h mb pm pv pd : Nat} {c : Nat → Nat → Int} (scratch : Nat → Nat) {d : List Nat}
    (hw : 0 < w) (hh : 0 < h) (hmb : mb ≤ 30) (hc : ∀ y < h, ∀ x < w, (c y x).natAbs < 2 ^ mb)
    (hpv : pv < 4) (hpd : pd < 4) (he : encodeBlock w h c = some d) (hd : d ≠ []) :
    ∃ ms vs sp out, openCup d = some (ms, vs) ∧ 2 ≤ d.length ∧ d.length < 2 ^ 31 ∧
      decStep1 ((w + 1) / 2) ((h + 1) / 2) ((w + 2 + 7) / 8 * 8) pm pv vs scratch = some sp ∧
      decStep2 w h (31 - mb) ((w + 2 + 7) / 8 * 8) pd ms sp = some out ∧
      (∀ y < h, ∀ x < w, out y x = sampleVal (31 - mb) (quantWord (c y x))) ∧
      (∀ r < (h + 1) / 2, ∀ k < (w + 1) / 2, ∀ i < 4, (sp (r * ((w + 2 + 7) / 8 * 8) + 2 * k)).testBit (4 + i) =
        decide (sampleBuf w h c (2 * r + i % 2) (2 * k + i / 2) ≠ 0)) := by
  have hp : 2 ^ mb ≤ 2 ^ 30 := Nat.pow_le_pow_right (by omega) hmb
  have hc' : ∀ y < h, ∀ x < w, (c y x).natAbs < 2 ^ 30 := fun y hy x hx => lt_of_lt_of_le (hc y hy x hx) hp
  have hs := sampleBuf_ok hc'
  have hcup : (encBlock (sampleBuf w h c) ((w + 1) / 2) ((h + 1) / 2)).finish = some d := by
    unfold encodeBlock at he
    split_ifs at he with h1
    · exact he
    · exact absurd (Option.some.inj he).symm hd
  have hB := encBlock_spec hs (QH := (h + 1) / 2) (by omega)
  obtain ⟨seg, ho, hseg⟩ := encodeCup_spec (ms := msEncode _) (es := _) (cs := _) hcup
  rw [hB.mel, hB.vlc] at hseg
  rw [hB.ms] at ho
  obtain ⟨v, e2, rv⟩ := hseg.vlc_rep hpv
  obtain ⟨m, e1, rm⟩ := hseg.mel_rep pm
  have hss : 2 * ((w + 1) / 2) < (w + 2 + 7) / 8 * 8 := by omega
  obtain ⟨sp, es1, hsp⟩ := decStep1_spec hs hss (by omega) (by omega) e1 e2 rm rv scratch
  obtain ⟨hleg, hpre, -⟩ := msEncode_spec _ (overBlock_ok hs ((h + 1) / 2))
  obtain ⟨b, e3, rb⟩ := fwdInit_rep (X := 0xFF) (p := pd) (k := 1) (by decide) hpd
    (fun b hb => hleg.lt fwdW_le b (by simp [hb])) (List.prefix_refl _) hleg hpre
  rw [overBlock_bits] at rb
  obtain ⟨out, es2, hout⟩ := decStep2_spec (pLSB := 31 - mb) hs
    (fun y => by unfold sampleBuf; rw [if_neg (by omega)]) hw hh hsp e3 rb
  refine ⟨_, _, sp, out, ho, openCup_two ho, finish_length hcup, es1, es2, fun y hy x hx => ?_, fun r hr k hk i hi => ?_⟩
  · rw [hout y hy x hx, show sampleBuf w h c y x = quantWord (c y x) by unfold sampleBuf; rw [if_pos ⟨hy, hx⟩]]
  · rw [(hsp r hr k hk).1, (hs.coded r k).tOf_sig (hs.qok r k) hi]
    apply decide_eq_decide.mpr
    unfold sig quad
    rcases hs.word (2 * r + i % 2) (2 * k + i / 2) with h0 | ⟨h0, h1⟩
    · simp [h0]
    · rw [Nat.shiftRight_eq_div_pow]; omega

/-- The states after the cleanup pass: significance and nothing else. -/
theorem sigmaStates_spec {w h : Nat} {s : Nat → Nat → Nat} {sp : Nat → Nat} (hs : ∀ r c, ¬ (r < h ∧ c < w) → s r c = 0)
    (hsp : ∀ r < (h + 1) / 2, ∀ k < (w + 1) / 2, ∀ i < 4, (sp (r * ((w + 2 + 7) / 8 * 8) + 2 * k)).testBit (4 + i) =
      decide (s (2 * r + i % 2) (2 * k + i / 2) ≠ 0)) :
    sigmaStates w h ((w + 2 + 7) / 8 * 8) sp (fun _ _ => 0) =
      some fun r c => if 1 ≤ r ∧ 1 ≤ c ∧ s (r - 1) (c - 1) ≠ 0 then 1 else 0 := by
  unfold sigmaStates rup8
  dsimp only
  rw [if_pos (by omega)]
  congr 1
  funext r c
  by_cases h1 : 1 ≤ r ∧ r ≤ 2 * ((h + 1) / 2) ∧ 1 ≤ c ∧ c ≤ 2 * ((w + 1) / 2)
  · rw [if_pos (by omega), if_pos (by omega)]
    have := hsp ((r - 1) / 2) (by omega) ((c - 1) / 2) (by omega) ((r - 1) % 2 + 2 * ((c - 1) % 2)) (by omega)
    rw [show 2 * ((r - 1) / 2) + ((r - 1) % 2 + 2 * ((c - 1) % 2)) % 2 = r - 1 by omega,
      show 2 * ((c - 1) / 2) + ((r - 1) % 2 + 2 * ((c - 1) % 2)) / 2 = c - 1 by omega, tb_div] at this
    rw [and_one]
    have e := decide_eq_decide.mp this
    split_ifs with h2
    · exact e.mpr h2.2.2
    · have : ¬ (s (r - 1) (c - 1) ≠ 0) := fun h3 => h2 ⟨by omega, by omega, h3⟩
      have := mt e.mp this
      omega
  · have h2 : ¬ (1 ≤ r ∧ 1 ≤ c ∧ s (r - 1) (c - 1) ≠ 0) := fun h3 => h3.2.2 (hs _ _ (by omega))
    rw [if_neg h2]
    split_ifs <;> first | rfl | omega

end Verif.Ht
