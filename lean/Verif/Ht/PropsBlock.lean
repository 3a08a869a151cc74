import Verif.Ht.Dec2Lemmas

/-!
# C43: the HT cleanup pass is lossless

`encodeBlock` models `htj2k_cleanup_encode`, `decodeBlock` models `htj2k_decode` (see Cleanup.lean).
-/

namespace Verif.Ht

theorem encodeBlock_zero {w h : Nat} {c : Nat → Nat → Int} (e : encodeBlock w h c = some [])
    (hc : ∀ y < h, ∀ x < w, (c y x).natAbs < 2 ^ 30) :
    ∀ y < h, ∀ x < w, c y x = 0 := by
  intro y hy x hx
  by_contra h0
  have hany : ((List.range h).any fun y => (List.range w).any fun x => c y x ≠ 0) = true := by
    rw [List.any_eq_true]
    refine ⟨y, List.mem_range.mpr hy, ?_⟩
    rw [List.any_eq_true]
    exact ⟨x, List.mem_range.mpr hx, by simpa using h0⟩
  unfold encodeBlock at e
  rw [if_pos hany] at e
  obtain ⟨seg, h1, -⟩ := encodeCup_spec (ms := _) (es := _) (cs := _) e
  simp [openCup] at h1

/-- **C43.**  Every code-block is recovered exactly: whatever its size, whatever its `M_b`-bit
coefficients, wherever the three streams lie in memory (`pm pv pd`) and whatever the scratch array holds
beforehand, the decoder accepts the segment the encoder wrote, nothing undefined happens, and the decoded
coefficients are the encoded ones. -/
theorem C43_cleanup_round_trip (w h mb pm pv pd : Nat) (c : Nat → Nat → Int) (scratch : Nat → Nat) (d : List Nat)
    (hw : 0 < w) (hh : 0 < h) (hmb : 1 ≤ mb ∧ mb ≤ 30) (hc : ∀ y < h, ∀ x < w, (c y x).natAbs < 2 ^ mb)
    (hpv : pv < 4) (hpd : pd < 4) (he : encodeBlock w h c = some d) :
    ∃ o, decodeBlock w h mb (mb - 1) pm pv pd scratch d = some o ∧ ∀ y < h, ∀ x < w, o y x = c y x := by
  have hp : 2 ^ mb ≤ 2 ^ 30 := Nat.pow_le_pow_right (by omega) hmb.2
  have hc' : ∀ y < h, ∀ x < w, (c y x).natAbs < 2 ^ 30 := fun y hy x hx => lt_of_lt_of_le (hc y hy x hx) hp
  by_cases hd : d = []
  · subst hd
    refine ⟨fun _ _ => 0, by simp [decodeBlock], fun y hy x hx => (encodeBlock_zero he hc' y hy x hx).symm⟩
  · have hs := sampleBuf_ok hc'
    have hcup : (encBlock (sampleBuf w h c) ((w + 1) / 2) ((h + 1) / 2)).finish = some d := by
      unfold encodeBlock at he
      split_ifs at he with h1
      · exact he
      · exact absurd (Option.some.inj he).symm hd
    have hB := encBlock_spec hs (QH := (h + 1) / 2) (by omega)
    obtain ⟨seg, ho, hseg⟩ := encodeCup_spec (ms := msEncode _) (es := _) (cs := _) hcup
    rw [hB.mel, hB.vlc] at hseg
    rw [hB.ms] at ho
    obtain ⟨v, e2, rv⟩ := hseg.vlc_rep hpv
    obtain ⟨m, e1, rm⟩ := hseg.mel_rep pm
    have hss : 2 * ((w + 1) / 2) < (w + 2 + 7) / 8 * 8 := by omega
    obtain ⟨sp, es1, hsp⟩ := decStep1_spec hs hss (by omega) (by omega) e1 e2 rm rv scratch
    obtain ⟨hleg, hpre, -⟩ := msEncode_spec _ (overBlock_ok hs ((h + 1) / 2))
    obtain ⟨b, e3, rb⟩ := fwdInit_rep (X := 0xFF) (p := pd) (k := 1) (by decide) hpd
      (fun b hb => hleg.lt fwdW_le b (by simp [hb])) (List.prefix_refl _) hleg hpre
    rw [overBlock_bits] at rb
    obtain ⟨out, es2, hout⟩ := decStep2_spec (pLSB := 31 - mb) hs
      (fun y => by unfold sampleBuf; rw [if_neg (by omega)]) hw hh hsp e3 rb
    refine ⟨fun y x => dequant (31 - mb) (out y x), ?_, fun y hy x hx => ?_⟩
    · unfold decodeBlock
      rw [if_neg hd, if_neg (by omega), ho]
      simp only [Option.bind_eq_bind, Option.bind_some]
      rw [es1]
      simp only [Option.bind_some]
      rw [show 30 - (mb - 1) = 31 - mb by omega, es2]
      rfl
    · simp only
      rw [hout y hy x hx, show sampleBuf w h c y x = quantWord (c y x) by unfold sampleBuf; rw [if_pos ⟨hy, hx⟩]]
      exact dequant_sampleVal hmb.1 hmb.2 (hc y hy x hx)

end Verif.Ht
