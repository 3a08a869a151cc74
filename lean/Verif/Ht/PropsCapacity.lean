import Verif.Ht.CapLemmas

/-!
# C44, C45: the fixed-size buffers of the HT block coder suffice
-/

namespace Verif.Ht

/-- **C44.**  A code-block of legal size (`w ≤ 2^a`, `h ≤ 2^b`, `a + b ≤ 12`) with coefficients of at
most 21 magnitude bits is always encoded: neither the MEL/VLC buffer of `MAX_Scup` bytes nor the output
buffer of `MAX_Lcup` bytes overflows. -/
theorem C44_encoder_buffers_suffice (w h a b mb : Nat) (c : Nat → Nat → Int) (hh : 0 < h)
    (ha : 2 ≤ a) (hb : 2 ≤ b) (hab : a + b ≤ 12) (hwa : w ≤ 2 ^ a) (hhb : h ≤ 2 ^ b) (hmb : mb ≤ 21)
    (hc : ∀ y < h, ∀ x < w, (c y x).natAbs < 2 ^ mb) : ∃ d, encodeBlock w h c = some d := by
  unfold encodeBlock
  split_ifs with h1
  · have hp : 2 ^ mb ≤ 2 ^ 30 := Nat.pow_le_pow_right (by omega) (by omega)
    have hs : SOk (sampleBuf w h c) ((w + 1) / 2) := sampleBuf_ok fun y hy x hx => lt_of_lt_of_le (hc y hy x hx) hp
    exact finish_total (P := 512) hs (by omega) (show 1 ≤ mb + 1 by omega) (sampleBuf_small (by omega) hc)
      (pairs_le ha hb hab hwa hhb) (by unfold maxScup; omega) (by unfold maxLcup; omega)
  · exact ⟨_, rfl⟩

/-- **C43, C44.**  Encoding then decoding a legal code-block of at most 21 magnitude bits succeeds and
returns the coefficients. -/
theorem C44_round_trip_total (w h a b mb pm pv pd : Nat) (c : Nat → Nat → Int) (scratch : Nat → Nat) (hw : 0 < w)
    (hh : 0 < h) (ha : 2 ≤ a) (hb : 2 ≤ b) (hab : a + b ≤ 12) (hwa : w ≤ 2 ^ a) (hhb : h ≤ 2 ^ b)
    (hmb : 1 ≤ mb ∧ mb ≤ 21) (hc : ∀ y < h, ∀ x < w, (c y x).natAbs < 2 ^ mb) (hpv : pv < 4) (hpd : pd < 4) :
    ∃ d o, encodeBlock w h c = some d ∧ decodeBlock w h mb (mb - 1) pm pv pd scratch d = some o ∧
      ∀ y < h, ∀ x < w, o y x = c y x := by
  obtain ⟨d, e⟩ := C44_encoder_buffers_suffice w h a b mb c hh ha hb hab hwa hhb hmb.2 hc
  obtain ⟨o, e2, h2⟩ := C43_cleanup_round_trip w h mb pm pv pd c scratch d hw hh ⟨hmb.1, by omega⟩ hc hpv hpd e
  exact ⟨d, o, e, e2, h2⟩

/-- The hypotheses are met by a 64 × 64 block of 16-bit data. -/
example : ∃ d o, encodeBlock 64 64 (fun y x => 1000 * (y : Int) - 900 * x) = some d ∧
    decodeBlock 64 64 16 15 0 1 2 (fun i => 7 * i) d = some o ∧
    ∀ y < 64, ∀ x < 64, o y x = 1000 * (y : Int) - 900 * x :=
  C44_round_trip_total 64 64 6 6 16 0 1 2 _ _ (by omega) (by omega) (by omega) (by omega) (by omega) (by norm_num)
    (by norm_num) (by omega) (fun y hy x hx => by norm_num; omega) (by omega) (by omega)

/-! ## The scratch array of the decoder -/

theorem update4 {sp : Nat → Nat} {b a0 a1 a2 a3 i : Nat} (h : i < b ∨ b + 4 ≤ i) :
    Function.update (Function.update (Function.update (Function.update sp b a0) (b + 2) a2) (b + 1) a1) (b + 3) a3 i =
      sp i := sp_after.2.2.2.2 i (by omega)

theorem decInitPair_writes {b : Nat} {two : Bool} {st st' : Dec1} (h : decInitPair b two st = some st') :
    ∀ i, i < b ∨ b + 4 ≤ i → st'.sp i = st.sp i := by
  intro i hi
  unfold decInitPair at h
  simp only [Option.bind_eq_bind, Option.bind_eq_some_iff] at h
  obtain ⟨_, _, _, _, _, _, _, _, _, _, _, _, h⟩ := h
  injection h with h
  rw [← h]
  exact update4 hi

theorem decPair_writes {sstr b : Nat} {two : Bool} {st st' : Dec1} (h : decPair sstr b two st = some st') :
    ∀ i, i < b ∨ b + 4 ≤ i → st'.sp i = st.sp i := by
  intro i hi
  unfold decPair at h
  simp only [Option.bind_eq_bind, Option.bind_eq_some_iff] at h
  obtain ⟨_, _, _, _, _, _, _, _, _, _, h⟩ := h
  injection h with h
  rw [← h]
  exact update4 hi

theorem foldlM_inv {α : Type} (P : α → Prop) (f : α → Nat → Option α) : ∀ (l : List Nat) (a a' : α), P a →
    (∀ a i a', i ∈ l → P a → f a i = some a' → P a') → l.foldlM f a = some a' → P a' := by
  intro l
  induction l with
  | nil => intro a a' h0 _ h; injection h with h; rw [← h]; exact h0
  | cons x l ih =>
    intro a a' h0 hs h
    rw [List.foldlM_cons] at h
    obtain ⟨a1, e1, e2⟩ := Option.bind_eq_some_iff.mp h
    exact ih a1 a' (hs a x a1 (by simp) h0 e1) (fun a i a' hi => hs a i a' (by simp [hi])) e2

/-- The number of scratch entries step 1 touches. -/
def scratchNeed (w h : Nat) : Nat := ((h + 1) / 2 - 1) * ((w + 2 + 7) / 8 * 8) + 4 * (((w + 1) / 2 + 1) / 2) + 4

/-- **C45.**  Whatever bytes arrive – the segment may be corrupt – step 1 of the cleanup decoder changes
the scratch array only below `scratchNeed w h`. -/
theorem C45_step1_writes_in_bounds (w h pm pv : Nat) (seg : List Nat) (sp sp' : Nat → Nat)
    (e : decStep1 ((w + 1) / 2) ((h + 1) / 2) ((w + 2 + 7) / 8 * 8) pm pv seg sp = some sp') :
    ∀ i, scratchNeed w h ≤ i → sp' i = sp i := by
  intro i hi
  unfold scratchNeed at hi
  generalize (w + 2 + 7) / 8 * 8 = sstr at *
  generalize (w + 1) / 2 = QW at *
  generalize (h + 1) / 2 = QH at *
  have hrow : ∀ r < QH, r * sstr ≤ (QH - 1) * sstr := fun r hr => Nat.mul_le_mul_right _ (by omega)
  unfold decStep1 at e
  simp only [Option.bind_eq_bind, Option.bind_eq_some_iff] at e
  obtain ⟨m, -, v, -, st1, e1, st2, e2, e3⟩ := e
  injection e3 with e3
  have h1 : st1.sp i = sp i := by
    unfold decInitRow at e1
    simp only [Option.bind_eq_bind, Option.bind_eq_some_iff] at e1
    obtain ⟨s1, f1, f2⟩ := e1
    injection f2 with f2
    have : s1.sp i = sp i := by
      refine foldlM_inv (fun st : Dec1 => st.sp i = sp i) _ _ _ _ rfl (fun a k a' hk ha e => ?_) f1
      have hk := List.mem_range.mp hk
      rw [decInitPair_writes e i (by omega)]; exact ha
    rw [← f2]
    simp only [guard4]
    rw [if_neg (by omega)]; exact this
  have h2 : st2.sp i = sp i := by
    refine foldlM_inv (fun st : Dec1 => st.sp i = sp i) _ _ _ _ h1 (fun a k a' hk ha e => ?_) e2
    have hk := hrow (k + 1) (by have := List.mem_range.mp hk; omega)
    unfold decRow at e
    simp only [Option.bind_eq_bind, Option.bind_eq_some_iff] at e
    obtain ⟨s1, f1, f2⟩ := e
    injection f2 with f2
    have : s1.sp i = sp i := by
      refine foldlM_inv (fun st : Dec1 => st.sp i = sp i) _ _ (decRowHead sstr ((k + 1) * sstr) a) _ ha
        (fun a j a' hj ha e => ?_) f1
      have hj := List.mem_range.mp hj
      rw [decPair_writes e i (by omega)]; exact ha
    rw [← f2]
    simp only [guard4]
    rw [if_neg (by omega)]; exact this
  rw [← e3]; exact h2

/-- **C45.**  For every legal code-block size that is within the `8 * 513` entries the decoder reserves. -/
theorem C45_scratch_suffices (w h a b : Nat) (ha : 2 ≤ a) (hb : 2 ≤ b) (hab : a + b ≤ 12) (hwa : w ≤ 2 ^ a)
    (hhb : h ≤ 2 ^ b) : scratchNeed w h ≤ 8 * 513 := by
  unfold scratchNeed
  have ha' : a ≤ 10 := by omega
  have hb1 : 2 ^ b ≤ 2 ^ (12 - a) := Nat.pow_le_pow_right (by omega) (by omega)
  have hm : ((h + 1) / 2 - 1) * ((w + 2 + 7) / 8 * 8) ≤ (2 ^ (12 - a) / 2 - 1) * ((2 ^ a + 2 + 7) / 8 * 8) := by
    apply Nat.mul_le_mul
    · have : 2 ∣ 2 ^ (12 - a) := dvd_pow_self 2 (by omega)
      omega
    · omega
  have hq : 4 * (((w + 1) / 2 + 1) / 2) ≤ 4 * (((2 ^ a + 1) / 2 + 1) / 2) := by omega
  refine le_trans (Nat.add_le_add_right (Nat.add_le_add hm hq) 4) ?_
  interval_cases a <;> norm_num

example : scratchNeed 4 1024 = 4096 ∧ scratchNeed 64 64 = 2300 := by decide

end Verif.Ht
