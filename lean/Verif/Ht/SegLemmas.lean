import Verif.Ht.MelLemmas

/-! # Joint termination of MEL and VLC, and the cleanup segment -/

namespace Verif.Ht

theorem melTmp_shift {x rem tmp : Nat} (hr : rem ≤ 8) (ht : tmp < 2 ^ (8 - rem)) (hx : x < 256)
    (h : ∀ i, rem ≤ i → i < 8 → x.testBit i = tmp.testBit (i - rem)) : x >>> rem = tmp := by
  apply Nat.eq_of_testBit_eq
  intro i
  rw [Nat.testBit_shiftRight]
  rcases lt_or_ge (rem + i) 8 with h8 | h8
  · rw [h _ (by omega) h8, Nat.add_sub_cancel_left]
  · rw [Nat.testBit_lt_two_pow (lt_of_lt_of_le hx (Nat.pow_le_pow_right (by decide) h8 : 2 ^ 8 ≤ _)),
      Nat.testBit_lt_two_pow (lt_of_lt_of_le ht (Nat.pow_le_pow_right (by decide) (by omega)))]

theorem vlcMask_testBit {b : Nat} (hb : b ≤ 8) (i : Nat) :
    (0xFF >>> (8 - b)).testBit i = decide (i < b) := by
  rw [Nat.testBit_shiftRight, show 0xFF = 2 ^ 8 - 1 from rfl, Nat.testBit_two_pow_sub_one]
  congr 1
  simp only [eq_iff_iff]; omega

theorem melMask_testBit (r i : Nat) : ((0xFF <<< r) % 256).testBit i = decide (r ≤ i ∧ i < 8) := by
  rw [show 256 = 2 ^ 8 from rfl, Nat.testBit_mod_two_pow, Nat.testBit_shiftLeft,
    show 0xFF = 2 ^ 8 - 1 from rfl, Nat.testBit_two_pow_sub_one]
  by_cases h1 : i < 8 <;> by_cases h2 : r ≤ i <;> simp [h1, h2] <;> omega

theorem melTmp_testBit (t r i : Nat) :
    ((t <<< r) % 256).testBit i = (decide (i < 8) && (decide (r ≤ i) && t.testBit (i - r))) := by
  rw [show 256 = 2 ^ 8 from rfl, Nat.testBit_mod_two_pow, Nat.testBit_shiftLeft]

theorem xor_and_zero {a b m : Nat} (h : (a ^^^ b) &&& m = 0) (i : Nat) (hm : m.testBit i = true) :
    a.testBit i = b.testBit i := by
  have := congrArg (fun x => x.testBit i) h
  simp only [Nat.testBit_and, Nat.testBit_xor, hm, Bool.and_true, Nat.zero_testBit] at this
  simpa using this

/-- What the decoder needs to know about a MEL/VLC segment: read backwards it starts with 0xFF and
legal bytes carrying four ones and `B`; read forwards it starts with bytes carrying `M`. -/
structure SegOk (seg : List Nat) (B M : List Bool) : Prop where
  vlc : ∃ ys post, seg.reverse = 0xFF :: (ys ++ post) ∧ Legal revDisc true ys ∧
    nibble ++ B <+: unstuff revDisc true ys
  mel : ∃ zs, zs <+: seg.dropLast ∧ M <+: unstuffBE false zs
  bytes : ∀ b ∈ seg, b < 256

theorem dropLast_of_reverse {seg r : List Nat} {a : Nat} (h : seg.reverse = a :: r) :
    seg.dropLast = r.reverse := by
  rw [← List.reverse_reverse seg, h]
  simp

theorem termMelVlc_spec {mel : MelEnc} {M : List Bool} (hm : MelInv mel M) {vlc : VlcEnc} {bs : List Nat}
    {B : List Bool} (hv : VlcInv vlc bs (nibble ++ B)) {seg : List Nat} (h : termMelVlc mel vlc = some seg) :
    SegOk seg B M ∧ seg.length ≤ maxScup := by
  have hbits : vlc.bits ≤ 7 := by have := hv.avail; omega
  have hrem : mel.rem ≤ 8 := le_trans hm.rem (by omega)
  have htmp : mel.tmp < 2 ^ (8 - mel.rem) :=
    lt_of_lt_of_le hm.small (Nat.pow_le_pow_right (by decide) (by omega))
  have hvt : vlc.tmp < 2 ^ 7 := lt_of_lt_of_le hv.small (Nat.pow_le_pow_right (by decide) hbits)
  have hmt : (mel.tmp <<< mel.rem) % 256 < 256 := Nat.mod_lt _ (by decide)
  have hbs := hv.legal.lt revW_le
  unfold termMelVlc at h
  simp only at h
  by_cases h0 : ((0xFF <<< mel.rem) % 256 ||| 0xFF >>> (8 - vlc.bits)) ≠ 0
  · rw [if_pos h0] at h
    by_cases hf : (((((mel.tmp <<< mel.rem) % 256 ||| vlc.tmp) ^^^ (mel.tmp <<< mel.rem) % 256) &&&
        (0xFF <<< mel.rem) % 256) ||| ((((mel.tmp <<< mel.rem) % 256 ||| vlc.tmp) ^^^ vlc.tmp) &&&
          0xFF >>> (8 - vlc.bits))) = 0 ∧ ((mel.tmp <<< mel.rem) % 256 ||| vlc.tmp) ≠ 0xFF
    · rw [if_pos hf] at h
      have hlt : ((mel.tmp <<< mel.rem) % 256 ||| vlc.tmp) < 2 ^ 8 :=
        or_lt_pow hmt (lt_of_lt_of_le hvt (by decide))
      generalize hF : ((mel.tmp <<< mel.rem) % 256 ||| vlc.tmp) = f at *
      obtain ⟨hz, hne⟩ := hf
      rw [Nat.or_eq_zero_iff] at hz
      have e1 : f >>> mel.rem = mel.tmp := by
        apply melTmp_shift hrem htmp hlt
        intro i hi h8
        rw [xor_and_zero hz.1 i (by rw [melMask_testBit]; simp [hi, h8]), melTmp_testBit]
        simp [hi, h8]
      have e2 : f % 2 ^ vlc.bits = vlc.tmp := by
        apply Nat.eq_of_testBit_eq
        intro i
        rw [Nat.testBit_mod_two_pow]
        by_cases hi : i < vlc.bits
        · rw [xor_and_zero hz.2 i (by rw [vlcMask_testBit (by omega)]; simp [hi])]; simp [hi]
        · rw [Nat.testBit_lt_two_pow (lt_of_lt_of_le hv.small (Nat.pow_le_pow_right (by decide) (by omega)))]
          simp [hi]
      obtain ⟨hl, hp⟩ := hv.complete (x := f) (by omega) e2
      split_ifs at h with hlen
      obtain rfl := Option.some.inj h
      have hrev : (mel.buf ++ [f] ++ vlc.buf.reverse).reverse = 0xFF :: ((bs ++ [f]) ++ mel.buf.reverse) := by
        simp [hv.buf]
      refine ⟨⟨⟨bs ++ [f], mel.buf.reverse, hrev, hl, hp⟩, ⟨mel.buf ++ [f], ?_, hm.complete e1⟩, ?_⟩, hlen⟩
      · rw [dropLast_of_reverse hrev]; simp
      · intro b hb
        rw [← List.mem_reverse, hrev] at hb
        simp only [List.mem_cons, List.mem_append, List.mem_reverse, List.not_mem_nil, or_false] at hb
        rcases hb with rfl | (hb | rfl) | hb
        · decide
        · exact hbs b hb
        · exact hlt
        · exact hm.bytes b hb
    · rw [if_neg hf] at h
      have e1 : ((mel.tmp <<< mel.rem) % 256) >>> mel.rem = mel.tmp := by
        apply melTmp_shift hrem htmp hmt
        intro i hi h8
        rw [melTmp_testBit]; simp [hi, h8]
      generalize hF : (mel.tmp <<< mel.rem) % 256 = f at *
      obtain ⟨hl, hp⟩ := hv.complete (x := vlc.tmp) (by omega) (Nat.mod_eq_of_lt hv.small)
      split_ifs at h with hlen
      obtain rfl := Option.some.inj h
      have hrev : (mel.buf ++ [f] ++ (vlc.buf ++ [vlc.tmp]).reverse).reverse =
          0xFF :: ((bs ++ [vlc.tmp]) ++ f :: mel.buf.reverse) := by
        simp [hv.buf]
      refine ⟨⟨⟨bs ++ [vlc.tmp], _, hrev, hl, hp⟩, ⟨mel.buf ++ [f], ?_, hm.complete e1⟩, ?_⟩, hlen⟩
      · rw [dropLast_of_reverse hrev]; simp
      · intro b hb
        rw [← List.mem_reverse, hrev] at hb
        simp only [List.mem_cons, List.mem_append, List.mem_reverse, List.not_mem_nil, or_false] at hb
        rcases hb with rfl | (hb | rfl) | rfl | hb
        · decide
        · exact hbs b hb
        · omega
        · exact hmt
        · exact hm.bytes b hb
  · rw [if_neg h0] at h
    rw [not_not, Nat.or_eq_zero_iff] at h0
    have hb0 : vlc.bits = 0 := by
      by_contra hne
      have := congrArg (fun x => x.testBit 0) h0.2
      simp only [vlcMask_testBit (show vlc.bits ≤ 8 by omega), Nat.zero_testBit, decide_eq_false_iff_not] at this
      omega
    have hr8 : 8 ≤ mel.rem := by
      by_contra hne
      have := congrArg (fun x => x.testBit 7) h0.1
      simp only [melMask_testBit, Nat.zero_testBit, decide_eq_false_iff_not] at this
      omega
    have hM : M <+: unstuffBE false mel.buf := by
      rw [hm.bits, show 8 - (flagBE false mel.buf).toNat - mel.rem = 0 by omega]; simp
    have hB : nibble ++ B <+: unstuff revDisc true bs := by
      rw [hv.bits, hb0]; simp
    split_ifs at h with hlen
    obtain rfl := Option.some.inj h
    have hrev : (mel.buf ++ vlc.buf.reverse).reverse = 0xFF :: (bs ++ mel.buf.reverse) := by
      simp [hv.buf]
    refine ⟨⟨⟨bs, _, hrev, hv.legal, hB⟩, ⟨mel.buf, ?_, hM⟩, ?_⟩, hlen⟩
    · rw [dropLast_of_reverse hrev]; simp
    · intro b hb
      rw [← List.mem_reverse, hrev] at hb
      simp only [List.mem_cons, List.mem_append, List.mem_reverse] at hb
      rcases hb with rfl | hb | hb
      · decide
      · exact hbs b hb
      · exact hm.bytes b hb

/-- The segment ends in a byte with its low nibble set, then 0xFF. -/
theorem SegOk.ends {seg : List Nat} {B M : List Bool} (h : SegOk seg B M) :
    ∃ pre a, seg = pre ++ [a, 0xFF] ∧ a % 16 = 15 := by
  obtain ⟨ys, post, hrev, hl, hp⟩ := h.vlc
  cases ys with
  | nil => simp [unstuff, nibble] at hp
  | cons d ys =>
    refine ⟨(ys ++ post).reverse, d, ?_, ?_⟩
    · rw [← List.reverse_reverse seg, hrev]; simp
    · have := revW_ge true d
      exact low_nibble (by omega) ((List.prefix_append _ _).trans hp)

theorem SegOk.tailOk {seg : List Nat} {B M : List Bool} (h : SegOk seg B M) : TailOk seg.dropLast := by
  obtain ⟨pre, a, rfl, ha⟩ := h.ends
  have e : (pre ++ [a, 0xFF]).dropLast = pre ++ [a] := by
    rw [show pre ++ [a, 0xFF] = (pre ++ [a]) ++ [0xFF] by simp, List.dropLast_concat]
  have hor : a ||| 0xF = a := by
    have e : (a / 16) <<< 4 ||| 15 = a := by
      rw [← Nat.shiftLeft_add_eq_or_of_lt (by decide), Nat.shiftLeft_eq]; omega
    conv_lhs => rw [← e]
    rw [Nat.or_assoc]
    exact e
  rw [e]
  intro i
  rcases lt_trichotomy i pre.length with hi | hi | hi
  · rw [List.drop_append_of_le_length (by omega)]
    obtain ⟨x, l, hx⟩ : ∃ x l, pre.drop i = x :: l := by
      cases hd : pre.drop i with
      | nil => rw [List.drop_eq_nil_iff] at hd; omega
      | cons x l => exact ⟨x, l, rfl⟩
    rw [hx]
    cases l <;> rfl
  · rw [hi, List.drop_left]
    exact hor
  · rw [List.drop_of_length_le (by simp; omega)]
    rfl

theorem SegOk.vlc_rep {seg : List Nat} {B M : List Bool} (h : SegOk seg B M) {p : Nat} (hp : p < 4) :
    ∃ s, revInit p seg = some s ∧ Rep revDisc 0 s B := by
  obtain ⟨ys, post, hrev, hl, hpr⟩ := h.vlc
  refine revInit_rep hp hrev hl hpr fun b hb => h.bytes b ?_
  rw [← List.mem_reverse, hrev]; simp [hb]

theorem SegOk.mel_rep {seg : List Nat} {B : List Bool} {es : List Bool}
    (h : SegOk seg B (encBits 0 0 es)) (p : Nat) : ∃ s, melStart p seg = some s ∧ EvRep s es := by
  obtain ⟨zs, hz, hM⟩ := h.mel
  obtain ⟨s, e, r, S, h1, h2, h3⟩ := melStart_rep (p := p) hz h.bytes h.tailOk
  refine ⟨s, e, r, S, h1, h2, ?_⟩
  have := decode_encBits es 0 0 (by decide)
  exact (this.trans (decodeBits_prefix hM 0)).trans h3

theorem melEncode_inv (es : List Bool) : MelInv (melEncode es) (encBits 0 0 es) :=
  MelInv.encodeAll es MelEnc.init [] MelInv.init

/-! ## The cleanup segment -/

theorem nibbles : ∀ a < 256, ∀ m < 16, a % 16 = 15 →
    ((a &&& 0xF0) ||| m) &&& 0x0F = m ∧ ((a &&& 0xF0) ||| m) ||| 0x0F = a := by decide +kernel

theorem openCup_assemble {ms pre d : List Nat} {a : Nat} (ha : a % 16 = 15) (ha2 : a < 256)
    (hs : (pre ++ [a, 0xFF]).length ≤ maxScup) (h : assembleCup ms (pre ++ [a, 0xFF]) = some d) :
    openCup d = some (ms, pre ++ [a, 0xFF]) := by
  unfold assembleCup at h
  simp only at h
  split_ifs at h with hL
  obtain rfl := Option.some.inj h
  clear h
  have hlen : (ms ++ (pre ++ [a, 0xFF])).length = ms.length + pre.length + 2 := by simp; omega
  have hsl : (pre ++ [a, 0xFF]).length = pre.length + 2 := by simp
  rw [hsl] at hs
  unfold maxScup at hs
  set n := pre.length + 2 with hn
  have hassoc : ms ++ (pre ++ [a, 0xFF]) = (ms ++ pre) ++ [a, 0xFF] := by simp
  have hmp : (ms ++ pre).length = ms.length + pre.length := by simp
  have s1 : ∀ x y : Nat, ∀ z, ((ms ++ pre) ++ [x, y]).set (ms.length + pre.length + 1) z =
      (ms ++ pre) ++ [x, z] := by
    intro x y z
    rw [List.set_append_right _ _ (by omega), hmp, show ms.length + pre.length + 1 - (ms.length + pre.length) = 1 by omega]
    rfl
  have s2 : ∀ x y : Nat, ∀ z, ((ms ++ pre) ++ [x, y]).set (ms.length + pre.length) z =
      (ms ++ pre) ++ [z, y] := by
    intro x y z
    rw [List.set_append_right _ _ (by omega), hmp, Nat.sub_self]
    rfl
  have g1 : ∀ x y : Nat, ((ms ++ pre) ++ [x, y]).getD (ms.length + pre.length) 0 = x := by
    intro x y
    rw [List.getD_eq_getElem?_getD, List.getElem?_append_right (by omega), hmp, Nat.sub_self]; rfl
  have g2 : ∀ x y : Nat, ((ms ++ pre) ++ [x, y]).getD (ms.length + pre.length + 1) 0 = y := by
    intro x y
    rw [List.getD_eq_getElem?_getD, List.getElem?_append_right (by omega), hmp,
      show ms.length + pre.length + 1 - (ms.length + pre.length) = 1 by omega]; rfl
  have hm15 : n &&& 0x0F = n % 16 := Nat.and_two_pow_sub_one_eq_mod n 4
  have hsh : (n >>> 4) % 256 = n / 16 := by
    rw [Nat.shiftRight_eq_div_pow]; omega
  obtain ⟨q1, q2⟩ := nibbles a ha2 (n % 16) (by omega) ha
  rw [hlen, hsl, hassoc, Nat.add_sub_cancel, show ms.length + pre.length + 2 - 1 = ms.length + pre.length + 1 by omega,
    s1, g1, s2, hm15, hsh]
  unfold openCup
  have hlen2 : ((ms ++ pre) ++ [(a &&& 0xF0) ||| n % 16, n / 16]).length = ms.length + pre.length + 2 := by simp [Nat.add_assoc]
  simp only [hlen2]
  rw [if_neg (by omega), Nat.add_sub_cancel, show ms.length + pre.length + 2 - 1 = ms.length + pre.length + 1 by omega,
    g1, g2, s1, s2, q1, q2]
  have hscup : (n / 16) <<< 4 + n % 16 = n := by rw [Nat.shiftLeft_eq]; omega
  rw [hscup, if_neg (by unfold maxScup; omega)]
  have hk : ms.length + pre.length + 2 - n = ms.length := by omega
  rw [hk, List.append_assoc, List.take_left, List.drop_left]

theorem SegOk.openCup {ms seg d : List Nat} {B M : List Bool} (h : SegOk seg B M)
    (hs : seg.length ≤ maxScup) (hd : assembleCup ms seg = some d) : openCup d = some (ms, seg) := by
  obtain ⟨pre, a, rfl, ha⟩ := h.ends
  exact openCup_assemble ha (h.bytes a (by simp)) hs hd

end Verif.Ht
