import Verif.Ht.PropsBlock

/-!
# Capacity: how long the three streams of a code-block can become
-/

namespace Verif.Ht

theorem unstuff_length {D : Disc} (hD : ∀ u b, 7 ≤ D.w u b) : ∀ (bs : List Nat) (u : Bool),
    7 * bs.length ≤ (unstuff D u bs).length := by
  intro bs
  induction bs with
  | nil => simp
  | cons b bs ih =>
    intro u
    have := hD u b
    have := ih (D.nx b)
    simp only [unstuff, List.length_append, bitsLE_length, List.length_cons]
    omega

theorem unstuffBE_length : ∀ (bs : List Nat) (u : Bool), 7 * bs.length ≤ (unstuffBE u bs).length := by
  intro bs
  induction bs with
  | nil => simp
  | cons b bs ih =>
    intro u
    have h1 := ih (b == 0xFF)
    simp only [unstuffBE, List.length_append, bitsBE_length, List.length_cons]
    cases u <;> simp <;> omega

theorem msEncode_length (fs : List (Nat × Nat × Nat)) (hfs : ∀ f ∈ fs, FieldOk f) :
    7 * (msEncode fs).length ≤ (fieldBits (fs.map fieldVal)).length + 7 := by
  have h := msEncode_inv fs hfs MsEnc.init [] MsInv.init (by simp [MsEnc.init])
  unfold msEncode MsEnc.term
  generalize fs.foldl (fun s f => s.emit f.1 f.2.1 f.2.2) MsEnc.init = s at h
  obtain ⟨i, c⟩ := MsInv.flushBytes s.ctreg s h le_rfl
  generalize MsEnc.flushBytes s.ctreg s = t at i c
  have hb := congrArg List.length i.bits
  have hu := unstuff_length fwdW_ge t.buf false
  simp only [List.nil_append, List.length_append, bitsLE_length] at hb
  have : t.finish.length ≤ t.buf.length + 1 := by
    unfold MsEnc.finish
    simp only
    split_ifs <;> simp; omega
  omega

theorem encBits_length (es : List Bool) : ∀ k run, (encBits k run es).length ≤ 6 * es.length + 1 := by
  induction es with
  | nil => intro k run; unfold encBits; split_ifs <;> simp
  | cons e es ih =>
    intro k run
    cases e
    · unfold encBits
      have h1 := ih (min 12 (k + 1)) 0
      have h2 := ih k (run + 1)
      split_ifs <;> simp only [List.length_cons] <;> omega
    · unfold encBits
      have h1 := ih (k - 1) 0
      have h2 : melE k ≤ 5 := by
        unfold melE
        rcases Nat.lt_or_ge k 13 with h | h
        · interval_cases k <;> decide
        · rw [List.getD_eq_getElem?_getD, List.getElem?_eq_none (by simpa using h)]; simp
      simp only [List.length_cons, List.length_append, bitsBE_length]
      omega

theorem overRow_length {α : Type} (f : Nat → Bool → List α) (g : α → Nat) (B QW n : Nat)
    (hf : ∀ j two, ((f j two).map g).sum ≤ B) : ((overRow f QW n).map g).sum ≤ B * n := by
  induction n with
  | zero => simp [overRow]
  | succ n ih =>
    rw [overRow_succ, List.map_append, List.sum_append, Nat.mul_succ]
    have := hf (2 * n) (decide (2 * n + 1 < QW))
    omega

theorem overBlock_length {α : Type} (f : Nat → Nat → Bool → List α) (g : α → Nat) (B QW n : Nat)
    (hf : ∀ r j two, ((f r j two).map g).sum ≤ B) : ((overBlock f QW n).map g).sum ≤ B * ((QW + 1) / 2) * n := by
  induction n with
  | zero => simp [overBlock]
  | succ n ih =>
    rw [overBlock_succ, List.map_append, List.sum_append, Nat.mul_succ]
    have := overRow_length (f n) g B QW ((QW + 1) / 2) (hf n)
    omega

theorem fieldBits_length (cs : List (Nat × Nat)) : (fieldBits cs).length = (cs.map Prod.snd).sum := by
  induction cs with
  | nil => rfl
  | cons c cs ih => rw [fieldBits_cons, List.length_append, bitsLE_length, ih]; simp

theorem pairMel_length (s : Nat → Nat → Nat) (r j : Nat) (two : Bool) :
    ((pairMel s r j two).map fun _ => 1).sum ≤ 3 := by
  unfold pairMel melEv melU
  split_ifs <;> simp

theorem pairVlc_length {s : Nat → Nat → Nat} {QW : Nat} (hs : SOk s QW) (r j : Nat) (two : Bool) :
    ((pairVlc s r j two).map Prod.snd).sum ≤ 30 := by
  have h0 := (hs.coded r j).len_le
  have h1 := (hs.coded r (j + 1)).len_le
  have u0 := hs.u_le r j
  have u1 := hs.u_le r (j + 1)
  have w2 := (uvlcEntry_facts (r == 0) (u0 := (cq s r j).u) (u1 := (cq s r (j + 1)).u) (by omega) (by omega)).2
  have w1 := (uvlcEntry_facts (r == 0) (u0 := (cq s r j).u) (u1 := 0) (by omega) (by omega)).2
  unfold pairVlc vlcE
  cases two
  · simp only [Bool.false_eq_true, if_false, List.map_cons, List.map_nil, List.sum_cons, List.sum_nil]
    omega
  · simp only [if_true, List.map_cons, List.map_nil, List.sum_cons, List.sum_nil]
    omega

/-- Magnitude words of at most `K` bits. -/
def Small (s : Nat → Nat → Nat) (K : Nat) : Prop := ∀ r c, s r c % 2 ^ 31 < 2 ^ K

theorem Small.expE {s : Nat → Nat → Nat} {K QW : Nat} (h : Small s K) (hs : SOk s QW) (r j i : Nat) :
    expE (quad s r j) i ≤ K := by
  have h1 : magv (quad s r j) i < 2 ^ K := by rw [magv_eq]; exact h _ _
  have h2 := Nat.size_le.mpr h1
  unfold Ht.expE bitLen
  rcases (hs.qok r j).sig_cases i with ⟨h, -⟩ | ⟨h, -⟩ <;> rw [h] <;> omega

theorem Small.U {s : Nat → Nat → Nat} {K QW : Nat} (h : Small s K) (hK : 1 ≤ K) (hs : SOk s QW) (r j : Nat) :
    (cq s r j).U ≤ K := by
  have e : emaxOf (quad s r j) ≤ K := by
    have h0 := h.expE hs r j 0; have h1 := h.expE hs r j 1
    have h2 := h.expE hs r j 2; have h3 := h.expE hs r j 3
    unfold emaxOf max4; omega
  have k : kap s r j ≤ K := by
    cases r with
    | zero => simpa [kap] using hK
    | succ r =>
      have hl : ∀ c, lineE s r c ≤ K := fun c => h.expE hs _ _ _
      have : emaxA s r j ≤ K := by
        unfold emaxA max4
        have h1 := hl (2 * j - 1); have h2 := hl (2 * j)
        have h3 := hl (2 * j + 1); have h4 := hl (2 * j + 2)
        split_ifs <;> omega
      rw [kap, kappaOf]
      rcases Bool.eq_false_or_eq_true (manyBits (rhoQ s (r + 1) j)) with hb | hb <;> rw [hb] <;> simp <;> omega
  have := (hs.coded r j).U
  omega

theorem fld_len {cx kappa : Nat} {q : Nat → Nat} {c : Coded} (hc : CodedOk cx kappa q c) (hq : QOk q) (hk : 1 ≤ kappa) (hU : c.U ≤ 31) {i : Nat} (hi : i < 4) :
    (fld q c i).2.1 ≤ c.U := by
  rcases hq.sig_cases i with ⟨h0, -⟩ | ⟨h0, -⟩
  · rw [fld_zero hc hq hk hi h0]; exact Nat.zero_le _
  · obtain ⟨f, e, h1, -, -, -, -, -⟩ := fld_one hc hq hk hU hi h0
    rw [h1]; exact Nat.sub_le _ _

theorem msFields_eq (q : Nat → Nat) (c : Coded) : msFields q c = [0, 1, 2, 3].map (fld q c) := rfl

theorem sum_four (f : Nat → Nat × Nat × Nat) {K : Nat} (hf : ∀ i, i < 4 → (f i).2.1 ≤ K) :
    (([0, 1, 2, 3].map f).map fun f => f.2.1).sum ≤ 4 * K := by
  have h0 := hf 0 (by omega); have h1 := hf 1 (by omega)
  have h2 := hf 2 (by omega); have h3 := hf 3 (by omega)
  simp only [List.map_cons, List.map_nil, List.sum_cons, List.sum_nil]
  omega

theorem msFields_sum {q : Nat → Nat} {c : Coded} {K : Nat} (hf : ∀ i, i < 4 → (fld q c i).2.1 ≤ K) :
    ((msFields q c).map fun f => f.2.1).sum ≤ 4 * K := by
  rw [msFields_eq]
  exact sum_four _ hf

theorem msE_length {s : Nat → Nat → Nat} {K QW : Nat} (h : Small s K) (hK : 1 ≤ K) (hs : SOk s QW) (r j : Nat) :
    ((msE s r j).map fun f => f.2.1).sum ≤ 4 * K :=
  msFields_sum fun _ hi =>
    le_trans (fld_len (hs.coded r j) (hs.qok r j) (SOk.kap_pos r j) (hs.U_le r j) hi) (h.U hK hs r j)

theorem pairMs_length {s : Nat → Nat → Nat} {K QW : Nat} (h : Small s K) (hK : 1 ≤ K) (hs : SOk s QW) (r j : Nat) (two : Bool) :
    ((pairMs s r j two).map fun f => f.2.1).sum ≤ 8 * K := by
  have h1 := msE_length h hK hs r j
  have h2 := msE_length h hK hs r (j + 1)
  unfold pairMs
  rw [List.map_append, List.sum_append]
  cases two
  · simp only [Bool.false_eq_true, if_false, List.map_nil, List.sum_nil]; omega
  · simp only [if_true]; omega

/-- Length of the MEL/VLC segment before the check against `MAX_Scup`. -/
theorem termMelVlc_total {mel : MelEnc} {vlc : VlcEnc} (h : mel.buf.length + vlc.buf.length + 2 ≤ maxScup) :
    ∃ seg, termMelVlc mel vlc = some seg ∧ seg.length ≤ mel.buf.length + vlc.buf.length + 2 := by
  unfold termMelVlc
  simp only
  have key : ∀ out : List Nat, out.length ≤ mel.buf.length + vlc.buf.length + 2 →
      ∃ seg, (if out.length ≤ maxScup then some out else none) = some seg ∧
        seg.length ≤ mel.buf.length + vlc.buf.length + 2 := by
    intro out ho
    exact ⟨out, by rw [if_pos (by omega)], ho⟩
  apply key
  split_ifs <;> simp <;> omega

theorem finish_total {s : Nat → Nat → Nat} {QW QH K P : Nat} (hs : SOk s QW) (hQH : 0 < QH) (hK : 1 ≤ K) (hsm : Small s K)
    (hP : (QW + 1) / 2 * QH ≤ P) (h1 : 48 * P + 26 ≤ 7 * maxScup) (h2 : (48 + 8 * K) * P + 33 ≤ 7 * maxLcup) :
    ∃ d, (encBlock s QW QH).finish = some d := by
  have hB := encBlock_spec hs hQH
  obtain ⟨vlc, bs, e1, i1⟩ := VlcInv.init.emitAll (encBlock s QW QH).vlc
  unfold Enc.finish
  rw [e1]
  simp only [Option.bind_eq_bind, Option.bind_some]
  have lv : 7 * bs.length ≤ 4 + 30 * P := by
    have a := congrArg List.length i1.bits
    have b := unstuff_length revW_ge bs true
    rw [List.length_append, List.length_append, fieldBits_length, hB.vlc] at a
    have c := overBlock_length (pairVlc s) Prod.snd 30 QW QH (pairVlc_length hs)
    have hn : nibble.length = 4 := rfl
    have : 30 * ((QW + 1) / 2) * QH = 30 * ((QW + 1) / 2 * QH) := by ring
    omega
  have lv2 : vlc.buf.length = bs.length + 1 := by rw [i1.buf]; rfl
  have lm : 7 * (melEncode (encBlock s QW QH).mel).buf.length ≤ 18 * P + 1 := by
    have i := melEncode_inv (encBlock s QW QH).mel
    have a := congrArg List.length i.bits
    have b := unstuffBE_length (melEncode (encBlock s QW QH).mel).buf false
    rw [List.length_append] at a
    have c := encBits_length (encBlock s QW QH).mel 0 0
    have d := overBlock_length (pairMel s) (fun _ => 1) 3 QW QH (pairMel_length s)
    have e : (encBlock s QW QH).mel.length = ((overBlock (pairMel s) QW QH).map fun _ => 1).sum := by
      rw [hB.mel]; simp
    have : 3 * ((QW + 1) / 2) * QH = 3 * ((QW + 1) / 2 * QH) := by ring
    omega
  obtain ⟨seg, es, ls⟩ := termMelVlc_total (mel := melEncode (encBlock s QW QH).mel) (vlc := vlc) (by omega)
  rw [es]
  simp only [Option.bind_some]
  have lms : 7 * (msEncode (encBlock s QW QH).ms).length ≤ 8 * K * P + 7 := by
    rw [hB.ms]
    have a := msEncode_length _ (overBlock_ok hs QH)
    rw [fieldBits_length, List.map_map] at a
    have b := overBlock_length (pairMs s) (fun f => f.2.1) (8 * K) QW QH (pairMs_length hsm hK hs)
    have c : 8 * K * ((QW + 1) / 2) * QH ≤ 8 * K * P := by
      rw [Nat.mul_assoc]; exact Nat.mul_le_mul_left _ hP
    have d : (List.map (Prod.snd ∘ fieldVal) (overBlock (pairMs s) QW QH)) =
      (List.map (fun f => f.2.1) (overBlock (pairMs s) QW QH)) := rfl
    rw [d] at a
    omega
  unfold assembleCup
  simp only
  rw [if_neg (by
    rw [List.length_append]
    have : (48 + 8 * K) * P = 48 * P + 8 * K * P := by ring
    omega)]
  exact ⟨_, rfl⟩

theorem sampleBuf_small {w h mb : Nat} {c : Nat → Nat → Int} (hmb : mb ≤ 29)
    (hc : ∀ y < h, ∀ x < w, (c y x).natAbs < 2 ^ mb) : Small (sampleBuf w h c) (mb + 1) := by
  intro r k
  have hp : 2 ^ mb ≤ 2 ^ 29 := Nat.pow_le_pow_right (by omega) hmb
  unfold sampleBuf
  split_ifs with hh
  · have := hc r hh.1 k hh.2
    by_cases h0 : c r k = 0
    · rw [h0, quantWord, if_pos rfl, Nat.zero_mod]; positivity
    · have hq := quantWord_eq h0 (by omega)
      have h2 : 2 ^ (mb + 1) = 2 * 2 ^ mb := pow_succ' 2 mb
      rw [hq, h2]
      split_ifs <;> omega
  · rw [Nat.zero_mod]; positivity

/-- Number of coded pairs in a block of legal size. -/
theorem pairs_le {w h a b : Nat} (ha : 2 ≤ a) (hb : 2 ≤ b) (hab : a + b ≤ 12) (hw : w ≤ 2 ^ a) (hh : h ≤ 2 ^ b) :
    ((w + 1) / 2 + 1) / 2 * ((h + 1) / 2) ≤ 512 := by
  have e1 : 2 ^ a = 4 * 2 ^ (a - 2) := by
    rw [show (4 : Nat) = 2 ^ 2 from rfl, ← pow_add]; congr 1; omega
  have e2 : 2 ^ b = 2 * 2 ^ (b - 1) := by rw [← pow_succ']; congr 1; omega
  calc ((w + 1) / 2 + 1) / 2 * ((h + 1) / 2) ≤ 2 ^ (a - 2) * 2 ^ (b - 1) :=
        Nat.mul_le_mul (by omega) (by omega)
    _ = 2 ^ (a + b - 3) := by rw [← pow_add]; congr 1; omega
    _ ≤ 2 ^ 9 := Nat.pow_le_pow_right (by omega) (by omega)
    _ = 512 := by norm_num

end Verif.Ht
