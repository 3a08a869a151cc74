import Verif.Ht.EncLemmas
import Verif.Ht.PropsStreams

/-!
# The cleanup decoder, step 1, recovers the quads
-/

namespace Verif.Ht

theorem and_7F (v c : Nat) : (v % 2 ^ 32 &&& 0x7F) + c = v % 128 + c := by
  rw [show (0x7F : Nat) = 2 ^ 7 - 1 from rfl, Nat.and_two_pow_sub_one_eq_mod]; omega

theorem and_3F (v c : Nat) : (v % 2 ^ 32 &&& 0x3F) + c = v % 64 + c := by
  rw [show (0x3F : Nat) = 2 ^ 6 - 1 from rfl, Nat.and_two_pow_sub_one_eq_mod]; omega

/-- Taking the MEL event of a quad when there is one. -/
theorem melQuad_event {m : MelSt} {on : Bool} {e : Bool} {M : List Bool} (t : Nat)
    (h : EvRep m ((if on then [e] else []) ++ M)) :
    ∃ m', melQuad on m t = some (if on ∧ e = false then 0 else t, m') ∧ EvRep m' M := by
  cases on with
  | false => exact ⟨m, by simp [melQuad], by simpa using h⟩
  | true =>
    simp only [if_true, List.cons_append, List.nil_append] at h
    obtain ⟨m', e1, h'⟩ := h.next
    refine ⟨m', ?_, h'⟩
    simp only [melQuad, if_true, e1, Option.map_some]
    cases e <;> simp

/-- One quad: the decoder obtains the entry of the coded quad, given that the stream continues with
its codeword. -/
theorem quad_step {s : Nat → Nat → Nat} {QW : Nat} (hs : SOk s QW) (r j : Nat) {m : MelSt} {M : List Bool}
    {ctx v : Nat} (hc : ctxS s r j = 2 * ctx) (hm : EvRep m (melEv s r j ++ M))
    (hv : v % 2 ^ (cq s r j).len = (cq s r j).cwd) :
    ∃ m', melQuad (ctx == 0) m (tab (decVlc (r == 0)) ((v % 2 ^ 32 &&& 0x7F) + ctx)) =
      some (tOf (cq s r j), m') ∧ EvRep m' M := by
  obtain ⟨k, hk, hk2⟩ := hs.ctx r j
  have hck : ctx = 128 * k := by omega
  have hme : melEv s r j = if (ctx == 0) then [decide (rhoOf (quad s r j) ≠ 0)] else [] := by
    unfold melEv
    by_cases h0 : ctx = 0
    · rw [if_pos (by omega)]; simp [h0]
    · rw [if_neg (by omega)]; simp [h0]
  rw [hme] at hm
  obtain ⟨m', e1, h'⟩ := melQuad_event (tab (decVlc (r == 0)) ((v % 2 ^ 32 &&& 0x7F) + ctx)) hm
  refine ⟨m', ?_, h'⟩
  rw [e1, and_7F]
  have hcq : cq s r j = codeQuad (encVlc (r == 0)) (256 * k) (kap s r j) (quad s r j) := by
    unfold cq; rw [hk2]
  by_cases hz : ctx = 0 ∧ rhoOf (quad s r j) = 0
  · have := ((hs.coded r j).silent (by omega) ((hs.coded r j).rho.trans hz.2)).1
    rw [this, hz.2]
    simp [hz.1]
  · have hd := codeQuad_dec (r == 0) (kappa := kap s r j) (hs.qok r j) hk
      (by by_contra hcon; exact hz (by push Not at hcon; exact ⟨by omega, hcon.2⟩)) v (by rw [← hcq]; exact hv)
    rw [← hcq, ← hck] at hd
    rw [hd]
    have : ¬ ((ctx == 0) = true ∧ decide (rhoOf (quad s r j) ≠ 0) = false) := by
      simp only [beq_iff_eq, decide_eq_false_iff_not, not_not]; exact hz
    rw [if_neg this]

/-- What the reader's register says about the next field. -/
theorem reg_field {n c cwd : Nat} (hcwd : cwd < 2 ^ n) (hb : bitsLE n c = bitsLE n cwd) : c % 2 ^ n = cwd := by
  apply eq_of_bitsLE (Nat.mod_lt _ (by positivity)) hcwd
  rw [bitsLE_mod _ le_rfl]; exact hb

theorem Rep.peek {D : Disc} {X : Nat} {s : BitRd} {n cwd : Nat} {L : List Bool} (hcwd : cwd < 2 ^ n)
    (h : Rep D X s (bitsLE n cwd ++ L)) (hn : n ≤ s.bits) : s.creg % 2 ^ n = cwd := by
  obtain ⟨_, _, _, _, _, hb⟩ := h.advance_spec (bitsLE_length _ _) hn
  exact reg_field hcwd hb

/-- UVLC decoding of a pair of residuals. -/
theorem uvlcRead_spec (first : Bool) {u0 u1 : Nat} (h0 : u0 < 32) (h1 : u1 < 32) {vlc : BitRd} {L : List Bool}
    (h : Rep revDisc 0 vlc (bitsLE (uvlcWord (tab (encUvlc first) (u0 + 32 * u1))).2
      (uvlcWord (tab (encUvlc first) (u0 + 32 * u1))).1 ++ L)) (hb : 16 ≤ vlc.bits) :
    ∃ vlc', uvlcRead (decUvlc first) (uvlcOff first u0 u1) vlc = some ((u0, u1), vlc') ∧ Rep revDisc 0 vlc' L := by
  obtain ⟨f1, f2⟩ := uvlcEntry_facts first h0 h1
  have hv := h.peek f1 (by omega)
  obtain ⟨g1, g2⟩ := uvlcEntry_dec first h0 h1 vlc.creg hv
  unfold uvlcRead
  simp only
  rw [and_3F]
  generalize tab (decUvlc first) (vlc.creg % 64 + uvlcOff first u0 u1) = rr at *
  generalize uvlcWord (tab (encUvlc first) (u0 + 32 * u1)) = w at *
  obtain ⟨cwd, len⟩ := w
  simp only at *
  rw [← g1, bitsLE_add, List.append_assoc] at h
  obtain ⟨s1, e1, r1, b1, c1, -⟩ := h.advance_spec (bitsLE_length _ _) (by omega)
  obtain ⟨s2, e2, r2, -, -, -⟩ := r1.advance_spec (bitsLE_length _ _) (by omega)
  refine ⟨s2, ?_, r2⟩
  change ((vlc.advance (uvlcPre rr)).bind fun vlc1 => (vlc1.advance (uvlcSuf rr)).bind fun vlc2 =>
    some (uvlcValues rr (vlc1.creg % 2 ^ 32 &&& ((1 <<< uvlcSuf rr) - 1)), vlc2)) = _
  rw [e1, Option.bind_some, e2, Option.bind_some, mask_low, c1, Nat.shiftRight_eq_div_pow]
  have hs15 : uvlcSuf rr ≤ 32 := le_trans Nat.and_le_right (by omega)
  rw [Nat.mod_mod_of_dvd _ (Nat.pow_dvd_pow 2 hs15), g2]

/-! ## Table entries -/

theorem SOk.tOf_rho {s : Nat → Nat → Nat} {QW : Nat} (hs : SOk s QW) (r j : Nat) :
    tOf (cq s r j) &&& 0xF0 = rhoQ s r j <<< 4 := by
  have c := hs.coded r j
  have hr := hs.rho_lt r j
  have e : (cq s r j).rho = rhoQ s r j := c.rho
  rw [← e]
  exact Ht.tOf_rho (by rw [e]; exact hr) c.len_le

theorem tOf_low (c : Coded) (hl : c.len ≤ 7) : tOf c &&& 0xF = (if c.u ≠ 0 then 1 else 0) + 2 * c.len := by
  rw [show (0xF : Nat) = 2 ^ 4 - 1 from rfl, Nat.and_two_pow_sub_one_eq_mod]
  unfold tOf
  split_ifs <;> omega

theorem tOf_len (c : Coded) (hl : c.len ≤ 7) : (tOf c &&& 0xF) >>> 1 = c.len := by
  rw [tOf_low c hl, Nat.shiftRight_eq_div_pow]
  split_ifs <;> omega

theorem tOf_uoff (c : Coded) : tOf c &&& 1 = if c.u ≠ 0 then 1 else 0 := by
  rw [show (1 : Nat) = 2 ^ 1 - 1 from rfl, Nat.and_two_pow_sub_one_eq_mod]
  unfold tOf
  split_ifs <;> omega

theorem SOk.kap_pos {s : Nat → Nat → Nat} (r j : Nat) : 1 ≤ kap s r j := by
  cases r with
  | zero => simp [kap]
  | succ r => simp only [kap, kappaOf]; omega

theorem emaxOf_le {q : Nat → Nat} (h : QOk q) : emaxOf q ≤ 31 := by
  have := h.expE_le 0; have := h.expE_le 1; have := h.expE_le 2; have := h.expE_le 3
  unfold emaxOf max4; omega

theorem SOk.u_le {s : Nat → Nat → Nat} {QW : Nat} (hs : SOk s QW) (r j : Nat) : (cq s r j).u ≤ 30 := by
  have c := hs.coded r j
  have := emaxOf_le (hs.qok r j)
  have := SOk.kap_pos (s := s) r j
  rw [c.u, c.U]; omega

/-! ## One pair of quads -/

theorem fieldBits_cons (c : Nat × Nat) (cs : List (Nat × Nat)) : fieldBits (c :: cs) = bitsLE c.2 c.1 ++ fieldBits cs := by
  simp [fieldBits]

theorem fieldBits_append (a b : List (Nat × Nat)) : fieldBits (a ++ b) = fieldBits a ++ fieldBits b := by
  simp [fieldBits]

/-- Second residual of a pair. -/
def u2 (s : Nat → Nat → Nat) (r j : Nat) (two : Bool) : Nat := if two then (cq s r (j + 1)).u else 0
/-- Second entry of a pair. -/
def t2 (s : Nat → Nat → Nat) (r j : Nat) (two : Bool) : Nat := if two then tOf (cq s r (j + 1)) else 0

theorem beq_one (n : Nat) (P : Prop) [Decidable P] (h : n = if P then 1 else 0) : (n == 1) = decide P := by
  by_cases hp : P <;> simp [h, hp]

/-- The second quad of a pair, if there is one. -/
theorem second_spec {s : Nat → Nat → Nat} {QW : Nat} (hs : SOk s QW) (r j : Nat) (two : Bool) {ctx : Nat}
    {m1 : MelSt} {s2 : BitRd} {M L : List Bool} (hc : two = true → ctxS s r (j + 1) = 2 * ctx)
    (hm1 : EvRep m1 ((if two = true then melEv s r (j + 1) ++ melU r (cq s r j).u (cq s r (j + 1)).u else []) ++ M))
    (r2 : Rep revDisc 0 s2 (fieldBits (if two = true then
      [vlcE s r (j + 1), uvlcWord (tab (encUvlc (r == 0)) ((cq s r j).u + 32 * (cq s r (j + 1)).u))]
      else [uvlcWord (tab (encUvlc (r == 0)) ((cq s r j).u + 32 * 0))]) ++ L)) (hb : 23 ≤ s2.bits) :
    ∃ x m2 s3, melQuad (ctx == 0 && two) m1 (tab (decVlc (r == 0)) ((s2.creg % 2 ^ 32 &&& 0x7F) + ctx)) =
        some (x, m2) ∧ (if two then x else 0) = t2 s r j two ∧
      s2.advance ((t2 s r j two &&& 0xF) >>> 1) = some s3 ∧
      EvRep m2 (melU r (cq s r j).u (u2 s r j two) ++ M) ∧
      Rep revDisc 0 s3 (bitsLE (uvlcWord (tab (encUvlc (r == 0)) ((cq s r j).u + 32 * u2 s r j two))).2
        (uvlcWord (tab (encUvlc (r == 0)) ((cq s r j).u + 32 * u2 s r j two))).1 ++ L) ∧ 16 ≤ s3.bits := by
  cases two with
  | false =>
    simp only [Bool.and_false, melQuad, Bool.false_eq_true, if_false]
    refine ⟨_, m1, s2, rfl, rfl, ?_, ?_, ?_, by omega⟩
    · simp [t2, BitRd.advance]
    · simpa [melU, u2] using hm1
    · simpa [u2, fieldBits] using r2
  | true =>
    have c1 := hs.coded r (j + 1)
    have hl1 := c1.len_le
    simp only [if_true] at r2 hm1
    rw [fieldBits_cons, List.append_assoc] at r2
    have p1 : s2.creg % 2 ^ (cq s r (j + 1)).len = (cq s r (j + 1)).cwd :=
      r2.peek c1.cwd_lt (by omega)
    rw [List.append_assoc] at hm1
    obtain ⟨m2, q2, hm2⟩ := quad_step hs r (j + 1) (hc rfl) hm1 p1
    obtain ⟨s3, a3, r3, b3, -, -⟩ := r2.advance_spec (bitsLE_length _ _) (by simp only [vlcE]; omega)
    simp only [vlcE] at a3 b3
    simp only [Bool.and_true, if_true]
    rw [q2]
    refine ⟨_, m2, s3, rfl, rfl, ?_, hm2, ?_, by omega⟩
    · simp only [t2, if_true, tOf_len _ hl1, a3]
    · simpa [u2, fieldBits] using r3

theorem initPair_spec {s : Nat → Nat → Nat} {QW : Nat} (hs : SOk s QW) (b j : Nat) (two : Bool) {st : Dec1}
    {M L : List Bool} (hm : EvRep st.mel (pairMel s 0 j two ++ M))
    (hv : Rep revDisc 0 st.vlc (fieldBits (pairVlc s 0 j two) ++ L)) (hc : ctxS s 0 j = 2 * st.ctx) :
    ∃ st', decInitPair b two st = some st' ∧ EvRep st'.mel M ∧ Rep revDisc 0 st'.vlc L ∧
      (two = true → ctxS s 0 (j + 2) = 2 * st'.ctx) ∧
      st'.sp = Function.update (Function.update (Function.update (Function.update st.sp b (tOf (cq s 0 j)))
        (b + 2) (t2 s 0 j two)) (b + 1) (1 + (cq s 0 j).u)) (b + 3) (1 + u2 s 0 j two) := by
  have c0 := hs.coded 0 j
  obtain ⟨s1, f1, r1, b1⟩ := hv.revFetch_spec
  rw [pairVlc, fieldBits_cons, List.append_assoc] at r1
  have hl0 := c0.len_le
  have p0 : s1.creg % 2 ^ (cq s 0 j).len = (cq s 0 j).cwd := r1.peek c0.cwd_lt (by omega)
  rw [pairMel, List.append_assoc] at hm
  obtain ⟨m1, q1, hm1⟩ := quad_step hs 0 j hc hm p0
  obtain ⟨s2, a2, r2, b2, -, -⟩ := r1.advance_spec (bitsLE_length _ _) (by simp only [vlcE]; omega)
  simp only [vlcE] at a2 b2
  have hctx1 : ctxS s 0 (j + 1) = 2 * decCtx0 (tOf (cq s 0 j)) := by
    rw [ctxS, rhoW_succ, ← decCtx0_eq (hs.rho_lt 0 j) (hs.tOf_rho 0 j), Nat.shiftLeft_eq, Nat.shiftLeft_eq]
    ring
  have hu0 := hs.u_le 0 j
  obtain ⟨x, m2, s3, q2, q3, a3, hm2, r3, b3⟩ := second_spec hs 0 j two (fun _ => hctx1) hm1 r2
    (by omega)
  have hu2 : u2 s 0 j two ≤ 30 := by
    unfold u2; split_ifs
    · exact hs.u_le 0 (j + 1)
    · omega
  have t2u : t2 s 0 j two &&& 1 = if u2 s 0 j two ≠ 0 then 1 else 0 := by
    unfold t2 u2
    cases two
    · simp
    · simp only [if_true]; exact tOf_uoff _
  have hon : ((tOf (cq s 0 j) &&& 1) == 1 && (t2 s 0 j two &&& 1) == 1) =
      decide ((cq s 0 j).u ≠ 0 ∧ u2 s 0 j two ≠ 0) := by
    rw [beq_one _ _ (tOf_uoff _), beq_one _ _ t2u, Bool.decide_and]
  have hmu : melU 0 (cq s 0 j).u (u2 s 0 j two) =
      if decide ((cq s 0 j).u ≠ 0 ∧ u2 s 0 j two ≠ 0) then [decide (2 < min (cq s 0 j).u (u2 s 0 j two))] else [] := by
    unfold melU
    by_cases hx : (cq s 0 j).u ≠ 0 ∧ u2 s 0 j two ≠ 0
    · rw [if_pos ⟨rfl, hx⟩, decide_eq_true hx]; rfl
    · rw [if_neg (fun h => hx h.2), decide_eq_false hx]; rfl
  rw [hmu] at hm2
  obtain ⟨m3, q4, hm3⟩ := melQuad_event 0x40 hm2
  obtain ⟨s4, e4, r4⟩ := uvlcRead_spec true (by omega) (by omega) r3 b3
  have hoff : ((tOf (cq s 0 j) &&& 1) <<< 6) + ((t2 s 0 j two &&& 1) <<< 7) +
      (if decide ((cq s 0 j).u ≠ 0 ∧ u2 s 0 j two ≠ 0) then
        (if decide ((cq s 0 j).u ≠ 0 ∧ u2 s 0 j two ≠ 0) = true ∧
          decide (2 < min (cq s 0 j).u (u2 s 0 j two)) = false then 0 else 0x40) else 0) =
      uvlcOff true (cq s 0 j).u (u2 s 0 j two) := by
    rw [tOf_uoff, t2u]
    unfold uvlcOff
    generalize (cq s 0 j).u = a
    generalize u2 s 0 j two = b
    by_cases ha : a = 0
    · by_cases hb : b = 0 <;> simp [ha, hb]
    · by_cases hb : b = 0
      · simp [ha, hb]
      · by_cases hc : 2 < min a b
        · simp only [ne_eq, ha, hb, not_false_eq_true, if_true, and_self, decide_true, hc]
          decide
        · simp only [ne_eq, ha, hb, not_false_eq_true, if_true, and_self, decide_true, hc]
          decide
  refine ⟨⟨m3, s4, decCtx0 (t2 s 0 j two), _⟩, ?_, hm3, r4, ?_, rfl⟩
  · unfold decInitPair
    rw [f1]
    simp only
    have q1' : melQuad (st.ctx == 0) st.mel (tab decVlc0 ((s1.creg % 2 ^ 32 &&& 0x7F) + st.ctx)) =
      some (tOf (cq s 0 j), m1) := q1
    rw [q1']
    simp only [Option.bind_eq_bind, Option.bind_some]
    rw [tOf_len _ hl0, a2]
    simp only [Option.bind_some]
    rw [show decVlc0 = decVlc (0 == 0) from rfl, q2]
    simp only [Option.bind_some]
    rw [q3, a3]
    simp only [Option.bind_some]
    rw [hon, q4]
    simp only [Option.bind_some]
    rw [hoff]
    have e4' : uvlcRead decUvlc0 (uvlcOff true (cq s 0 j).u (u2 s 0 j two)) s3 =
      some (((cq s 0 j).u, u2 s 0 j two), s4) := e4
    rw [e4']
    simp only [Option.bind_some]
    rw [Nat.mod_eq_of_lt (show 1 + (cq s 0 j).u < 2 ^ 16 by omega),
      Nat.mod_eq_of_lt (show 1 + u2 s 0 j two < 2 ^ 16 by omega)]
    rfl
  · intro h2
    subst h2
    simp only [t2, if_true]
    rw [ctxS, show j + 2 = (j + 1) + 1 from rfl, rhoW_succ,
      ← decCtx0_eq (hs.rho_lt 0 (j + 1)) (hs.tOf_rho 0 (j + 1)), Nat.shiftLeft_eq, Nat.shiftLeft_eq]
    ring

/-- The line-pair above, as the decoder finds it in the scratch array. -/
def PrevOk (s : Nat → Nat → Nat) (QW sstr r : Nat) (sp : Nat → Nat) : Prop :=
  ∀ k ≤ QW, sp (r * sstr + 2 * k) &&& 0xF0 = rhoQ s r k <<< 4

theorem pair_spec {s : Nat → Nat → Nat} {QW sstr : Nat} (hs : SOk s QW) (hss : 2 * QW < sstr) (r j : Nat) (two : Bool)
    (hj : j < QW) (h2 : two = true → j + 1 < QW) {st : Dec1}
    {M L : List Bool} (hp : PrevOk s QW sstr r st.sp) (hm : EvRep st.mel (pairMel s (r + 1) j two ++ M))
    (hv : Rep revDisc 0 st.vlc (fieldBits (pairVlc s (r + 1) j two) ++ L)) (hc : ctxS s (r + 1) j = 2 * st.ctx) :
    ∃ st', decPair sstr ((r + 1) * sstr + 2 * j) two st = some st' ∧ EvRep st'.mel M ∧ Rep revDisc 0 st'.vlc L ∧
      (j + 2 < QW → two = true → ctxS s (r + 1) (j + 2) = 2 * st'.ctx) ∧
      st'.sp = Function.update (Function.update (Function.update (Function.update st.sp ((r + 1) * sstr + 2 * j)
        (tOf (cq s (r + 1) j))) ((r + 1) * sstr + 2 * j + 2) (t2 s (r + 1) j two))
        ((r + 1) * sstr + 2 * j + 1) (cq s (r + 1) j).u) ((r + 1) * sstr + 2 * j + 3) (u2 s (r + 1) j two) := by
  have c0 := hs.coded (r + 1) j
  obtain ⟨s1, f1, r1, b1⟩ := hv.revFetch_spec
  rw [pairVlc, fieldBits_cons, List.append_assoc] at r1
  have hl0 := c0.len_le
  have p0 : s1.creg % 2 ^ (cq s (r + 1) j).len = (cq s (r + 1) j).cwd := r1.peek c0.cwd_lt (by omega)
  rw [pairMel, List.append_assoc] at hm
  obtain ⟨m1, q1, hm1⟩ := quad_step hs (r + 1) j hc hm p0
  obtain ⟨s2, a2, r2, b2, -, -⟩ := r1.advance_spec (bitsLE_length _ _) (by simp only [vlcE]; omega)
  simp only [vlcE] at a2 b2
  have hb : (r + 1) * sstr = r * sstr + sstr := by ring
  have i0 : (r + 1) * sstr + 2 * j - sstr = r * sstr + 2 * j := by omega
  have i1 : (r + 1) * sstr + 2 * j + 2 - sstr = r * sstr + 2 * (j + 1) := by omega
  have i2 : (r + 1) * sstr + 2 * j + 4 - sstr = r * sstr + 2 * (j + 2) := by omega
  have i3 : (r + 1) * sstr + 2 * j + 6 - sstr = r * sstr + 2 * (j + 3) := by omega
  have hctx1 : two = true → ctxS s (r + 1) (j + 1) = 2 * decCtx (tOf (cq s (r + 1) j)) (st.sp (r * sstr + 2 * j))
      (st.sp (r * sstr + 2 * (j + 1))) (st.sp (r * sstr + 2 * (j + 2))) := by
    intro ht
    have := h2 ht
    rw [ctxS, rhoW_succ, rhoW_succ]
    exact decCtx_eq (hs.rho_lt _ _) (hs.rho_lt _ _) (hs.rho_lt _ _) (hs.rho_lt _ _) (hs.tOf_rho _ _)
      (hp j (by omega)) (hp (j + 1) (by omega)) (hp (j + 2) (by omega))
  obtain ⟨x, m2, s3, q2, q3, a3, hm2, r3, b3⟩ := second_spec hs (r + 1) j two hctx1 hm1 r2 (by omega)
  have hu0 := hs.u_le (r + 1) j
  have hu2 : u2 s (r + 1) j two ≤ 30 := by
    unfold u2; split_ifs
    · exact hs.u_le (r + 1) (j + 1)
    · omega
  have t2u : t2 s (r + 1) j two &&& 1 = if u2 s (r + 1) j two ≠ 0 then 1 else 0 := by
    unfold t2 u2
    cases two
    · simp
    · simp only [if_true]; exact tOf_uoff _
  rw [show melU (r + 1) (cq s (r + 1) j).u (u2 s (r + 1) j two) = [] by simp [melU], List.nil_append] at hm2
  obtain ⟨s4, e4, r4⟩ := uvlcRead_spec false (by omega) (by omega) r3 b3
  have hoff : ((tOf (cq s (r + 1) j) &&& 1) <<< 6) + ((t2 s (r + 1) j two &&& 1) <<< 7) =
      uvlcOff false (cq s (r + 1) j).u (u2 s (r + 1) j two) := by
    rw [tOf_uoff, t2u]
    unfold uvlcOff
    generalize (cq s (r + 1) j).u = a
    generalize u2 s (r + 1) j two = b
    by_cases ha : a = 0 <;> by_cases hb : b = 0 <;> simp [ha, hb]
  have hsp : ∀ k ≤ QW, Function.update st.sp ((r + 1) * sstr + 2 * j) (tOf (cq s (r + 1) j)) (r * sstr + 2 * k) =
      st.sp (r * sstr + 2 * k) := by
    intro k hk
    rw [Function.update_of_ne]
    omega
  refine ⟨⟨m2, s4, decCtx (t2 s (r + 1) j two)
      (Function.update st.sp ((r + 1) * sstr + 2 * j) (tOf (cq s (r + 1) j)) (r * sstr + 2 * (j + 1)))
      (Function.update st.sp ((r + 1) * sstr + 2 * j) (tOf (cq s (r + 1) j)) (r * sstr + 2 * (j + 2)))
      (Function.update st.sp ((r + 1) * sstr + 2 * j) (tOf (cq s (r + 1) j)) (r * sstr + 2 * (j + 3))), _⟩,
    ?_, hm2, r4, ?_, rfl⟩
  · unfold decPair
    rw [f1]
    simp only
    have q1' : melQuad (st.ctx == 0) st.mel (tab decVlc1 ((s1.creg % 2 ^ 32 &&& 0x7F) + st.ctx)) =
      some (tOf (cq s (r + 1) j), m1) := q1
    rw [q1']
    simp only [Option.bind_eq_bind, Option.bind_some]
    rw [tOf_len _ hl0, a2]
    simp only [Option.bind_some]
    rw [i0, i1, i2, i3]
    rw [show decVlc1 = decVlc (r + 1 == 0) from rfl, q2]
    simp only [Option.bind_some]
    rw [q3, a3]
    simp only [Option.bind_some]
    rw [hoff]
    have e4' : uvlcRead decUvlc1 (uvlcOff false (cq s (r + 1) j).u (u2 s (r + 1) j two)) s3 =
      some (((cq s (r + 1) j).u, u2 s (r + 1) j two), s4) := e4
    rw [e4']
    simp only [Option.bind_some]
    rw [Nat.mod_eq_of_lt (show (cq s (r + 1) j).u < 2 ^ 16 by omega),
      Nat.mod_eq_of_lt (show u2 s (r + 1) j two < 2 ^ 16 by omega)]
    rfl
  · intro hj2 ht
    subst ht
    simp only [t2, if_true]
    rw [hsp _ (by omega), hsp _ (by omega), hsp _ (by omega), ctxS, show j + 2 = (j + 1) + 1 from rfl, rhoW_succ, rhoW_succ]
    exact decCtx_eq (hs.rho_lt _ _) (hs.rho_lt _ _) (hs.rho_lt _ _) (hs.rho_lt _ _) (hs.tOf_rho _ _)
      (hp (j + 1) (by omega)) (hp (j + 2) (by omega)) (hp (j + 3) (by omega))

/-! ## Line-pairs -/

/-- The scratch array holds quad `(r, k)`. -/
def Has (s : Nat → Nat → Nat) (sstr : Nat) (sp : Nat → Nat) (r k : Nat) : Prop :=
  sp (r * sstr + 2 * k) = tOf (cq s r k) ∧
    sp (r * sstr + 2 * k + 1) = (cq s r k).u + if r = 0 then 1 else 0

/-- State before pair `i` of line-pair `r`, the events `M` and bits `L` following the line-pairs up to `r`. -/
structure DInv (s : Nat → Nat → Nat) (QW sstr r : Nat) (M L : List Bool) (i : Nat) (st : Dec1) : Prop where
  mel : ∃ X, overRow (pairMel s r) QW ((QW + 1) / 2) = overRow (pairMel s r) QW i ++ X ∧ EvRep st.mel (X ++ M)
  vlc : ∃ X, overRow (pairVlc s r) QW ((QW + 1) / 2) = overRow (pairVlc s r) QW i ++ X ∧
    Rep revDisc 0 st.vlc (fieldBits X ++ L)
  ctx : 2 * i < QW → ctxS s r (2 * i) = 2 * st.ctx
  rows : ∀ r' < r, ∀ k < QW, Has s sstr st.sp r' k
  row : ∀ k < QW, k < 2 * i → Has s sstr st.sp r k
  last : QW < 2 * i → st.sp (r * sstr + 2 * QW) = 0
  prev : ∀ r', r = r' + 1 → PrevOk s QW sstr r' st.sp

theorem overRow_split {α : Type} (f : Nat → Bool → List α) (QW i n : Nat) (hi : i < n) :
    ∃ Y, overRow f QW n = overRow f QW (i + 1) ++ Y := by
  induction n with
  | zero => omega
  | succ n ih =>
    rcases Nat.lt_or_ge i n with h | h
    · obtain ⟨Y, hY⟩ := ih h
      exact ⟨Y ++ f (2 * n) (decide (2 * n + 1 < QW)), by rw [overRow_succ, hY, List.append_assoc]⟩
    · obtain rfl : i = n := by omega
      exact ⟨[], by simp⟩

/-- What the stream still holds before pair `i`, split at that pair. -/
theorem overRow_next {α : Type} {f : Nat → Bool → List α} {QW i n : Nat} {X : List α} (hi : i < n)
    (h : overRow f QW n = overRow f QW i ++ X) :
    ∃ Y, X = f (2 * i) (decide (2 * i + 1 < QW)) ++ Y ∧ overRow f QW n = overRow f QW (i + 1) ++ Y := by
  obtain ⟨Y, hY⟩ := overRow_split f QW i n hi
  refine ⟨Y, ?_, hY⟩
  rw [hY, overRow_succ, List.append_assoc] at h
  exact (List.append_cancel_left h).symm

/-- The scratch array after a pair: what the writes change and what they keep. -/
theorem sp_after {sp : Nat → Nat} {b a0 a1 a2 a3 : Nat} :
    let sp' := Function.update (Function.update (Function.update (Function.update sp b a0) (b + 2) a2) (b + 1) a1) (b + 3) a3
    sp' b = a0 ∧ sp' (b + 1) = a1 ∧ sp' (b + 2) = a2 ∧ sp' (b + 3) = a3 ∧ ∀ i, i < b ∨ b + 3 < i → sp' i = sp i := by
  simp only [Function.update, eq_rec_constant, dite_eq_ite]
  refine ⟨?_, ?_, ?_, ?_, ?_⟩
  · rw [if_neg (by omega), if_neg (by omega), if_neg (by omega), if_pos trivial]
  · rw [if_neg (by omega), if_pos trivial]
  · rw [if_neg (by omega), if_neg (by omega), if_pos trivial]
  · rw [if_pos trivial]
  · intro i hi
    rw [if_neg (by omega), if_neg (by omega), if_neg (by omega), if_neg (by omega)]

theorem Has.keep {s : Nat → Nat → Nat} {sstr : Nat} {sp sp' : Nat → Nat} {r k : Nat} (h : Has s sstr sp r k)
    (h1 : sp' (r * sstr + 2 * k) = sp (r * sstr + 2 * k))
    (h2 : sp' (r * sstr + 2 * k + 1) = sp (r * sstr + 2 * k + 1)) : Has s sstr sp' r k :=
  ⟨h1.trans h.1, h2.trans h.2⟩

theorem row_lt {r r' sstr : Nat} (h : r' < r) : r' * sstr + sstr ≤ r * sstr := by
  rw [← Nat.succ_mul]; exact Nat.mul_le_mul_right _ h

theorem dinv_step {s : Nat → Nat → Nat} {QW sstr r : Nat} {M L : List Bool} (hs : SOk s QW) (hss : 2 * QW < sstr)
    {i : Nat} {st : Dec1} (hi : i < (QW + 1) / 2) (h : DInv s QW sstr r M L i st) :
    ∃ st', (if r = 0 then decInitPair (4 * i) (decide (1 < QW - 2 * i)) st
        else decPair sstr (r * sstr + 4 * i) (decide (1 < QW - 2 * i)) st) = some st' ∧
      DInv s QW sstr r M L (i + 1) st' := by
  obtain ⟨X, hX, hm⟩ := h.mel
  obtain ⟨Y, hY, hv⟩ := h.vlc
  obtain ⟨X', rfl, hX'⟩ := overRow_next hi hX
  obtain ⟨Y', rfl, hY'⟩ := overRow_next hi hY
  have htw : decide (2 * i + 1 < QW) = decide (1 < QW - 2 * i) := decide_eq_decide.mpr (by omega)
  rw [htw] at hm hv
  rw [List.append_assoc] at hm
  rw [fieldBits_append, List.append_assoc] at hv
  have hc := h.ctx (by omega)
  have key : ∃ st', (if r = 0 then decInitPair (4 * i) (decide (1 < QW - 2 * i)) st
        else decPair sstr (r * sstr + 4 * i) (decide (1 < QW - 2 * i)) st) = some st' ∧
      EvRep st'.mel (X' ++ M) ∧ Rep revDisc 0 st'.vlc (fieldBits Y' ++ L) ∧
      (2 * i + 2 < QW → ctxS s r (2 * i + 2) = 2 * st'.ctx) ∧
      st'.sp = Function.update (Function.update (Function.update (Function.update st.sp (r * sstr + 4 * i)
        (tOf (cq s r (2 * i)))) (r * sstr + 4 * i + 2) (t2 s r (2 * i) (decide (1 < QW - 2 * i))))
        (r * sstr + 4 * i + 1) ((cq s r (2 * i)).u + if r = 0 then 1 else 0)) (r * sstr + 4 * i + 3)
          (u2 s r (2 * i) (decide (1 < QW - 2 * i)) + if r = 0 then 1 else 0) := by
    cases r with
    | zero =>
      obtain ⟨st', e, g1, g2, g3, g4⟩ := initPair_spec hs (4 * i) (2 * i) _ hm hv hc
      refine ⟨st', by rw [if_pos rfl]; exact e, g1, g2, fun hj => g3 (decide_eq_true (by omega)), ?_⟩
      rw [g4]
      simp only [if_true, Nat.zero_mul, Nat.zero_add, Nat.add_comm 1]
    | succ r =>
      obtain ⟨st', e, g1, g2, g3, g4⟩ := pair_spec hs hss r (2 * i) _ (by omega)
        (fun h => by have := of_decide_eq_true h; omega) (h.prev r rfl) hm hv hc
      rw [show 2 * (2 * i) = 4 * i by ring] at e g4
      exact ⟨st', by rw [if_neg (by omega)]; exact e, g1, g2,
        fun hj => g3 hj (decide_eq_true (by omega)), by rw [g4]; simp⟩
  obtain ⟨st', e, g1, g2, g3, g4⟩ := key
  obtain ⟨w0, w1, w2, w3, w4⟩ := sp_after (sp := st.sp) (b := r * sstr + 4 * i) (a0 := tOf (cq s r (2 * i)))
    (a1 := (cq s r (2 * i)).u + if r = 0 then 1 else 0) (a2 := t2 s r (2 * i) (decide (1 < QW - 2 * i)))
    (a3 := u2 s r (2 * i) (decide (1 < QW - 2 * i)) + if r = 0 then 1 else 0)
  rw [← g4] at w0 w1 w2 w3 w4
  refine ⟨st', e, ⟨X', hX', g1⟩, ⟨Y', hY', g2⟩, fun hj => g3 (by omega), ?_, ?_, ?_, ?_⟩
  · intro r' hr' k hk
    have := row_lt (sstr := sstr) hr'
    exact (h.rows r' hr' k hk).keep (w4 _ (by omega)) (w4 _ (by omega))
  · intro k hk hk2
    rcases Nat.lt_or_ge k (2 * i) with h1 | h1
    · exact (h.row k hk h1).keep (w4 _ (by omega)) (w4 _ (by omega))
    · rcases Nat.lt_or_ge k (2 * i + 1) with h3 | h3
      · obtain rfl : k = 2 * i := by omega
        refine ⟨?_, ?_⟩
        · rw [show r * sstr + 2 * (2 * i) = r * sstr + 4 * i by ring]; exact w0
        · rw [show r * sstr + 2 * (2 * i) + 1 = r * sstr + 4 * i + 1 by ring]; exact w1
      · obtain rfl : k = 2 * i + 1 := by omega
        have ht : decide (1 < QW - 2 * i) = true := decide_eq_true (by omega)
        rw [ht] at w2 w3
        refine ⟨?_, ?_⟩
        · rw [show r * sstr + 2 * (2 * i + 1) = r * sstr + 4 * i + 2 by ring]; exact w2
        · rw [show r * sstr + 2 * (2 * i + 1) + 1 = r * sstr + 4 * i + 3 by ring]; exact w3
  · intro hl
    have hq : QW = 2 * i + 1 := by omega
    have ht : decide (1 < QW - 2 * i) = false := decide_eq_false (by omega)
    rw [ht] at w2
    rw [show r * sstr + 2 * QW = r * sstr + 4 * i + 2 by omega]
    exact w2
  · intro r' hr' k hk
    have := row_lt (sstr := sstr) (show r' < r by omega)
    rw [w4 _ (by omega)]
    exact h.prev r' hr' k hk

/-- State between line-pairs. -/
structure DRow (s : Nat → Nat → Nat) (QW sstr r : Nat) (M L : List Bool) (st : Dec1) : Prop where
  mel : EvRep st.mel M
  vlc : Rep revDisc 0 st.vlc L
  rows : ∀ r' < r, ∀ k < QW, Has s sstr st.sp r' k
  prev : ∀ r', r = r' + 1 → PrevOk s QW sstr r' st.sp

theorem foldlM_range {α : Type} (P : Nat → α → Prop) (f : α → Nat → Option α) (n : Nat) (a : α) (h0 : P 0 a)
    (hs : ∀ i a, i < n → P i a → ∃ a', f a i = some a' ∧ P (i + 1) a') :
    ∃ a', (List.range n).foldlM f a = some a' ∧ P n a' := by
  induction n with
  | zero => exact ⟨a, rfl, h0⟩
  | succ n ih =>
    obtain ⟨a1, e1, p1⟩ := ih fun i a hi => hs i a (by omega)
    obtain ⟨a2, e2, p2⟩ := hs n a1 (by omega) p1
    refine ⟨a2, ?_, p2⟩
    rw [List.range_succ, List.foldlM_append, e1]
    simp only [Option.bind_eq_bind, Option.bind_some, List.foldlM_cons, List.foldlM_nil, e2]
    rfl

theorem dinv_end {s : Nat → Nat → Nat} {QW sstr r : Nat} {M L : List Bool} (hs : SOk s QW) (hss : 2 * QW < sstr)
    {st : Dec1} (h : DInv s QW sstr r M L ((QW + 1) / 2) st) :
    DRow s QW sstr (r + 1) M L { st with sp := guard4 st.sp (r * sstr + 4 * ((QW + 1) / 2)) } := by
  obtain ⟨X, hX, hm⟩ := h.mel
  obtain ⟨Y, hY, hv⟩ := h.vlc
  obtain rfl : X = [] := by simpa using hX
  obtain rfl : Y = [] := by simpa using hY
  have keep : ∀ i, i < r * sstr + 4 * ((QW + 1) / 2) → guard4 st.sp (r * sstr + 4 * ((QW + 1) / 2)) i = st.sp i := by
    intro i hi
    unfold guard4; rw [if_neg (by omega)]
  have hrows : ∀ r' < r + 1, ∀ k < QW, Has s sstr st.sp r' k := by
    intro r' hr' k hk
    rcases Nat.lt_or_ge r' r with h1 | h1
    · exact h.rows r' h1 k hk
    · obtain rfl : r' = r := by omega
      exact h.row k hk (by omega)
  have hmul : ∀ r' < r + 1, r' * sstr ≤ r * sstr := fun r' hr' => Nat.mul_le_mul_right _ (by omega)
  refine ⟨by simpa using hm, by simpa [fieldBits] using hv, ?_, ?_⟩
  · intro r' hr' k hk
    have := hmul r' hr'
    exact (hrows r' hr' k hk).keep (keep _ (by omega)) (keep _ (by omega))
  · intro r' hr' k hk
    obtain rfl : r' = r := by omega
    simp only
    rcases Nat.lt_or_ge k QW with h1 | h1
    · rw [keep _ (by omega), (hrows r' (by omega) k h1).1, hs.tOf_rho]
    · obtain rfl : k = QW := by omega
      rw [hs.rho_out r' le_rfl]
      have : guard4 st.sp (r' * sstr + 4 * ((k + 1) / 2)) (r' * sstr + 2 * k) = 0 := by
        by_cases ho : k % 2 = 1
        · rw [keep _ (by omega)]
          exact h.last (by omega)
        · unfold guard4; rw [if_pos (by omega)]
      rw [this]; rfl

theorem decInitRow_spec {s : Nat → Nat → Nat} {QW sstr : Nat} {M L : List Bool} (hs : SOk s QW) (hss : 2 * QW < sstr)
    {st : Dec1} (hctx : st.ctx = 0) (hm : EvRep st.mel (overRow (pairMel s 0) QW ((QW + 1) / 2) ++ M))
    (hv : Rep revDisc 0 st.vlc (fieldBits (overRow (pairVlc s 0) QW ((QW + 1) / 2)) ++ L)) :
    ∃ st', decInitRow QW st = some st' ∧ DRow s QW sstr 1 M L st' := by
  have h0 : DInv s QW sstr 0 M L 0 st := by
    refine ⟨⟨_, by simp [overRow], hm⟩, ⟨_, by simp [overRow], hv⟩, fun _ => ?_, by simp, by simp, by omega, by omega⟩
    rw [hctx]; simp [ctxS, rhoW]
  obtain ⟨st', e, h'⟩ := foldlM_range (DInv s QW sstr 0 M L)
    (fun st i => decInitPair (4 * i) (decide (1 < QW - 2 * i)) st) _ st h0
    (fun i st hi h => by have := dinv_step hs hss hi h; simpa using this)
  refine ⟨_, ?_, dinv_end hs hss h'⟩
  unfold decInitRow
  rw [e]
  simp

theorem decRow_spec {s : Nat → Nat → Nat} {QW sstr r : Nat} {M L : List Bool} (hs : SOk s QW) (hss : 2 * QW < sstr)
    (hQ : 0 < QW) {st : Dec1} (h : DRow s QW sstr (r + 1) (overRow (pairMel s (r + 1)) QW ((QW + 1) / 2) ++ M)
      (fieldBits (overRow (pairVlc s (r + 1)) QW ((QW + 1) / 2)) ++ L) st) :
    ∃ st', decRow QW sstr (r + 1) st = some st' ∧ DRow s QW sstr (r + 2) M L st' := by
  have h0 : DInv s QW sstr (r + 1) M L 0 (decRowHead sstr ((r + 1) * sstr) st) := by
    refine ⟨⟨_, by simp [overRow], h.mel⟩, ⟨_, by simp [overRow], h.vlc⟩, fun _ => ?_, h.rows, by simp, by omega, h.prev⟩
    have hp := h.prev r rfl
    have hb : (r + 1) * sstr = r * sstr + sstr := by ring
    have := decCtx_eq (w := 0) (nw := 0) (t := 0) (tnw := 0) (by omega) (by omega) (hs.rho_lt r 0) (hs.rho_lt r 1)
      rfl rfl (hp 0 (by omega)) (hp 1 (by omega))
    simp only [ctxS, rhoW, Nat.mul_zero, if_true, decRowHead]
    rw [show (r + 1) * sstr - sstr = r * sstr + 2 * 0 by omega,
      show (r + 1) * sstr + 2 - sstr = r * sstr + 2 * 1 by omega, this]
    simp [decCtx]
  obtain ⟨st', e, h'⟩ := foldlM_range (DInv s QW sstr (r + 1) M L)
    (fun st i => decPair sstr ((r + 1) * sstr + 4 * i) (decide (1 < QW - 2 * i)) st) _ _ h0
    (fun i st hi h => by have := dinv_step hs hss hi h; simpa using this)
  refine ⟨_, ?_, dinv_end hs hss h'⟩
  unfold decRow
  simp only
  rw [e]
  rfl

theorem overBlock_split {α : Type} (f : Nat → Nat → Bool → List α) (QW i n : Nat) (hi : i < n) :
    ∃ Y, overBlock f QW n = overBlock f QW i ++ overRow (f i) QW ((QW + 1) / 2) ++ Y := by
  induction n with
  | zero => omega
  | succ n ih =>
    rcases Nat.lt_or_ge i n with h | h
    · obtain ⟨Y, hY⟩ := ih h
      exact ⟨Y ++ overRow (f n) QW ((QW + 1) / 2), by rw [overBlock_succ, hY, List.append_assoc]⟩
    · obtain rfl : i = n := by omega
      exact ⟨[], by simp [overBlock_succ]⟩

theorem overBlock_next {α : Type} {f : Nat → Nat → Bool → List α} {QW i n : Nat} {X : List α} (hi : i < n)
    (h : overBlock f QW n = overBlock f QW i ++ X) :
    ∃ Y, X = overRow (f i) QW ((QW + 1) / 2) ++ Y ∧ overBlock f QW n = overBlock f QW (i + 1) ++ Y := by
  obtain ⟨Y, hY⟩ := overBlock_split f QW i n hi
  refine ⟨Y, ?_, by rw [overBlock_succ, hY]⟩
  rw [hY, List.append_assoc] at h
  exact (List.append_cancel_left h).symm

/-- Step 1 fills the scratch array with every quad of the block. -/
theorem decStep1_spec {s : Nat → Nat → Nat} {QW QH sstr pm pv : Nat} (hs : SOk s QW) (hss : 2 * QW < sstr)
    (hQ : 0 < QW) (hH : 0 < QH) {seg : List Nat} {m : MelSt} {v : BitRd}
    (e1 : melStart pm seg = some m) (e2 : revInit pv seg = some v)
    (hm : EvRep m (overBlock (pairMel s) QW QH)) (hv : Rep revDisc 0 v (fieldBits (overBlock (pairVlc s) QW QH)))
    (sp : Nat → Nat) :
    ∃ sp', decStep1 QW QH sstr pm pv seg sp = some sp' ∧ ∀ r < QH, ∀ k < QW, Has s sstr sp' r k := by
  obtain ⟨M0, hM0, hM0'⟩ := overBlock_next (f := pairMel s) (QW := QW) (i := 0) hH (by simp [overBlock]; rfl)
  obtain ⟨L0, hL0, hL0'⟩ := overBlock_next (f := pairVlc s) (QW := QW) (i := 0) hH (by simp [overBlock]; rfl)
  have hM : overBlock (pairMel s) QW QH = overRow (pairMel s 0) QW ((QW + 1) / 2) ++ M0 := by
    rw [hM0', overBlock_one]
  have hL : overBlock (pairVlc s) QW QH = overRow (pairVlc s 0) QW ((QW + 1) / 2) ++ L0 := by
    rw [hL0', overBlock_one]
  rw [hM] at hm
  rw [hL, fieldBits_append] at hv
  obtain ⟨st1, f1, d1⟩ := decInitRow_spec (sstr := sstr) (st := ⟨m, v, 0, sp⟩) hs hss rfl hm hv
  have key := foldlM_range (fun i st => ∃ M L, overBlock (pairMel s) QW QH = overBlock (pairMel s) QW (i + 1) ++ M ∧
      overBlock (pairVlc s) QW QH = overBlock (pairVlc s) QW (i + 1) ++ L ∧
      DRow s QW sstr (i + 1) M (fieldBits L) st)
    (fun st i => decRow QW sstr (i + 1) st) (QH - 1) st1 ⟨M0, L0, hM0', hL0', d1⟩ (by
      rintro i st hi ⟨M, L, hM, hL, d⟩
      obtain ⟨M', rfl, hM'⟩ := overBlock_next (show i + 1 < QH by omega) hM
      obtain ⟨L', rfl, hL'⟩ := overBlock_next (show i + 1 < QH by omega) hL
      rw [fieldBits_append] at d
      obtain ⟨st', e, d'⟩ := decRow_spec hs hss hQ d
      exact ⟨st', e, M', L', hM', hL', d'⟩)
  obtain ⟨st2, f2, M, L, -, -, d2⟩ := key
  refine ⟨st2.sp, ?_, fun r hr k hk => d2.rows r (by omega) k hk⟩
  unfold decStep1
  rw [e1, e2]
  simp only [Option.bind_eq_bind, Option.bind_some]
  rw [f1]
  simp only [Option.bind_some]
  rw [f2]
  rfl

end Verif.Ht
