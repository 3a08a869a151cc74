import Verif.Ebcot.MqSafe
/-
From the start of a segment to its last symbol.
-/
namespace Verif.Ebcot
open Std (vr wr bitsAt OkCode outV outW byteAt)

theorem rel_init {buf cod : List Nat} {pos : Nat} (hb : Holds buf cod pos) (hok : OkCode cod) (s : Mq)
    {full : List Nat} (hg : Std.Good (Std.initEnc s.sigma s.mps) full) (hfull : ∀ r, vr full r = vr cod r ∧ wr full r = wr cod r) :
    ∃ s0, mqInit buf s pos cod.length false = .ok s0 ∧ Rel cod pos s0 (Std.initEnc s.sigma s.mps) := by
  have hr := Std.ready_init s.sigma s.mps
  have hfit := Fits.upTo (Std.Good.fits (by exact hr.inv.ct) (by exact hr.inv.ctw) hg hfull)
  have hbase : Std.base (Std.initEnc s.sigma s.mps) = 0 := by simp [Std.base, Std.initEnc, outV]
  have hsc : Std.sc (Std.initEnc s.sigma s.mps) = 0 := by simp [Std.sc, Std.initEnc, outW]
  have hA : (Std.initEnc s.sigma s.mps).A = 0x8000 := rfl
  rw [hbase, hsc, hA] at hfit
  unfold mqInit
  simp only [Bool.false_eq_true, if_false]
  have a0 : At cod pos { s with A := aregMin, C := 0, T := 0, L := pos, Lmax := pos + cod.length } 0 0 0 0 := by
    refine ⟨rfl, by simp, by omega, fun _ => ⟨fun x => absurd x (by norm_num), fun x => ?_⟩, by simp [vr], by simp [wr]⟩
    exact absurd x (by simp [bitsAt])
  obtain ⟨d1, e1, a1, hA1, s1, -⟩ := fill_spec hb hok a0 (by norm_num)
  rw [e1]
  simp only [Except.bind]
  have h8 := a1.t8
  have hw1 : wr cod 1 = 8 := by simp [wr, bitsAt]
  have ht1 : d1.t = 8 := by have := a1.wid; rw [hw1] at this; omega
  have hv := a1.val
  have hup := hfit 1
  rw [hw1] at hup
  have hC1 : d1.C < 256 := by
    rw [ht1] at hv
    norm_num at hv
    rw [← hv] at hup
    norm_num at hup
    omega
  have hc8 : d1.C * 2 ^ 8 < 2 ^ 16 := by linarith
  rw [ht1, chk_ok (lt_trans hc8 (by norm_num))]
  simp only
  rw [ht1] at a1
  have a2 : At cod pos { d1 with t := 8, C := d1.C * 2 ^ 8 } (0 * 2 ^ 8) (0 + 8) 1 (8 - 8) := a1.shift (le_refl _) rfl rfl rfl rfl
  obtain ⟨d2, e2, a3, hA2, s2, t2⟩ := fill_spec hb hok a2 (lt_trans hc8 (by norm_num))
  rw [e2]
  simp only
  have a4 : At cod pos { d2 with C := d2.C * 2 ^ 7, t := d2.t - 7 } (0 * 2 ^ 8 * 2 ^ 7) (0 + 8 + 7) 2 (d2.t - 7) :=
    a3.shift (by omega) rfl rfl rfl rfl
  norm_num at a4 hfit
  have hlt : d2.C * 128 < 8388608 := a4.lt hfit
  rw [chk_ok (by norm_num; omega)]
  refine ⟨_, rfl, ⟨2, ?_⟩, ?_, ?_, ?_⟩
  · rw [hbase, hsc]
    norm_num
    exact a4
  · show d2.A = _
    rw [hA2]
    show d1.A = _
    rw [hA1, hA]
    norm_num [aregMin]
  · show d2.sigma = _
    rw [s2.1]
    show d1.sigma = _
    rw [s1.1]; rfl
  · show d2.mps = _
    rw [s2.2]
    show d1.mps = _
    rw [s1.2]; rfl

/-- The decoder is where the encoder was when `xs` was still to come; `fin` is where it ends. -/
def Reads (buf : List Nat) (d : Mq) (xs : List (Nat × Nat)) (fin : Std.Enc) : Prop :=
  ∃ cod pos e, Holds buf cod pos ∧ cod = Std.flush (Std.encodeAll e xs) ∧ Std.Ready e ∧ Rel cod pos d e ∧ CtxOk e.I e.MPS ∧
    (∀ x ∈ xs, x.1 < 19 ∧ x.2 ≤ 1) ∧ Std.encodeAll e xs = fin

theorem Reads.step {buf : List Nat} {d : Mq} {cx b : Nat} {xs : List (Nat × Nat)} {fin : Std.Enc} (h : Reads buf d ((cx, b) :: xs) fin) :
    ∃ d', decode buf d cx = .ok (b, d') ∧ Reads buf d' xs fin := by
  obtain ⟨cod, pos, e, hb, hcod, hr, hrel, hctx, hx, hfin⟩ := h
  obtain ⟨x1, x2⟩ := hx (cx, b) (List.mem_cons_self ..)
  have hready : Std.Ready (Std.encode e cx b) := by
    obtain ⟨up, n, hc, -⟩ := Std.encode_spec hr cx b
    exact hc.ready
  obtain ⟨hok, full, hg, hfull⟩ := Std.code_good xs _ hready
  have hcod' : cod = Std.flush (Std.encodeAll (Std.encode e cx b) xs) := hcod
  rw [← hcod'] at hok hfull
  obtain ⟨⟨d1, e1, r1⟩, hctx1⟩ := decode_step hb hok hr hrel hctx x1 x2 hg hfull
  exact ⟨d1, e1, cod, pos, _, hb, hcod', hready, r1, hctx1, fun y hy => hx y (List.mem_cons_of_mem _ hy), hfin⟩

theorem Reads.done {buf : List Nat} {d : Mq} {fin : Std.Enc} (h : Reads buf d [] fin) :
    d.sigma = fin.I ∧ d.mps = fin.MPS ∧ CtxOk fin.I fin.MPS := by
  obtain ⟨cod, pos, e, hb, hcod, hr, hrel, hctx, hx, hfin⟩ := h
  have hfin' : e = fin := hfin
  rw [← hfin']
  exact ⟨hrel.i, hrel.m, hctx⟩

theorem Reads.all {buf : List Nat} {d : Mq} {xs ys : List (Nat × Nat)} {fin : Std.Enc} (h : Reads buf d (xs ++ ys) fin) :
    ∃ d', decodeAll buf d (xs.map Prod.fst) = .ok (xs.map Prod.snd, d') ∧ Reads buf d' ys fin := by
  induction xs generalizing d with
  | nil => exact ⟨d, rfl, h⟩
  | cons x xs ih =>
    obtain ⟨d1, e1, h1⟩ := Reads.step (cx := x.1) (b := x.2) h
    obtain ⟨d2, e2, h2⟩ := ih h1
    refine ⟨d2, ?_, h2⟩
    simp only [List.map_cons, decodeAll, e1, Except.bind, e2, Except.map]

theorem Reads.init (pre post : List Nat) (s : Mq) (hs : CtxOk s.sigma s.mps) (xs : List (Nat × Nat)) (hx : ∀ x ∈ xs, x.1 < 19 ∧ x.2 ≤ 1) :
    ∃ s0, mqInit (pre ++ Std.segment s.sigma s.mps xs ++ post) s pre.length (Std.segment s.sigma s.mps xs).length false = .ok s0 ∧
      Reads (pre ++ Std.segment s.sigma s.mps xs ++ post) s0 xs (Std.encodeAll (Std.initEnc s.sigma s.mps) xs) := by
  have hr := Std.ready_init s.sigma s.mps
  obtain ⟨hok, full, hg, hfull⟩ := Std.code_good xs _ hr
  have hb : Holds (pre ++ Std.segment s.sigma s.mps xs ++ post) (Std.segment s.sigma s.mps xs) pre.length := ⟨pre, post, rfl, rfl⟩
  obtain ⟨s0, e0, r0⟩ := rel_init hb hok s hg hfull
  exact ⟨s0, e0, _, _, _, hb, rfl, hr, r0, hs, hx, rfl⟩

/-! Raw segments. -/

theorem num_lt (l : List Nat) (h : ∀ b ∈ l, b ≤ 1) : Std.num l < 2 ^ l.length := by
  induction l with
  | nil => simp [Std.num]
  | cons b l ih =>
    have h1 := ih (fun b hb => h b (List.mem_cons_of_mem _ hb))
    have h2 := h b (List.mem_cons_self ..)
    have h3 : b * 2 ^ l.length ≤ 1 * 2 ^ l.length := Nat.mul_le_mul_right _ h2
    simp only [Std.num, List.length_cons, pow_succ]
    omega

theorem num_bit (l : List Nat) (h : ∀ b ∈ l, b ≤ 1) (i b : Nat) (hi : l[i]? = some b) : Std.num l / 2 ^ (l.length - 1 - i) % 2 = b := by
  induction l generalizing i with
  | nil => simp at hi
  | cons a l ih =>
    have hl := num_lt l (fun b hb => h b (List.mem_cons_of_mem _ hb))
    have ha := h a (List.mem_cons_self ..)
    cases i with
    | zero =>
      simp only [List.getElem?_cons_zero, Option.some.injEq] at hi
      subst hi
      simp only [Std.num, List.length_cons, Nat.add_sub_cancel, Nat.sub_zero]
      rw [Nat.mul_comm, Nat.mul_add_div (by positivity), Nat.div_eq_of_lt hl]
      omega
    | succ i =>
      simp only [List.getElem?_cons_succ] at hi
      have hil : i < l.length := by
        by_contra hc
        rw [List.getElem?_eq_none (by omega)] at hi
        cases hi
      rw [← ih (fun b hb => h b (List.mem_cons_of_mem _ hb)) i hi]
      simp only [Std.num, List.length_cons]
      rw [show l.length + 1 - 1 - (i + 1) = l.length - 1 - i by omega,
        show a * 2 ^ l.length = 2 ^ (l.length - 1 - i) * (a * 2 ^ i * 2) by
          rw [mul_assoc, ← pow_succ, mul_left_comm, ← pow_add]; congr 2; omega,
        Nat.mul_add_div (by positivity), Nat.mul_add_mod_self_right]

/-- The decoder has still to read `bits` of a raw segment. -/
structure RawReads (buf : List Nat) (d : Mq) (bits : List Nat) : Prop where
  bin : ∀ b ∈ bits, b ≤ 1
  cur : ∀ i b, i < d.t → bits[i]? = some b → d.T / 2 ^ (d.t - 1 - i) % 2 = b
  rest : (buf.drop d.L).take (d.Lmax - d.L) = Std.rawPack (d.T == 0xFF) (bits.drop d.t)

theorem RawReads.step {buf : List Nat} {d : Mq} {b : Nat} {bits : List Nat} (h : RawReads buf d (b :: bits)) :
    ∃ d', rawSymbol buf d = .ok (b, d') ∧ RawReads buf d' bits ∧ d'.sigma = d.sigma ∧ d'.mps = d.mps := by
  unfold rawSymbol
  have hbin : ∀ x ∈ bits, x ≤ 1 := fun x hx => h.bin x (List.mem_cons_of_mem _ hx)
  by_cases c : d.t = 0
  · rw [if_pos c]
    have hr := h.rest
    rw [c, List.drop_zero, Std.rawPack, if_neg (by simp)] at hr
    simp only at hr
    set n := if (d.T == 0xFF) = true then 7 else 8 with hn
    have hn' : n = if d.T = 0xFF then 7 else 8 := by rw [hn]; simp only [beq_iff_eq]
    have hn7 : 7 ≤ n ∧ n ≤ 8 := by rw [hn]; split_ifs <;> omega
    set l := (b :: bits).take n ++ List.replicate (n - (b :: bits).length) 0 with hl
    have hlen : l.length = n := by
      rw [hl, List.length_append, List.length_take, List.length_replicate]; omega
    have hlb : ∀ x ∈ l, x ≤ 1 := by
      intro x hx
      rw [hl, List.mem_append] at hx
      rcases hx with hx | hx
      · exact h.bin x (List.mem_of_mem_take hx)
      · rw [(List.mem_replicate.1 hx).2]; omega
    have hlt : d.L < d.Lmax := by
      by_contra hc
      rw [show d.Lmax - d.L = 0 by omega, List.take_zero] at hr
      cases hr
    have hget : buf[d.L]? = some (Std.num l) := by
      have := congrArg (fun x => x[0]?) hr
      simp only [List.getElem?_cons_zero] at this
      rw [List.getElem?_take_of_lt (by omega), List.getElem?_drop, Nat.add_zero] at this
      exact this
    rw [if_neg (by omega)]
    have hrd : rdByte buf d.L = .ok (Std.num l) := by simp only [rdByte, hget]
    rw [hrd]
    simp only [Except.map]
    rw [← hn']
    have key : ∀ i x, i < n → (b :: bits)[i]? = some x → Std.num l / 2 ^ (n - 1 - i) % 2 = x := by
      intro i x hi hx
      have := num_bit l hlb i x (by
        rw [hl, List.getElem?_append_left, List.getElem?_take_of_lt hi, hx]
        have : i < (b :: bits).length := by
          by_contra hc
          rw [List.getElem?_eq_none (by omega)] at hx
          cases hx
        rw [List.length_take]; omega)
      rwa [hlen] at this
    refine ⟨_, congrArg Except.ok (Prod.ext (key 0 b (by omega) rfl) rfl), ⟨hbin, ?_, ?_⟩, rfl, rfl⟩
    · intro i x hi hx
      simp only at hi ⊢
      have := key (i + 1) x (by omega) hx
      rw [show n - 1 - 1 - i = n - 1 - (i + 1) by omega]
      exact this
    · simp only
      have hL : d.L < buf.length := by
        by_contra hc
        rw [List.getElem?_eq_none (by omega)] at hget
        cases hget
      rw [List.drop_eq_getElem_cons hL, show d.Lmax - d.L = (d.Lmax - (d.L + 1)) + 1 by omega, List.take_succ_cons] at hr
      injection hr with h1 h2
      rw [show bits.drop (n - 1) = (b :: bits).drop n by
        conv_rhs => rw [show n = (n - 1) + 1 by omega, List.drop_succ_cons]]
      exact h2
  · rw [if_neg c]
    simp only [Except.map]
    refine ⟨_, congrArg Except.ok (Prod.ext (h.cur 0 b (by omega) rfl) rfl), ⟨hbin, ?_, ?_⟩, rfl, rfl⟩
    · intro i x hi hx
      simp only at hi ⊢
      have := h.cur (i + 1) x (by omega) hx
      rw [show d.t - 1 - 1 - i = d.t - 1 - (i + 1) by omega]
      exact this
    · have := h.rest
      rw [show d.t = (d.t - 1) + 1 by omega, List.drop_succ_cons] at this
      exact this

theorem RawReads.init (pre post : List Nat) (s : Mq) (bits : List Nat) (h : ∀ b ∈ bits, b ≤ 1) :
    ∃ s0, mqInit (pre ++ Std.rawPack false bits ++ post) s pre.length (Std.rawPack false bits).length true = .ok s0 ∧
      RawReads (pre ++ Std.rawPack false bits ++ post) s0 bits ∧ s0.sigma = s.sigma ∧ s0.mps = s.mps := by
  refine ⟨_, rfl, ⟨h, fun i b hi => absurd hi (by simp), ?_⟩, rfl, rfl⟩
  show ((pre ++ Std.rawPack false bits ++ post).drop pre.length).take (pre.length + (Std.rawPack false bits).length - pre.length) = _
  rw [List.append_assoc, List.drop_left, Nat.add_sub_cancel_left, List.take_left]
  rfl

end Verif.Ebcot
