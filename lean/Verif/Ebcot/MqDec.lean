import Verif.Ebcot.Mq
import Verif.Ebcot.MqEnc
/-
The registers of the decoder, measured against the exact arithmetic of the encoder.
-/
namespace Verif.Ebcot

open Std (vr wr byteAt bitsAt OkCode Fits)

/-- The segment `cod` lies at `pos` in the buffer. -/
def Holds (buf cod : List Nat) (pos : Nat) : Prop := ∃ pre post, buf = pre ++ cod ++ post ∧ pre.length = pos

theorem Holds.get {buf cod : List Nat} {pos r : Nat} (h : Holds buf cod pos) (hr : r < cod.length) :
    buf[pos + r]? = cod[r]? := by
  obtain ⟨pre, post, rfl, rfl⟩ := h
  rw [List.append_assoc, List.getElem?_append_right (by omega), Nat.add_sub_cancel_left, List.getElem?_append_left hr]

/-- The decoder has read `r` bytes of `cod`; `C` is what they say above `B`. -/
structure At (cod : List Nat) (pos : Nat) (d : Mq) (B w r t : Nat) : Prop where
  lmax : d.Lmax = pos + cod.length
  l : d.L = pos + min r cod.length
  t8 : t ≤ 8
  tt : r < cod.length → (d.T = 0xFF ↔ bitsAt cod r = 7)
  val : d.C + B = vr cod r * 2 ^ (8 - t)
  wid : wr cod r = w + t

/-- The fields that filling and shifting leave alone. -/
def Same (d d' : Mq) : Prop := d'.sigma = d.sigma ∧ d'.mps = d.mps

theorem chk_ok {n : Nat} (h : n < 2 ^ 31) : chk n = .ok n := by simp only [chk, if_pos h]

theorem fill_spec {buf cod : List Nat} {pos : Nat} (hb : Holds buf cod pos) (hok : OkCode cod) {d : Mq} {B w r : Nat}
    (h : At cod pos d B w r 0) (hC : d.C < 2 ^ 30) :
    ∃ d', fill buf d = .ok d' ∧ At cod pos d' B w (r + 1) d'.t ∧ d'.A = d.A ∧ Same d d' ∧ (d'.t = 7 ∨ d'.t = 8) := by
  norm_num at hC
  have hval := h.val
  rw [Nat.sub_zero] at hval
  have hwid := h.wid
  rw [Nat.add_zero] at hwid
  unfold fill
  rcases Nat.lt_or_ge r cod.length with hr | hr
  · have hL : d.L = pos + r := by rw [h.l, Nat.min_eq_left hr.le]
    rw [if_neg (by rw [hL, h.lmax]; omega)]
    have hg := hb.get hr
    obtain ⟨b, hbr⟩ : ∃ b, cod[r]? = some b := ⟨_, List.getElem?_eq_getElem hr⟩
    have hb256 : b < 256 := hok.1 b (List.mem_of_getElem? hbr)
    have hyt : byteAt cod r = b := by simp [byteAt, List.getD_eq_getElem?_getD, hbr]
    have hrd : rdByte buf d.L = .ok b := by simp only [rdByte, hL, hg, hbr]
    rw [hrd]
    simp only [Except.bind]
    have hle : d.T = 0xFF → b ≤ 0x8F := fun hT => by
      have h7 := (h.tt hr).1 hT
      unfold bitsAt at h7
      by_cases c : r < cod.length ∧ 0 < r ∧ cod[r - 1]? = some 0xFF
      · exact hok.2 (r - 1) b c.2.2 (by rw [Nat.sub_add_cancel c.2.1]; exact hbr)
      · rw [if_neg c] at h7; omega
    rw [if_neg (fun x => by have := hle x.1; omega)]
    have ht : (if d.T = 0xFF then 7 else 8) = bitsAt cod r := by
      rcases Std.bitsAt_cases cod r with x | x
      · rw [if_pos ((h.tt hr).2 x), x]
      · rw [if_neg (fun y => by have := (h.tt hr).1 y; omega), x]
    have ht2 := Std.bitsAt_cases cod r
    have hpow : b * 2 ^ (8 - bitsAt cod r) < 512 := by
      rcases ht2 with x | x <;> rw [x] <;> norm_num <;> omega
    rw [ht, chk_ok (by norm_num; omega)]
    refine ⟨_, rfl, ⟨h.lmax, ?_, by show bitsAt cod r ≤ 8; omega, ?_, ?_, ?_⟩, rfl, ⟨rfl, rfl⟩, ht2⟩
    · show d.L + 1 = _
      rw [hL]; omega
    · intro hr1
      show b = 0xFF ↔ _
      unfold bitsAt
      rw [Nat.add_sub_cancel, hbr]
      constructor
      · intro hb'; rw [if_pos ⟨hr1, by omega, by rw [hb']⟩]
      · intro h7
        by_contra hne
        rw [if_neg (fun x => hne (by simpa using x.2.2))] at h7
        omega
    · show d.C + b * 2 ^ (8 - bitsAt cod r) + B = (vr cod r * 2 ^ bitsAt cod r + byteAt cod r) * 2 ^ (8 - bitsAt cod r)
      rw [hyt, add_mul, mul_assoc, ← pow_add, show bitsAt cod r + (8 - bitsAt cod r) = 8 by omega, ← hval]
      ring
    · show wr cod r + bitsAt cod r = _
      rw [hwid]
  · have hL : d.L = d.Lmax := by rw [h.l, h.lmax, Nat.min_eq_right hr]
    rw [if_pos hL, chk_ok (by norm_num; omega)]
    have hyt : byteAt cod r = 0xFF := by simp [byteAt, List.getD_eq_getElem?_getD, List.getElem?_eq_none hr]
    have hbt : bitsAt cod r = 8 := by unfold bitsAt; rw [if_neg (by omega)]
    refine ⟨_, rfl, ⟨h.lmax, ?_, le_refl _, fun x => by omega, ?_, ?_⟩, rfl, ⟨rfl, rfl⟩, Or.inr rfl⟩
    · show d.L = _
      rw [hL, h.lmax]; omega
    · show d.C + 0xFF + B = (vr cod r * 2 ^ bitsAt cod r + byteAt cod r) * 2 ^ (8 - 8)
      rw [hyt, hbt, ← hval]; ring
    · show wr cod r + bitsAt cod r = w + 8
      rw [hwid, hbt]

theorem At.shift {cod : List Nat} {pos : Nat} {d : Mq} {B w r t n : Nat} (h : At cod pos d B w r t) (hn : n ≤ t) {d' : Mq}
    (hC : d'.C = d.C * 2 ^ n) (hL : d'.L = d.L) (hm : d'.Lmax = d.Lmax) (hT : d'.T = d.T) :
    At cod pos d' (B * 2 ^ n) (w + n) r (t - n) := by
  have h8 := h.t8
  refine ⟨by rw [hm, h.lmax], by rw [hL, h.l], by omega, by rw [hT]; exact h.tt, ?_, by rw [h.wid]; omega⟩
  rw [hC, ← add_mul, h.val, mul_assoc, ← pow_add, show 8 - t + n = 8 - (t - n) by omega]

/-- Nothing the bytes can say is above `B + A`. -/
def UpTo (cod : List Nat) (B A w : Nat) : Prop := ∀ r, vr cod r * 2 ^ (w + 8) < (B + A) * 2 ^ wr cod r

theorem UpTo.shift {cod : List Nat} {B A w : Nat} (h : UpTo cod B A w) (n : Nat) : UpTo cod (B * 2 ^ n) (A * 2 ^ n) (w + n) := by
  intro r
  have := h r
  have hp : 0 < 2 ^ n := by positivity
  calc _ = vr cod r * 2 ^ (w + 8) * 2 ^ n := by rw [show w + n + 8 = (w + 8) + n by omega, pow_add]; ring
    _ < (B + A) * 2 ^ wr cod r * 2 ^ n := Nat.mul_lt_mul_of_pos_right this hp
    _ = _ := by ring

theorem At.lt {cod : List Nat} {pos : Nat} {d : Mq} {B A w r t : Nat} (h : At cod pos d B w r t) (hu : UpTo cod B A w) :
    d.C < A := by
  have h1 := hu r
  have h8 := h.t8
  have h2 : vr cod r * 2 ^ (w + 8) = (d.C + B) * 2 ^ (w + t) := by
    rw [h.val, mul_assoc, ← pow_add, show 8 - t + (w + t) = w + 8 by omega]
  rw [h2, h.wid] at h1
  have := Nat.lt_of_mul_lt_mul_right h1
  omega

theorem shiftBy_spec {cod : List Nat} {pos : Nat} {d : Mq} {B w r n : Nat} (h : At cod pos d B w r d.t) (hn : n ≤ d.t)
    (hA : d.A * 2 ^ n < 2 ^ 31) (hu : UpTo cod B d.A w) :
    ∃ d', shiftBy n d = .ok d' ∧ At cod pos d' (B * 2 ^ n) (w + n) r d'.t ∧ d'.A = d.A * 2 ^ n ∧ Same d d' ∧ d'.t = d.t - n ∧
      UpTo cod (B * 2 ^ n) d'.A (w + n) := by
  have hC : d.C * 2 ^ n < 2 ^ 31 := lt_of_le_of_lt (Nat.mul_le_mul_right _ (h.lt hu).le) hA
  refine ⟨{ d with A := d.A * 2 ^ n, C := d.C * 2 ^ n, t := d.t - n }, ?_, h.shift hn rfl rfl rfl rfl, rfl, ⟨rfl, rfl⟩, rfl, hu.shift n⟩
  simp only [shiftBy, chk_ok hA, chk_ok hC, Except.bind, Except.map]

theorem renormLoop_spec {buf cod : List Nat} {pos : Nat} (hb : Holds buf cod pos) (hok : OkCode cod) (k n : Nat) (hk : n ≤ k)
    (hn : 0 < n) {d : Mq} {B w r : Nat} (h : At cod pos d B w r d.t) (ht : d.t = 0) (hA : d.A * 2 ^ n < 2 ^ 24)
    (hu : UpTo cod B d.A w) :
    ∃ d' r', renormLoop buf k n d = .ok d' ∧ At cod pos d' (B * 2 ^ n) (w + n) r' d'.t ∧ d'.A = d.A * 2 ^ n ∧ Same d d' := by
  induction k generalizing n d B w r with
  | zero => omega
  | succ k ih =>
    rw [ht] at h
    have hA24 : d.A < 2 ^ 24 := lt_of_le_of_lt (Nat.le_mul_of_pos_right _ (by positivity)) hA
    obtain ⟨d1, e1, a1, hA1, s1, t1⟩ := fill_spec hb hok h (lt_trans (h.lt hu) (lt_trans hA24 (by norm_num)))
    simp only [renormLoop, e1, Except.bind]
    set sh := if n ≤ d1.t then n else d1.t with hsh
    have hsh1 : sh ≤ d1.t := by rw [hsh]; split_ifs <;> omega
    have hsh2 : sh ≤ n := by rw [hsh]; split_ifs <;> omega
    have hsh3 : 0 < sh := by rw [hsh]; split_ifs <;> omega
    have hp : 2 ^ sh ≤ 2 ^ n := Nat.pow_le_pow_right (by norm_num) hsh2
    have hA2 : d1.A * 2 ^ sh < 2 ^ 24 := lt_of_le_of_lt (by rw [hA1]; exact Nat.mul_le_mul_left _ hp) hA
    obtain ⟨d2, e2, a2, hA2', s2, t2, u2⟩ := shiftBy_spec a1 hsh1 (lt_trans hA2 (by norm_num)) (hA1 ▸ hu)
    rw [e2]
    simp only
    by_cases c : 0 < n - sh
    · rw [if_pos c]
      have hsht : sh = d1.t := by
        by_contra hne
        have hle : n ≤ d1.t := by
          by_contra hgt
          exact hne (by rw [hsh, if_neg hgt])
        have : sh = n := by rw [hsh, if_pos hle]
        omega
      have ep : 2 ^ sh * 2 ^ (n - sh) = 2 ^ n := by rw [← pow_add, show sh + (n - sh) = n by omega]
      obtain ⟨d3, r3, e3, a3, hA3, s3⟩ := ih (n - sh) (by omega) c a2 (by omega)
        (by rw [hA2', hA1, mul_assoc, ep]; exact hA) u2
      refine ⟨d3, r3, e3, ?_, ?_, ⟨by rw [s3.1, s2.1, s1.1], by rw [s3.2, s2.2, s1.2]⟩⟩
      · rw [mul_assoc, ep, show w + sh + (n - sh) = w + n by omega] at a3
        exact a3
      · rw [hA3, hA2', hA1, mul_assoc, ep]
    · rw [if_neg c]
      have hsn : sh = n := by omega
      rw [hsn] at a2 hA2'
      exact ⟨d2, _, rfl, a2, by rw [hA2', hA1], ⟨by rw [s2.1, s1.1], by rw [s2.2, s1.2]⟩⟩

theorem clz_spec {a : Nat} (h0 : 0 < a) (h : a < 2 ^ 23) :
    8 < clz32 a ∧ 2 ^ 23 ≤ a * 2 ^ (clz32 a - 8) ∧ a * 2 ^ (clz32 a - 8) < 2 ^ 24 := by
  have hl := Nat.log2_lt (by omega : a ≠ 0) |>.2 h
  have h1 := Nat.log2_self_le (by omega : a ≠ 0)
  have h2 := @Nat.lt_log2_self a
  unfold clz32
  rw [if_neg (by omega)]
  refine ⟨by omega, ?_, ?_⟩
  · calc 2 ^ 23 = 2 ^ a.log2 * 2 ^ (31 - a.log2 - 8) := by rw [← pow_add]; congr 1; omega
      _ ≤ _ := Nat.mul_le_mul_right _ h1
  · calc _ < 2 ^ (a.log2 + 1) * 2 ^ (31 - a.log2 - 8) := Nat.mul_lt_mul_of_pos_right h2 (by positivity)
      _ = 2 ^ 24 := by rw [← pow_add]; congr 1; omega

theorem renormalize_spec {buf cod : List Nat} {pos : Nat} (hb : Holds buf cod pos) (hok : OkCode cod) {d : Mq} {B w r n : Nat}
    (h : At cod pos d B w r d.t) (hA0 : 0 < d.A) (hA : d.A < 2 ^ 23) (hu : UpTo cod B d.A w)
    (hn1 : 2 ^ 23 ≤ d.A * 2 ^ n) (hn2 : d.A * 2 ^ n < 2 ^ 24) :
    ∃ d' r', renormalize buf d = .ok d' ∧ At cod pos d' (B * 2 ^ n) (w + n) r' d'.t ∧ d'.A = d.A * 2 ^ n ∧ Same d d' := by
  obtain ⟨c1, c2, c3⟩ := clz_spec hA0 hA
  have hn : clz32 d.A - 8 = n := by
    set m := clz32 d.A - 8
    rcases Nat.lt_trichotomy m n with x | x | x
    · have : 2 ^ (m + 1) ≤ 2 ^ n := Nat.pow_le_pow_right (by norm_num) x
      have h1 := Nat.mul_le_mul_left d.A this
      rw [pow_succ] at h1
      norm_num at *
      nlinarith
    · exact x
    · have : 2 ^ (n + 1) ≤ 2 ^ m := Nat.pow_le_pow_right (by norm_num) x
      have h1 := Nat.mul_le_mul_left d.A this
      rw [pow_succ] at h1
      norm_num at *
      nlinarith
  have hn0 : 0 < n := by omega
  unfold renormalize
  rw [if_neg (by omega)]
  simp only [hn]
  have hlt := h.lt hu
  norm_num at hA
  -- the first fill
  obtain ⟨d1, r1, e1, a1, hA1, s1, u1, ht1⟩ : ∃ d1 r1, (if d.t = 0 then fill buf d else .ok d) = .ok d1 ∧
      At cod pos d1 B w r1 d1.t ∧ d1.A = d.A ∧ Same d d1 ∧ UpTo cod B d1.A w ∧ 0 < d1.t := by
    by_cases ht : d.t = 0
    · rw [if_pos ht]
      rw [ht] at h
      obtain ⟨d1, e1, a1, hA1, s1, t1⟩ := fill_spec hb hok h (by norm_num; omega)
      exact ⟨d1, _, e1, a1, hA1, s1, hA1 ▸ hu, by omega⟩
    · rw [if_neg ht]
      exact ⟨d, r, rfl, h, rfl, ⟨rfl, rfl⟩, hu, by omega⟩
  rw [e1]
  simp only [Except.bind]
  by_cases c : n ≤ d1.t
  · rw [if_pos c]
    obtain ⟨d2, e2, a2, hA2, s2, -, -⟩ := shiftBy_spec a1 c (by rw [hA1]; exact lt_trans hn2 (by norm_num)) u1
    exact ⟨d2, r1, e2, a2, by rw [hA2, hA1], ⟨by rw [s2.1, s1.1], by rw [s2.2, s1.2]⟩⟩
  · rw [if_neg c]
    have hp : 2 ^ d1.t ≤ 2 ^ n := Nat.pow_le_pow_right (by norm_num) (by omega)
    have hA2 : d1.A * 2 ^ d1.t < 2 ^ 24 := lt_of_le_of_lt (by rw [hA1]; exact Nat.mul_le_mul_left _ hp) hn2
    obtain ⟨d2, e2, a2, hA2', s2, t2, u2⟩ := shiftBy_spec a1 (le_refl _) (lt_trans hA2 (by norm_num)) u1
    rw [e2]
    simp only
    have ep : 2 ^ d1.t * 2 ^ (n - d1.t) = 2 ^ n := by rw [← pow_add, show d1.t + (n - d1.t) = n by omega]
    obtain ⟨d3, r3, e3, a3, hA3, s3⟩ := renormLoop_spec hb hok n (n - d1.t) (by omega) (by omega) a2 (by omega)
      (by rw [hA2', hA1, mul_assoc, ep]; exact hn2) u2
    refine ⟨d3, r3, e3, ?_, ?_, ⟨by rw [s3.1, s2.1, s1.1], by rw [s3.2, s2.2, s1.2]⟩⟩
    · rw [mul_assoc, ep, show w + d1.t + (n - d1.t) = w + n by omega] at a3
      exact a3
    · rw [hA3, hA2', hA1, mul_assoc, ep]

/-! ### One decision -/

/-- The packed table is Table C.2. -/
theorem staticTable_row (i : Nat) (h : i < 47) :
    ∃ v, staticTable[i]? = some v ∧ v % 2 ^ 16 = (Std.row i).qe ∧ v / 2 ^ 24 % 64 = (Std.row i).nmps ∧
      v / 2 ^ 16 % 64 = (Std.row i).nlps ∧ v / 2 ^ 31 = (Std.row i).switch ∧ (Std.row i).nmps < 47 ∧ (Std.row i).nlps < 47 ∧
      (Std.row i).switch ≤ 1 := by
  have hall : ∀ i : Fin 47, ∃ v ∈ staticTable[i.1]?, v % 2 ^ 16 = (Std.row i).qe ∧ v / 2 ^ 24 % 64 = (Std.row i).nmps ∧
      v / 2 ^ 16 % 64 = (Std.row i).nlps ∧ v / 2 ^ 31 = (Std.row i).switch ∧ (Std.row i).nmps < 47 ∧ (Std.row i).nlps < 47 ∧
      (Std.row i).switch ≤ 1 := by
    decide +kernel
  obtain ⟨v, hv, hrest⟩ := hall ⟨i, h⟩
  exact ⟨v, hv, hrest⟩

/-- The contexts are in the table. -/
def CtxOk (i m : Nat → Nat) : Prop := ∀ k, i k < 47 ∧ m k ≤ 1

/-- Decoder and encoder are at the same place. -/
structure Rel (cod : List Nat) (pos : Nat) (d : Mq) (e : Std.Enc) : Prop where
  at' : ∃ r, At cod pos d (Std.base e * 2 ^ 8) (15 + Std.sc e) r d.t
  a : d.A = e.A * 2 ^ 8
  i : d.sigma = e.I
  m : d.mps = e.MPS

theorem Fits.upTo {B A w : Nat} {cod : List Nat} (h : Fits B A w cod) : UpTo cod (B * 2 ^ 8) (A * 2 ^ 8) w := by
  intro r
  calc _ = vr cod r * 2 ^ w * 2 ^ 8 := by rw [pow_add]; ring
    _ < (B + A) * 2 ^ wr cod r * 2 ^ 8 := Nat.mul_lt_mul_of_pos_right (h.up r) (by norm_num)
    _ = _ := by ring

/-- The comparison of the decoder decides which part of the interval was taken: upper part. -/
theorem At.ge {cod : List Nat} {pos : Nat} {d : Mq} {B q A w r t : Nat} (h : At cod pos d (B * 2 ^ 8) w r t)
    (hf : Fits (B + q) A w cod) : q * 2 ^ 8 ≤ d.C := by
  have h8 := h.t8
  have hl := hf.low r (by rw [h.wid]; omega)
  rw [h.wid, pow_add] at hl
  have h1 : (B + q) * 2 ^ t < vr cod r + 1 := by
    apply Nat.lt_of_mul_lt_mul_right (a := 2 ^ w)
    calc _ = (B + q) * (2 ^ w * 2 ^ t) := by ring
      _ < _ := hl
  have h2 : (B + q) * 2 ^ t * 2 ^ (8 - t) ≤ vr cod r * 2 ^ (8 - t) := Nat.mul_le_mul_right _ (by omega)
  rw [← h.val, mul_assoc, ← pow_add, show t + (8 - t) = 8 by omega, add_mul] at h2
  linarith

theorem decode_step {buf cod : List Nat} {pos : Nat} (hb : Holds buf cod pos) (hok : OkCode cod) {d : Mq} {e : Std.Enc}
    (hr : Std.Ready e) (hrel : Rel cod pos d e) (hctx : CtxOk e.I e.MPS) {cx bit : Nat} (hcx : cx < 19) (hbit : bit ≤ 1)
    {full : List Nat} (hg : Std.Good (Std.encode e cx bit) full) (hfull : ∀ r, vr full r = vr cod r ∧ wr full r = wr cod r) :
    (∃ d', decode buf d cx = .ok (bit, d') ∧ Rel cod pos d' (Std.encode e cx bit)) ∧
      CtxOk (Std.encode e cx bit).I (Std.encode e cx bit).MPS := by
  obtain ⟨v, hv, v1, v2, v3, v4, v5, v6, v7⟩ := staticTable_row (e.I cx) (hctx cx).1
  obtain ⟨q1, q2⟩ := Std.qe_bounds (e.I cx)
  obtain ⟨up, n, hcod, hIM, hmps, hn0⟩ := Std.encode_spec hr cx bit
  have hfit := Std.Good.fits (by exact hr.inv.ct) (by exact hr.inv.ctw) (hcod.mid full hg) hfull
  obtain ⟨⟨r, hat⟩, hA, hI, hM⟩ := hrel
  set e1 := Std.encode e cx bit with he1
  set q := (Std.row (e.I cx)).qe with hq
  have hlo := hr.lo
  have hhi := hr.hi
  have hm1 := (hctx cx).2
  have hr1lo := hcod.ready.lo
  have hr1hi := hcod.ready.hi
  have hIMctx : CtxOk e1.I e1.MPS := by
    intro k
    have hk := hctx k
    have hI1 : e1.I k = _ := congrArg (fun p : (Nat → Nat) × (Nat → Nat) => p.1 k) hIM
    have hM1 : e1.MPS k = _ := congrArg (fun p : (Nat → Nat) × (Nat → Nat) => p.2 k) hIM
    rw [hI1, hM1]
    split_ifs
    · exact hk
    all_goals (by_cases hkc : k = cx)
    all_goals first
      | (subst hkc; simp only [Function.update_self]; constructor <;> omega)
      | (simp only [Function.update_of_ne hkc]; exact hk)
  refine ⟨?_, hIMctx⟩
  have hv' : staticTable[d.sigma cx]? = some v := by rw [hI]; exact hv
  simp only [decode, if_pos hcx, hv', v1]
  rw [if_neg (by rw [hA]; omega)]
  cases up with
  | true =>
    simp only [if_true] at hcod hfit hmps hIM hn0
    have hbase : Std.base { e with A := e.A - q, C := e.C + q } = Std.base e + q := by simp only [Std.base]; ring
    have hsc : Std.sc { e with A := e.A - q, C := e.C + q } = Std.sc e := rfl
    have hcb := hcod.base
    have hca := hcod.a
    simp only [if_true] at hcb hca
    rw [← hq] at hcb hca
    rw [hbase, hsc] at hfit
    have hge := hat.ge hfit
    rw [if_pos (by omega)]
    have hAq : d.A - q * 2 ^ 8 = (e.A - q) * 2 ^ 8 := by rw [hA]; omega
    rw [hAq]
    have hat1 : At cod pos { d with A := (e.A - q) * 2 ^ 8, C := d.C - q * 2 ^ 8 } ((Std.base e + q) * 2 ^ 8) (15 + Std.sc e) r d.t := by
      refine ⟨hat.lmax, hat.l, hat.t8, hat.tt, ?_, hat.wid⟩
      rw [← hat.val]
      show d.C - q * 2 ^ 8 + (Std.base e + q) * 2 ^ 8 = _
      omega
    by_cases c : 0x8000 ≤ e.A - q
    · -- no renormalisation
      rw [if_neg (by simp only [aregMin]; omega)]
      have hn : n = 0 := hn0.2 ⟨trivial, c⟩
      subst hn
      rw [if_pos ⟨trivial, c⟩] at hIM
      simp only [Prod.mk.injEq] at hIM
      have hbm : bit = e.MPS cx := hmps.2 (by omega)
      refine ⟨_, congrArg Except.ok (Prod.ext (by rw [hbm]; exact congrFun hM cx) rfl), ⟨r, ?_⟩, ?_, ?_, ?_⟩
      · rw [hcb, hcod.sc]
        simpa using hat1
      · rw [hca]; simp
      · rw [hIM.1]; exact hI
      · rw [hIM.2]; exact hM
    · rw [if_pos (by simp only [aregMin]; omega)]
      rw [if_neg (fun x => c x.2)] at hIM
      have hup := Fits.upTo hfit
      obtain ⟨d2, r2, e2, a2, hA2, s2⟩ := renormalize_spec (d := { d with A := (e.A - q) * 2 ^ 8, C := d.C - q * 2 ^ 8 }) hb hok hat1
        (by show 0 < (e.A - q) * 2 ^ 8; omega) (by show (e.A - q) * 2 ^ 8 < _; omega) hup
        (n := n) (by show _ ≤ (e.A - q) * 2 ^ 8 * 2 ^ n; rw [mul_right_comm, ← hca]; omega)
        (by show (e.A - q) * 2 ^ 8 * 2 ^ n < _; rw [mul_right_comm, ← hca]; omega)
      simp only [settle, e2, Except.map]
      have hlps : ((e.A - q) * 2 ^ 8 < q * 2 ^ 8) ↔ bit ≠ e.MPS cx := by rw [Ne, hmps]; omega
      refine ⟨_, congrArg Except.ok (Prod.ext ?_ rfl), ⟨r2, ?_⟩, ?_, ?_, ?_⟩
      · show d.mps cx ^^^ (if (e.A - q) * 2 ^ 8 < q * 2 ^ 8 then 1 else 0) = bit
        rw [hM]
        by_cases hbm : bit = e.MPS cx
        · rw [if_neg (by rw [hlps]; simpa using hbm), hbm]; simp
        · rw [if_pos (hlps.2 hbm)]
          have : (e.MPS cx = 0 ∧ bit = 1) ∨ (e.MPS cx = 1 ∧ bit = 0) := by omega
          rcases this with ⟨x, y⟩ | ⟨x, y⟩ <;> rw [x, y] <;> rfl
      · rw [hcb, hcod.sc, mul_right_comm, ← add_assoc]
        exact ⟨a2.lmax, a2.l, a2.t8, a2.tt, a2.val, a2.wid⟩
      · show d2.A = _
        rw [hA2, hca]
        show (e.A - q) * 2 ^ 8 * 2 ^ n = _
        ring
      all_goals
        by_cases hbm : bit = e.MPS cx
        · rw [if_pos hbm] at hIM
          simp only [Prod.mk.injEq] at hIM
          have hl0 : ¬ (e.A - q) * 2 ^ 8 < q * 2 ^ 8 := by rw [hlps]; simpa using hbm
          first
            | (rw [hIM.1]
               show Function.update d2.sigma cx _ = _
               rw [s2.1, if_neg hl0, if_neg (by norm_num), v2]
               show Function.update d.sigma cx _ = _
               rw [hI])
            | (rw [hIM.2]
               show Function.update d2.mps cx (d.mps cx ^^^ _) = _
               rw [s2.2, if_neg hl0, if_neg (by norm_num), Nat.and_zero, Nat.xor_zero]
               show Function.update d.mps cx (d.mps cx) = _
               rw [Function.update_eq_self, hM])
        · rw [if_neg hbm] at hIM
          simp only [Prod.mk.injEq] at hIM
          have hl1 : (e.A - q) * 2 ^ 8 < q * 2 ^ 8 := hlps.2 hbm
          first
            | (rw [hIM.1]
               show Function.update d2.sigma cx _ = _
               rw [s2.1, if_pos hl1, if_pos rfl, v3]
               show Function.update d.sigma cx _ = _
               rw [hI])
            | (rw [hIM.2]
               show Function.update d2.mps cx (d.mps cx ^^^ _) = _
               rw [s2.2, if_pos hl1, if_pos rfl, v4]
               show Function.update d.mps cx _ = _
               rw [hM]
               congr 1
               have hs : (Std.row (e.I cx)).switch = 0 ∨ (Std.row (e.I cx)).switch = 1 := by omega
               have hmm : e.MPS cx = 0 ∨ e.MPS cx = 1 := by omega
               rcases hs with x | x <;> rcases hmm with y | y <;> rw [x, y] <;> rfl)
  | false =>
    simp only [Bool.false_eq_true, if_false, false_and] at hcod hfit hmps hIM hn0
    have hbase : Std.base { e with A := q, C := e.C + 0 } = Std.base e := by simp only [Std.base]; ring
    have hsc : Std.sc { e with A := q, C := e.C + 0 } = Std.sc e := rfl
    have hcb := hcod.base
    have hca := hcod.a
    simp only [Bool.false_eq_true, if_false, Nat.add_zero] at hcb hca
    rw [← hq] at hca
    rw [hbase, hsc] at hfit
    have hup := Fits.upTo hfit
    have hlt : d.C < q * 2 ^ 8 := hat.lt hup
    rw [if_neg (by omega)]
    have hAq : d.A - q * 2 ^ 8 = (e.A - q) * 2 ^ 8 := by rw [hA]; omega
    rw [hAq]
    have hat1 : At cod pos { d with A := q * 2 ^ 8 } (Std.base e * 2 ^ 8) (15 + Std.sc e) r d.t :=
      ⟨hat.lmax, hat.l, hat.t8, hat.tt, hat.val, hat.wid⟩
    obtain ⟨d2, r2, e2, a2, hA2, s2⟩ := renormalize_spec (d := { d with A := q * 2 ^ 8 }) hb hok hat1
      (by show 0 < q * 2 ^ 8; omega) (by show q * 2 ^ 8 < _; omega) hup
      (n := n) (by show _ ≤ q * 2 ^ 8 * 2 ^ n; rw [mul_right_comm, ← hca]; omega)
      (by show q * 2 ^ 8 * 2 ^ n < _; rw [mul_right_comm, ← hca]; omega)
    simp only [settle, e2, Except.map]
    have hlps : (q * 2 ^ 8 ≤ (e.A - q) * 2 ^ 8) ↔ bit ≠ e.MPS cx := by rw [Ne, hmps]; omega
    refine ⟨_, congrArg Except.ok (Prod.ext ?_ rfl), ⟨r2, ?_⟩, ?_, ?_, ?_⟩
    · show d.mps cx ^^^ (if q * 2 ^ 8 ≤ (e.A - q) * 2 ^ 8 then 1 else 0) = bit
      rw [hM]
      by_cases hbm : bit = e.MPS cx
      · rw [if_neg (by rw [hlps]; simpa using hbm), hbm]; simp
      · rw [if_pos (hlps.2 hbm)]
        have : (e.MPS cx = 0 ∧ bit = 1) ∨ (e.MPS cx = 1 ∧ bit = 0) := by omega
        rcases this with ⟨x, y⟩ | ⟨x, y⟩ <;> rw [x, y] <;> rfl
    · rw [hcb, hcod.sc, mul_right_comm, ← add_assoc]
      exact ⟨a2.lmax, a2.l, a2.t8, a2.tt, a2.val, a2.wid⟩
    · show d2.A = _
      rw [hA2, hca]
      show q * 2 ^ 8 * 2 ^ n = _
      ring
    all_goals
      by_cases hbm : bit = e.MPS cx
      · rw [if_pos hbm] at hIM
        simp only [Prod.mk.injEq] at hIM
        have hl0 : ¬ q * 2 ^ 8 ≤ (e.A - q) * 2 ^ 8 := by rw [hlps]; simpa using hbm
        first
          | (rw [hIM.1]
             show Function.update d2.sigma cx _ = _
             rw [s2.1, if_neg hl0, if_neg (by norm_num), v2]
             show Function.update d.sigma cx _ = _
             rw [hI])
          | (rw [hIM.2]
             show Function.update d2.mps cx (d.mps cx ^^^ _) = _
             rw [s2.2, if_neg hl0, if_neg (by norm_num), Nat.and_zero, Nat.xor_zero]
             show Function.update d.mps cx (d.mps cx) = _
             rw [Function.update_eq_self, hM])
      · rw [if_neg hbm] at hIM
        simp only [Prod.mk.injEq] at hIM
        have hl1 : q * 2 ^ 8 ≤ (e.A - q) * 2 ^ 8 := hlps.2 hbm
        first
          | (rw [hIM.1]
             show Function.update d2.sigma cx _ = _
             rw [s2.1, if_pos hl1, if_pos rfl, v3]
             show Function.update d.sigma cx _ = _
             rw [hI])
          | (rw [hIM.2]
             show Function.update d2.mps cx (d.mps cx ^^^ _) = _
             rw [s2.2, if_pos hl1, if_pos rfl, v4]
             show Function.update d.mps cx _ = _
             rw [hM]
             congr 1
             have hs : (Std.row (e.I cx)).switch = 0 ∨ (Std.row (e.I cx)).switch = 1 := by omega
             have hmm : e.MPS cx = 0 ∨ e.MPS cx = 1 := by omega
             rcases hs with x | x <;> rcases hmm with y | y <;> rw [x, y] <;> rfl)

end Verif.Ebcot
