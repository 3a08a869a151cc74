import Verif.Ebcot.MqSpec
/-
The encoder of the standard, seen as exact arithmetic: what the bytes written say about the interval.
-/
namespace Verif.Ebcot.Std

/-! ### The value of a byte sequence -/

/-- The byte a decoder sees at place `r`: past the end, 0xFF. -/
def byteAt (l : List Nat) (r : Nat) : Nat := l.getD r 0xFF

/-- How many new bits the byte at place `r` brings: seven after a byte 0xFF. -/
def bitsAt (l : List Nat) (r : Nat) : Nat := if r < l.length ∧ 0 < r ∧ l[r - 1]? = some 0xFF then 7 else 8

/-- The value of the first `r` bytes. -/
def vr (l : List Nat) : Nat → Nat
  | 0 => 0
  | r + 1 => vr l r * 2 ^ bitsAt l r + byteAt l r

/-- The number of bits in the first `r` bytes. -/
def wr (l : List Nat) : Nat → Nat
  | 0 => 0
  | r + 1 => wr l r + bitsAt l r

def bitsO (o : List Nat) : Nat := if o.head? = some 0xFF then 7 else 8

/-- The value of the bytes written, last first. -/
def outV : List Nat → Nat
  | [] => 0
  | b :: o => outV o * 2 ^ bitsO o + b

def outW : List Nat → Nat
  | [] => 0
  | _ :: o => outW o + bitsO o

theorem bitsO_cases (o : List Nat) : bitsO o = 7 ∨ bitsO o = 8 := by
  unfold bitsO; split_ifs <;> simp

theorem bitsAt_cases (l : List Nat) (r : Nat) : bitsAt l r = 7 ∨ bitsAt l r = 8 := by
  unfold bitsAt; split_ifs <;> simp

theorem vr_wr_append (o rest : List Nat) :
    vr (o.reverse ++ rest) o.length = outV o ∧ wr (o.reverse ++ rest) o.length = outW o := by
  induction o generalizing rest with
  | nil => exact ⟨rfl, rfl⟩
  | cons b o ih =>
    have e : (b :: o).reverse ++ rest = o.reverse ++ (b :: rest) := by simp
    have hb : bitsAt (o.reverse ++ (b :: rest)) o.length = bitsO o := by
      unfold bitsAt bitsO
      cases o with
      | nil => simp
      | cons c o' => simp [List.getElem?_append]
    have hy : byteAt (o.reverse ++ (b :: rest)) o.length = b := by
      simp [byteAt, List.getD, List.getElem?_append]
    rw [e]
    obtain ⟨h1, h2⟩ := ih (b :: rest)
    simp only [List.length_cons, vr, wr, outV, outW, hb, hy, h1, h2]
    exact ⟨trivial, trivial⟩

/-! ### The interval -/

/-- The lower end of the interval, in units of the interval register. -/
def base (e : Enc) : Nat := outV e.out * 2 ^ (27 - e.CT) + e.C

/-- The number of shifts made so far. -/
def sc (e : Enc) : Nat := outW e.out + 12 - e.CT

/-- The bytes written are bytes, and none after 0xFF is over 0x8F. -/
def OkOut : List Nat → Prop
  | [] => True
  | b :: o => b < 256 ∧ (o.head? = some 0xFF → b ≤ 0x8F) ∧ OkOut o

/-- What holds between two shifts. -/
structure Inv (e : Enc) : Prop where
  ct : e.CT ≤ 12
  apos : 0 < e.A
  bound : e.C + e.A ≤ 2 ^ (27 - e.CT) + 2 ^ (24 - e.CT)
  first : e.out = [] → e.C + e.A ≤ 2 ^ (27 - e.CT)
  stuffed : ∀ b o, e.out = b :: o → o.head? = some 0xFF → b * 2 ^ (27 - e.CT) + (e.C + e.A) ≤ 0x90 * 2 ^ (27 - e.CT)
  ok : OkOut e.out
  ctw : e.CT ≤ outW e.out + 12

theorem byteOut_A (e : Enc) : (byteOut e).A = e.A := by simp only [byteOut]; split_ifs <;> rfl
theorem byteOut_I (e : Enc) : (byteOut e).I = e.I := by simp only [byteOut]; split_ifs <;> rfl
theorem byteOut_MPS (e : Enc) : (byteOut e).MPS = e.MPS := by simp only [byteOut]; split_ifs <;> rfl

/-- Everything about writing a byte. -/
theorem byteOut_spec {e : Enc} (h : Inv e) (hct : e.CT = 0) :
    base (byteOut e) = base e ∧ sc (byteOut e) = sc e ∧ OkOut (byteOut e).out ∧
      (byteOut e).C < 2 ^ (27 - (byteOut e).CT) ∧ (7 ≤ (byteOut e).CT ∧ (byteOut e).CT ≤ 8) ∧
      (∃ B, (byteOut e).out = B :: e.out ∨ ∃ b o, e.out = b :: o ∧ b ≠ 0xFF ∧ (byteOut e).out = B :: (b + 1) :: o) ∧
      (e.A ≤ 2 ^ 16 → Inv (byteOut e)) ∧ (e.out.head? = some 0xFF → ∃ B, (byteOut e).out = B :: e.out) := by
  obtain ⟨A, C, CT, out, I, MPS⟩ := e
  obtain ⟨-, h1, h2, h3, h4, h5, -⟩ := h
  simp only at *
  subst hct
  simp only [Nat.sub_zero] at *
  norm_num at h2 h3 h4
  by_cases c1 : out.head? = some 0xFF
  · -- after 0xFF
    have hb : bitsO out = 7 := by simp [bitsO, c1]
    have E : byteOut ⟨A, C, 0, out, I, MPS⟩ = ⟨A, C % 2 ^ 20, 7, C / 2 ^ 20 :: out, I, MPS⟩ := by
      simp only [byteOut, if_pos c1]
    rw [E]
    have hB : C / 2 ^ 20 ≤ 0x8F := by norm_num; omega
    refine ⟨?_, ?_, ⟨by omega, fun _ => hB, h5⟩, ?_, ⟨le_refl _, by norm_num⟩, ⟨_, Or.inl rfl⟩, ?_, fun _ => ⟨_, rfl⟩⟩
    · simp only [base, outV, hb]; norm_num; omega
    · simp only [sc, outW, hb]; omega
    · norm_num; omega
    · intro hA
      norm_num at hA
      refine ⟨by norm_num, h1, ?_, by simp, ?_, ⟨by omega, fun _ => hB, h5⟩, ?_⟩
      · norm_num; omega
      · intro b o hbo hff
        simp only [List.cons.injEq] at hbo
        obtain ⟨rfl, rfl⟩ := hbo
        norm_num
        omega
      · simp only [outW, hb]; omega
  by_cases c2 : C < 0x8000000
  · have hb : bitsO out = 8 := by simp [bitsO, c1]
    have E : byteOut ⟨A, C, 0, out, I, MPS⟩ = ⟨A, C % 2 ^ 19, 8, C / 2 ^ 19 :: out, I, MPS⟩ := by
      simp only [byteOut, if_neg c1, if_pos c2]
    rw [E]
    have hB : C / 2 ^ 19 < 256 := by norm_num; omega
    refine ⟨?_, ?_, ⟨hB, fun x => absurd x c1, h5⟩, ?_, ⟨by norm_num, le_refl _⟩, ⟨_, Or.inl rfl⟩, ?_, fun x => absurd x c1⟩
    · simp only [base, outV, hb]; norm_num; omega
    · simp only [sc, outW, hb]; omega
    · norm_num; omega
    · intro hA
      norm_num at hA
      refine ⟨by norm_num, h1, ?_, by simp, ?_, ⟨hB, fun x => absurd x c1, h5⟩, ?_⟩
      · norm_num; omega
      · intro b o hbo hff
        simp only [List.cons.injEq] at hbo
        obtain ⟨rfl, rfl⟩ := hbo
        exact absurd hff c1
      · simp only [outW, hb]; omega
  -- a carry
  cases out with
  | nil => exact absurd (h3 rfl) (by omega)
  | cons b o =>
    have hb8 : bitsO (b :: o) = 8 := by simp only [bitsO]; rw [if_neg c1]
    have hbne : b ≠ 0xFF := fun x => c1 (by simp [x])
    have hbn : o.head? = some 0xFF → b + 1 ≤ 0x8F := fun x => by have := h4 b o rfl x; omega
    have hC : C < 2 ^ 28 := by norm_num; omega
    norm_num at hC
    obtain ⟨hb256, hbff, hoko⟩ := h5
    have hok1 : OkOut ((b + 1) :: o) := ⟨by omega, hbn, hoko⟩
    by_cases c3 : (incr (b :: o)).head? = some 0xFF
    · have hb : bitsO ((b + 1) :: o) = 7 := by simp only [bitsO]; rw [if_pos (show ((b + 1) :: o).head? = some 0xFF from c3)]
      have E : byteOut ⟨A, C, 0, b :: o, I, MPS⟩ =
          ⟨A, C % 2 ^ 27 % 2 ^ 20, 7, C % 2 ^ 27 / 2 ^ 20 :: (b + 1) :: o, I, MPS⟩ := by
        simp only [byteOut, if_neg c1, if_neg c2, if_pos c3]; rfl
      rw [E]
      have hB : C % 2 ^ 27 / 2 ^ 20 ≤ 0x0F := by norm_num; omega
      refine ⟨?_, ?_, ⟨by omega, fun _ => by omega, hok1⟩, ?_, ⟨le_refl _, by norm_num⟩, ⟨_, Or.inr ⟨b, o, rfl, hbne, rfl⟩⟩, ?_,
        fun x => absurd x c1⟩
      · simp only [base, outV, hb]; norm_num; omega
      · simp only [sc, outW, hb]; omega
      · norm_num; omega
      · intro hA
        norm_num at hA
        refine ⟨by norm_num, h1, ?_, by simp, ?_, ⟨by omega, fun _ => by omega, hok1⟩, ?_⟩
        · norm_num; omega
        · intro b' o' hbo hff
          simp only [List.cons.injEq] at hbo
          obtain ⟨rfl, rfl⟩ := hbo
          norm_num at hB ⊢
          omega
        · simp only [outW, hb]; omega
    · have hb : bitsO ((b + 1) :: o) = 8 := by simp only [bitsO]; rw [if_neg (show ¬((b + 1) :: o).head? = some 0xFF from c3)]
      have E : byteOut ⟨A, C, 0, b :: o, I, MPS⟩ =
          ⟨A, C % 2 ^ 19, 8, C / 2 ^ 19 % 256 :: (b + 1) :: o, I, MPS⟩ := by
        simp only [byteOut, if_neg c1, if_neg c2, if_neg c3]; rfl
      rw [E]
      have hB : C / 2 ^ 19 % 256 < 256 := Nat.mod_lt _ (by norm_num)
      refine ⟨?_, ?_, ⟨hB, fun x => absurd x c3, hok1⟩, ?_, ⟨by norm_num, le_refl _⟩, ⟨_, Or.inr ⟨b, o, rfl, hbne, rfl⟩⟩, ?_,
        fun x => absurd x c1⟩
      · simp only [base, outV, hb]; norm_num; omega
      · simp only [sc, outW, hb]; omega
      · norm_num; omega
      · intro hA
        norm_num at hA
        refine ⟨by norm_num, h1, ?_, by simp, ?_, ⟨hB, fun x => absurd x c3, hok1⟩, ?_⟩
        · norm_num; omega
        · intro b' o' hbo hff
          simp only [List.cons.injEq] at hbo
          obtain ⟨rfl, rfl⟩ := hbo
          exact absurd hff c3
        · simp only [outW, hb]; omega

/-! ### What the final bytes say about every interval on the way -/

/-- The final bytes begin with those written, but for a carry into the last. -/
def Ext (out full : List Nat) : Prop :=
  (∃ rest, full = out.reverse ++ rest) ∨ ∃ b o rest, out = b :: o ∧ b ≠ 0xFF ∧ full = ((b + 1) :: o).reverse ++ rest

/-- Seen from the state `e`: read to any byte not yet written, the final bytes are not below the interval by more than
what is still unread; read to any byte, they are below its upper end. -/
structure Good (e : Enc) (full : List Nat) : Prop where
  ext : Ext e.out full
  low : ∀ r, e.out.length < r → base e * 2 ^ wr full r < (vr full r + 1) * 2 ^ (15 + sc e)
  up : ∀ r, vr full r * 2 ^ (15 + sc e) < (base e + e.A) * 2 ^ wr full r

theorem Good.sub {e e' : Enc} {full : List Nat} (g : Good e' full) (ho : e'.out = e.out) (hct : e'.CT = e.CT)
    (hc : e.C ≤ e'.C) (hca : e'.C + e'.A ≤ e.C + e.A) : Good e full := by
  have hs : sc e' = sc e := by simp only [sc, ho, hct]
  have hb : base e ≤ base e' := by simp only [base, ho, hct]; omega
  have hu : base e' + e'.A ≤ base e + e.A := by simp only [base, ho, hct]; omega
  refine ⟨ho ▸ g.ext, fun r hr => ?_, fun r => ?_⟩
  · have := g.low r (ho ▸ hr)
    rw [hs] at this
    exact lt_of_le_of_lt (Nat.mul_le_mul_right _ hb) this
  · have := g.up r
    rw [hs] at this
    exact lt_of_lt_of_le this (Nat.mul_le_mul_right _ hu)

theorem Good.shift {e : Enc} {full : List Nat} {n : Nat} (hn : n ≤ e.CT) (h12 : e.CT ≤ 12) (hw : e.CT ≤ outW e.out + 12) {a : Nat}
    (ha : a = e.A * 2 ^ n) (g : Good { e with A := a, C := e.C * 2 ^ n, CT := e.CT - n } full) : Good e full := by
  subst ha
  have hs : sc { e with A := e.A * 2 ^ n, C := e.C * 2 ^ n, CT := e.CT - n } = sc e + n := by simp only [sc]; omega
  have hb : base { e with A := e.A * 2 ^ n, C := e.C * 2 ^ n, CT := e.CT - n } = base e * 2 ^ n := by
    simp only [base]
    rw [show 27 - (e.CT - n) = (27 - e.CT) + n by omega, pow_add]
    ring
  have hp : 0 < 2 ^ n := by positivity
  refine ⟨g.ext, fun r hr => ?_, fun r => ?_⟩
  · have := g.low r hr
    rw [hs, hb] at this
    apply Nat.lt_of_mul_lt_mul_right (a := 2 ^ n)
    calc _ = base e * 2 ^ n * 2 ^ wr full r := by ring
      _ < _ := this
      _ = _ := by rw [show 15 + (sc e + n) = (15 + sc e) + n by omega, pow_add]; ring
  · have := g.up r
    rw [hs, hb] at this
    apply Nat.lt_of_mul_lt_mul_right (a := 2 ^ n)
    calc _ = vr full r * 2 ^ (15 + (sc e + n)) := by
            rw [show 15 + (sc e + n) = (15 + sc e) + n by omega, pow_add]; ring
      _ < _ := this
      _ = _ := by ring

theorem Ext.value {out full : List Nat} (h : Ext out full) :
    outV out ≤ vr full out.length ∧ wr full out.length = outW out := by
  rcases h with ⟨rest, rfl⟩ | ⟨b, o, rest, rfl, hb, rfl⟩
  · obtain ⟨h1, h2⟩ := vr_wr_append out rest
    exact ⟨h1.ge, h2⟩
  · obtain ⟨h1, h2⟩ := vr_wr_append ((b + 1) :: o) rest
    simp only [List.length_cons] at h1 h2 ⊢
    rw [h1, h2]
    simp only [outV, outW]
    exact ⟨by omega, trivial⟩

theorem Good.byteOut {e : Enc} {full : List Nat} (h : Inv e) (hct : e.CT = 0) (g : Good (byteOut e) full) : Good e full := by
  obtain ⟨hb, hs, -, hc, ⟨hct7, hct8⟩, ⟨B, hB⟩, -, -⟩ := byteOut_spec h hct
  have hlen : (Std.byteOut e).out.length = e.out.length + 1 := by
    rcases hB with hB | ⟨b, o, ho, -, hB⟩
    · rw [hB]; rfl
    · rw [hB, ho]; rfl
  refine ⟨?_, fun r hr => ?_, fun r => ?_⟩
  · rcases g.ext with ⟨rest, hf⟩ | ⟨b', o', rest, ho', -, hf⟩
    · rcases hB with hB | ⟨b, o, ho, hbne, hB⟩
      · exact Or.inl ⟨B :: rest, by rw [hf, hB]; simp⟩
      · exact Or.inr ⟨b, o, B :: rest, ho, hbne, by rw [hf, hB]; simp⟩
    · rcases hB with hB | ⟨b, o, ho, hbne, hB⟩
      · rw [hB] at ho'
        simp only [List.cons.injEq] at ho'
        exact Or.inl ⟨(b' + 1) :: rest, by rw [hf, ho'.2]; simp⟩
      · rw [hB] at ho'
        simp only [List.cons.injEq] at ho'
        exact Or.inr ⟨b, o, (b' + 1) :: rest, ho, hbne, by rw [hf, ← ho'.2]; simp⟩
  · rcases Nat.lt_or_ge (e.out.length + 1) r with h1 | h1
    · have := g.low r (by omega)
      rwa [hb, hs] at this
    · have hr' : r = (Std.byteOut e).out.length := by omega
      obtain ⟨hv, hw⟩ := g.ext.value
      rw [hr', hw, ← hb]
      have hw0 : 15 + sc e = outW (Std.byteOut e).out + (27 - (Std.byteOut e).CT) := by
        rw [← hs]; simp only [sc]
        have : 7 ≤ outW (Std.byteOut e).out := by
          cases ho : (Std.byteOut e).out with
          | nil => rw [ho] at hlen; simp at hlen
          | cons c o => simp only [outW]; rcases bitsO_cases o with x | x <;> omega
        omega
      rw [hw0, pow_add]
      have : base (Std.byteOut e) < (outV (Std.byteOut e).out + 1) * 2 ^ (27 - (Std.byteOut e).CT) := by
        simp only [base]; rw [add_mul, one_mul]; omega
      calc _ < (outV (Std.byteOut e).out + 1) * 2 ^ (27 - (Std.byteOut e).CT) * 2 ^ outW (Std.byteOut e).out :=
            Nat.mul_lt_mul_of_pos_right this (by positivity)
        _ ≤ (vr full (Std.byteOut e).out.length + 1) * 2 ^ (27 - (Std.byteOut e).CT) * 2 ^ outW (Std.byteOut e).out := by
            gcongr
        _ = _ := by ring
  · have := g.up r
    rwa [hb, hs, byteOut_A] at this

/-! ### Renormalisation -/

/-- `e1` is `e` shifted by `n`. -/
structure Shifted (e e1 : Enc) (n : Nat) : Prop where
  a : e1.A = e.A * 2 ^ n
  base : base e1 = base e * 2 ^ n
  sc : sc e1 = sc e + n
  i : e1.I = e.I
  mps : e1.MPS = e.MPS
  inv : Inv e1
  ct : 1 ≤ e1.CT
  good : ∀ full, Good e1 full → Good e full

theorem shift1_spec {e : Enc} (h : Inv e) (hct : 1 ≤ e.CT) (hA : e.A < 0x8000) : Shifted e (shift1 e) 1 := by
  set e1 : Enc := { e with A := e.A * 2, C := e.C * 2, CT := e.CT - 1 } with he1
  have hp : 2 ^ (27 - (e.CT - 1)) = 2 * 2 ^ (27 - e.CT) := by
    have := h.ct
    rw [show 27 - (e.CT - 1) = (27 - e.CT) + 1 by omega, pow_succ]; ring
  have hp' : 2 ^ (24 - (e.CT - 1)) = 2 * 2 ^ (24 - e.CT) := by
    have := h.ct
    rw [show 24 - (e.CT - 1) = (24 - e.CT) + 1 by omega, pow_succ]; ring
  have h1 : Inv e1 := by
    refine ⟨?_, ?_, ?_, ?_, ?_, h.ok, ?_⟩
    · have := h.ct; simp only [he1]; omega
    · have := h.apos; simp only [he1]; omega
    · have := h.bound; simp only [he1]; rw [hp, hp']; omega
    · intro ho; have := h.first ho; simp only [he1]; rw [hp]; omega
    · intro b o ho hff
      have := h.stuffed b o ho hff
      simp only [he1]
      rw [hp]
      calc _ = 2 * (b * 2 ^ (27 - e.CT) + (e.C + e.A)) := by ring
        _ ≤ 2 * (0x90 * 2 ^ (27 - e.CT)) := by omega
        _ = _ := by ring
    · have := h.ctw; simp only [he1]; omega
  have hb1 : base e1 = base e * 2 ^ 1 := by
    simp only [base, he1, hp]; ring
  have hs1 : sc e1 = sc e + 1 := by
    have := h.ctw
    simp only [Std.sc, he1]; omega
  have hg1 : ∀ full, Good e1 full → Good e full := fun full g => by
    refine Good.shift (n := 1) (a := e.A * 2) hct h.ct h.ctw (by ring) ?_
    rw [pow_one]; exact g
  have hS : shift1 e = if e1.CT = 0 then byteOut e1 else e1 := rfl
  rw [hS]
  by_cases c : e1.CT = 0
  · rw [if_pos c]
    obtain ⟨hb, hs, -, -, ⟨h7, -⟩, -, hinv, -⟩ := byteOut_spec h1 c
    have hA1 : e1.A = e.A * 2 := rfl
    refine ⟨by rw [byteOut_A]; simp [he1], by rw [hb, hb1], by rw [hs, hs1], byteOut_I e1, byteOut_MPS e1, hinv ?_, by omega,
      fun full g => hg1 full (Good.byteOut h1 c g)⟩
    rw [hA1]; norm_num; omega
  · rw [if_neg c]
    exact ⟨by simp [he1], hb1, hs1, rfl, rfl, h1, by omega, hg1⟩

theorem Shifted.trans {e e1 e2 : Enc} {n m : Nat} (h : Shifted e e1 n) (g : Shifted e1 e2 m) : Shifted e e2 (n + m) where
  a := by rw [g.a, h.a, pow_add]; ring
  base := by rw [g.base, h.base, pow_add]; ring
  sc := by rw [g.sc, h.sc]; ring
  i := by rw [g.i, h.i]
  mps := by rw [g.mps, h.mps]
  inv := g.inv
  ct := g.ct
  good := fun full x => h.good full (g.good full x)

theorem renormE_spec (e : Enc) (h : Inv e) (hct : 1 ≤ e.CT) (hA : e.A < 0x8000) :
    ∃ n, 1 ≤ n ∧ Shifted e (renormE e) n ∧ 0x8000 ≤ (renormE e).A ∧ (renormE e).A < 0x10000 := by
  induction e using renormE.induct with
  | case1 e hc ih =>
    rw [renormE, if_pos hc]
    have hs := shift1_spec h hct hA
    obtain ⟨n, hn, hn2, h3⟩ := ih hs.inv hs.ct hc.2
    exact ⟨1 + n, by omega, hs.trans hn2, h3⟩
  | case2 e hc =>
    rw [renormE, if_neg hc]
    have hs := shift1_spec h hct hA
    have h1 := hs.inv.apos
    have h2 := hs.a
    refine ⟨1, le_refl _, hs, ?_, ?_⟩
    · by_contra hlt; exact hc ⟨h1, by omega⟩
    · rw [h2]; omega

/-! ### One decision -/

/-- The state between two decisions. -/
structure Ready (e : Enc) : Prop where
  inv : Inv e
  ct : 1 ≤ e.CT
  lo : 0x8000 ≤ e.A
  hi : e.A < 0x10000

theorem Inv.sub {e : Enc} (h : Inv e) {a c : Nat} (i m : Nat → Nat) (ha : 0 < a) (hca : c + a ≤ e.C + e.A) :
    Inv { e with A := a, C := c, I := i, MPS := m } where
  ct := h.ct
  apos := ha
  bound := le_trans hca h.bound
  first := fun ho => le_trans hca (h.first ho)
  stuffed := fun b o ho hff => le_trans (Nat.add_le_add_left hca _) (h.stuffed b o ho hff)
  ok := h.ok
  ctw := h.ctw

theorem qe_bounds (i : Nat) : 0 < (row i).qe ∧ (row i).qe ≤ 0x5601 := by
  have hall : ∀ r ∈ table, 0 < r.qe ∧ r.qe ≤ 0x5601 := by decide
  unfold row
  rw [List.getD_eq_getElem?_getD]
  cases hx : table[i]? with
  | none => simp
  | some r => exact hall r (List.mem_of_getElem? hx)

/-- What one decision does to the interval: the upper part (`up`) is the one from `base + Qe` on. -/
structure Coded (e e1 : Enc) (cx : Nat) (up : Bool) (n : Nat) : Prop where
  ready : Ready e1
  a : e1.A = (if up then e.A - (row (e.I cx)).qe else (row (e.I cx)).qe) * 2 ^ n
  base : base e1 = (base e + if up then (row (e.I cx)).qe else 0) * 2 ^ n
  sc : sc e1 = sc e + n
  mid : ∀ full, Good e1 full → Good { e with
    A := if up then e.A - (row (e.I cx)).qe else (row (e.I cx)).qe
    C := e.C + if up then (row (e.I cx)).qe else 0 } full

theorem Coded.good {e e1 : Enc} {cx n : Nat} {up : Bool} (h : Coded e e1 cx up n) (hlo : 0x8000 ≤ e.A) (full : List Nat)
    (g : Good e1 full) : Good e full := by
  obtain ⟨q1, q2⟩ := qe_bounds (e.I cx)
  refine (h.mid full g).sub rfl rfl (Nat.le_add_right _ _) ?_
  simp only
  split_ifs <;> omega

theorem renorm_coded {e : Enc} (h : Ready e) (cx : Nat) (up : Bool) (i m : Nat → Nat) (a c : Nat)
    (ha : a = if up then e.A - (row (e.I cx)).qe else (row (e.I cx)).qe)
    (hc : c = e.C + if up then (row (e.I cx)).qe else 0) (hlt : a < 0x8000) :
    ∃ n, 1 ≤ n ∧ Coded e (renormE { e with A := a, C := c, I := i, MPS := m }) cx up n ∧
      (renormE { e with A := a, C := c, I := i, MPS := m }).I = i ∧
      (renormE { e with A := a, C := c, I := i, MPS := m }).MPS = m := by
  obtain ⟨q1, q2⟩ := qe_bounds (e.I cx)
  have hlo := h.lo
  have ha0 : 0 < a := by rw [ha]; split_ifs <;> omega
  have hca : c + a ≤ e.C + e.A := by rw [ha, hc]; split_ifs <;> omega
  obtain ⟨n, hn, hs, h1, h2⟩ := renormE_spec _ (h.inv.sub i m ha0 hca) h.ct hlt
  refine ⟨n, hn, ⟨⟨hs.inv, hs.ct, h1, h2⟩, ?_, ?_, hs.sc, fun full g => ?_⟩, hs.i, hs.mps⟩
  · rw [hs.a, ← ha]
  · rw [hs.base]
    simp only [Std.base, hc]
    ring
  · exact Good.sub (hs.good full g) rfl rfl (by rw [hc]) (by rw [ha, hc])

/-- One decision, as the decoder will see it: which part of the interval is taken, what becomes of the context. -/
theorem encode_spec {e : Enc} (h : Ready e) (cx d : Nat) :
    ∃ (up : Bool) (n : Nat), Coded e (encode e cx d) cx up n ∧
      ((encode e cx d).I, (encode e cx d).MPS) =
        (if up = true ∧ 0x8000 ≤ e.A - (row (e.I cx)).qe then (e.I, e.MPS)
         else if d = e.MPS cx then (Function.update e.I cx (row (e.I cx)).nmps, e.MPS)
         else (Function.update e.I cx (row (e.I cx)).nlps,
               Function.update e.MPS cx (if (row (e.I cx)).switch = 1 then 1 - e.MPS cx else e.MPS cx))) ∧
      (d = e.MPS cx ↔ (if up then ¬ (e.A - (row (e.I cx)).qe < (row (e.I cx)).qe)
        else e.A - (row (e.I cx)).qe < (row (e.I cx)).qe)) ∧
      (n = 0 ↔ up = true ∧ 0x8000 ≤ e.A - (row (e.I cx)).qe) := by
  obtain ⟨q1, q2⟩ := qe_bounds (e.I cx)
  have hlo := h.lo
  have hhi := h.hi
  have hmps : encode e cx d = if d = e.MPS cx then codeMPS e cx else codeLPS e cx := rfl
  by_cases hd : d = e.MPS cx
  · rw [hmps, if_pos hd]
    simp only [codeMPS]
    by_cases c1 : e.A - (row (e.I cx)).qe < 0x8000
    · rw [if_pos c1]
      by_cases c2 : e.A - (row (e.I cx)).qe < (row (e.I cx)).qe
      · simp only [if_pos c2]
        obtain ⟨n, hn, hcod, hi, hm⟩ := renorm_coded h cx false (Function.update e.I cx (row (e.I cx)).nmps) e.MPS
          (row (e.I cx)).qe e.C (by simp) (by simp) (by omega)
        refine ⟨false, n, hcod, ?_, ?_, ?_⟩
        · rw [hi, hm]; simp [hd]
        · simp [hd, c2]
        · simp; omega
      · simp only [if_neg c2]
        obtain ⟨n, hn, hcod, hi, hm⟩ := renorm_coded h cx true (Function.update e.I cx (row (e.I cx)).nmps) e.MPS
          (e.A - (row (e.I cx)).qe) (e.C + (row (e.I cx)).qe) (by simp) (by simp) c1
        refine ⟨true, n, hcod, ?_, ?_, ?_⟩
        · rw [hi, hm]
          rw [if_neg (by omega), if_pos hd]
        · simp only [if_true, hd, true_iff]; exact c2
        · simp only [true_and]; omega
    · rw [if_neg c1]
      refine ⟨true, 0, ⟨⟨?_, h.ct, by show 0x8000 ≤ e.A - _; omega, by show e.A - _ < _; omega⟩, by simp, ?_, rfl, fun full g => ?_⟩, ?_, ?_, ?_⟩
      · exact h.inv.sub e.I e.MPS (by omega) (by omega)
      · simp only [Std.base, if_true]; ring
      · exact g.sub rfl rfl (by simp) (by simp)
      · rw [if_pos ⟨rfl, by omega⟩]
      · simp only [if_true, hd, true_iff]; omega
      · simp only [true_and, true_iff]; omega
  · rw [hmps, if_neg hd]
    simp only [codeLPS]
    by_cases c2 : e.A - (row (e.I cx)).qe < (row (e.I cx)).qe
    · simp only [if_pos c2]
      obtain ⟨n, hn, hcod, hi, hm⟩ := renorm_coded h cx true (Function.update e.I cx (row (e.I cx)).nlps)
        (Function.update e.MPS cx (if (row (e.I cx)).switch = 1 then 1 - e.MPS cx else e.MPS cx))
        (e.A - (row (e.I cx)).qe) (e.C + (row (e.I cx)).qe) (by simp) (by simp) (by omega)
      refine ⟨true, n, hcod, ?_, ?_, ?_⟩
      · have hx : ¬(true = true ∧ 0x8000 ≤ e.A - (row (e.I cx)).qe) := fun x => by have := x.2; omega
        rw [hi, hm, if_neg hx, if_neg hd]
      · simp only [if_true, hd, false_iff, not_not]; exact c2
      · simp only [true_and]; omega
    · simp only [if_neg c2]
      obtain ⟨n, hn, hcod, hi, hm⟩ := renorm_coded h cx false (Function.update e.I cx (row (e.I cx)).nlps)
        (Function.update e.MPS cx (if (row (e.I cx)).switch = 1 then 1 - e.MPS cx else e.MPS cx))
        (row (e.I cx)).qe e.C (by simp) (by simp) (by omega)
      refine ⟨false, n, hcod, ?_, ?_, ?_⟩
      · rw [hi, hm]; simp [hd]
      · simp [hd, c2]
      · simp; omega

/-! ### Termination -/

theorem vr_wr_past (l : List Nat) (k : Nat) :
    (vr l (l.length + k) + 1) * 2 ^ wr l l.length = (vr l l.length + 1) * 2 ^ wr l (l.length + k) := by
  induction k with
  | zero => rfl
  | succ k ih =>
    have hb : bitsAt l (l.length + k) = 8 := by unfold bitsAt; rw [if_neg (by omega)]
    have hy : byteAt l (l.length + k) = 0xFF := by simp [byteAt, List.getD]
    rw [← Nat.add_assoc]
    simp only [vr, wr, hb, hy]
    rw [pow_add]
    calc _ = (vr l (l.length + k) + 1) * 2 ^ wr l l.length * 2 ^ 8 := by ring
      _ = _ := by rw [ih]; ring

theorem vr_mono (l : List Nat) (r k : Nat) : vr l r * 2 ^ wr l (r + k) ≤ vr l (r + k) * 2 ^ wr l r := by
  induction k with
  | zero => exact le_refl _
  | succ k ih =>
    rw [← Nat.add_assoc]
    simp only [vr, wr]
    rw [pow_add]
    calc _ = vr l r * 2 ^ wr l (r + k) * 2 ^ bitsAt l (r + k) := by ring
      _ ≤ vr l (r + k) * 2 ^ wr l r * 2 ^ bitsAt l (r + k) := Nat.mul_le_mul_right _ ih
      _ = vr l (r + k) * 2 ^ bitsAt l (r + k) * 2 ^ wr l r := by ring
      _ ≤ _ := Nat.mul_le_mul_right _ (Nat.le_add_right _ _)

/-- However far the bytes are read, they stay below what they are with all bits one from the end on. -/
theorem vr_lt_sup (l : List Nat) (r : Nat) : vr l r * 2 ^ wr l l.length < (vr l l.length + 1) * 2 ^ wr l r := by
  rcases Nat.le_total r l.length with h | h
  · obtain ⟨k, hk⟩ := Nat.exists_eq_add_of_le h
    rw [hk]
    have := vr_mono l r k
    have hp : 0 < 2 ^ wr l r := by positivity
    calc _ ≤ vr l (r + k) * 2 ^ wr l r := this
      _ < _ := Nat.mul_lt_mul_of_pos_right (Nat.lt_succ_self _) hp
  · obtain ⟨k, hk⟩ := Nat.exists_eq_add_of_le h
    rw [hk, ← vr_wr_past]
    exact Nat.mul_lt_mul_of_pos_right (Nat.lt_succ_self _) (by positivity)

theorem byteOut_out_congr {e f : Enc} (h1 : e.out = f.out) (h2 : e.C = f.C) : (byteOut e).out = (byteOut f).out := by
  simp only [byteOut, h1, h2]
  split_ifs <;> rfl

theorem push_eq (e : Enc) (a : Nat) :
    (push e).out = (byteOut { e with A := a, C := e.C * 2 ^ e.CT, CT := 0 }).out ∧
    (push e).C = (byteOut { e with A := a, C := e.C * 2 ^ e.CT, CT := 0 }).C ∧
    (push e).CT = (byteOut { e with A := a, C := e.C * 2 ^ e.CT, CT := 0 }).CT := by
  simp only [push, byteOut]
  split_ifs <;> exact ⟨rfl, rfl, rfl⟩

theorem Inv.shift {e : Enc} (h : Inv e) {n : Nat} (hn : n ≤ e.CT) :
    Inv { e with A := e.A * 2 ^ n, C := e.C * 2 ^ n, CT := e.CT - n } := by
  have h12 := h.ct
  have hp : 2 ^ (27 - (e.CT - n)) = 2 ^ (27 - e.CT) * 2 ^ n := by
    rw [show 27 - (e.CT - n) = (27 - e.CT) + n by omega, pow_add]
  have hp' : 2 ^ (24 - (e.CT - n)) = 2 ^ (24 - e.CT) * 2 ^ n := by
    rw [show 24 - (e.CT - n) = (24 - e.CT) + n by omega, pow_add]
  have hn0 : 0 < 2 ^ n := by positivity
  refine ⟨by show e.CT - n ≤ 12; omega, Nat.mul_pos h.apos hn0, ?_, fun ho => ?_, fun b o ho hff => ?_, h.ok, ?_⟩
  · show e.C * 2 ^ n + e.A * 2 ^ n ≤ _
    simp only
    rw [hp, hp', ← add_mul, ← add_mul]
    exact Nat.mul_le_mul_right _ h.bound
  · show e.C * 2 ^ n + e.A * 2 ^ n ≤ _
    simp only
    rw [hp, ← add_mul]
    exact Nat.mul_le_mul_right _ (h.first ho)
  · simp only
    rw [hp, ← add_mul, ← mul_assoc, ← mul_assoc, ← add_mul]
    exact Nat.mul_le_mul_right _ (h.stuffed b o ho hff)
  · show e.CT - n ≤ _
    have := h.ctw
    omega

theorem setBits_spec {e : Enc} (h : Ready e) :
    e.C ≤ (setBits e).C ∧ (setBits e).C + 1 ≤ e.C + e.A ∧ (setBits e).C % 2 ^ 15 = 2 ^ 15 - 1 := by
  have h1 := h.lo
  have h2 := h.hi
  simp only [setBits]
  norm_num
  split_ifs <;> refine ⟨?_, ?_, ?_⟩ <;> omega

/-- What the two bytes of termination leave. -/
theorem flush_good {e : Enc} (h : Ready e) :
    Good e (push (push (setBits e))).out.reverse ∧ OkOut (push (push (setBits e))).out := by
  obtain ⟨s1, s2, s3⟩ := setBits_spec h
  have hx12 := h.inv.ct
  -- the states
  set e0 : Enc := { e with A := 1, C := (setBits e).C } with he0
  have i0 : Inv e0 := h.inv.sub e.I e.MPS (by norm_num) s2
  have i0s := i0.shift (n := e.CT) (le_refl _)
  have hct0 : e0.CT = e.CT := rfl
  set e0s : Enc := { e0 with A := e0.A * 2 ^ e.CT, C := e0.C * 2 ^ e.CT, CT := e0.CT - e.CT } with he0s
  have c0s : e0s.CT = 0 := by simp [he0s, he0]
  obtain ⟨b1, sc1, -, -, ⟨h17, h18⟩, -, inv1, -⟩ := byteOut_spec i0s c0s
  have hA0 : e0s.A = 2 ^ e.CT := by simp [he0s, he0]
  have i1 : Inv (byteOut e0s) := inv1 (by rw [hA0]; exact Nat.pow_le_pow_right (by norm_num) (by omega))
  have i1s := i1.shift (n := (byteOut e0s).CT) (le_refl _)
  set e1 := byteOut e0s with he1
  set e1s : Enc := { e1 with A := e1.A * 2 ^ e1.CT, C := e1.C * 2 ^ e1.CT, CT := e1.CT - e1.CT } with he1s
  have c1s : e1s.CT = 0 := by simp [he1s]
  obtain ⟨b2, sc2, ok2, cl2, ⟨h27, h28⟩, -, -, -⟩ := byteOut_spec i1s c1s
  set e2 := byteOut e1s with he2
  -- they are those of `push`
  have p1 := push_eq (setBits e) (e0.A * 2 ^ e.CT)
  have hst : ({ setBits e with A := e0.A * 2 ^ e.CT, C := (setBits e).C * 2 ^ (setBits e).CT, CT := 0 } : Enc) = e0s := by
    simp [he0s, he0, setBits]
  rw [hst] at p1
  have p2 := push_eq (push (setBits e)) (e1.A * 2 ^ e1.CT)
  have hst2 : (byteOut { push (setBits e) with A := e1.A * 2 ^ e1.CT, C := (push (setBits e)).C * 2 ^ (push (setBits e)).CT, CT := 0 }).out
      = e2.out := by
    rw [he2]
    refine byteOut_out_congr p1.1 ?_
    show (push (setBits e)).C * 2 ^ (push (setBits e)).CT = e1.C * 2 ^ e1.CT
    rw [p1.2.1, p1.2.2]
  rw [hst2] at p2
  have hout : (push (push (setBits e))).out = e2.out := p2.1
  rw [hout]
  refine ⟨?_, ok2⟩
  -- values
  have hv := vr_wr_append e2.out []
  rw [List.append_nil] at hv
  have hlen : e2.out.reverse.length = e2.out.length := List.length_reverse
  have hW : 15 + sc e2 = outW e2.out + (27 - e2.CT) := by
    have hlen : 7 ≤ outW e2.out := by
      cases ho : e2.out with
      | nil => 
        obtain ⟨-, -, -, -, -, ⟨B, hB⟩, -⟩ := byteOut_spec i1s c1s
        rw [← he2, ho] at hB
        simp at hB
      | cons c o => simp only [outW]; rcases bitsO_cases o with x | x <;> omega
    simp only [sc]; omega
  have hb2 : base e2 = base e0 * 2 ^ (e.CT + e1.CT) := by
    rw [b2, pow_add]
    have e1b : base e1s = base e1 * 2 ^ e1.CT := by
      simp only [base, he1s]
      rw [Nat.sub_self, show 27 - 0 = (27 - e1.CT) + e1.CT by omega, pow_add]; ring
    have e0b : base e0s = base e0 * 2 ^ e.CT := by
      simp only [base, he0s]
      rw [hct0, Nat.sub_self, show 27 - 0 = (27 - e.CT) + e.CT by omega, pow_add]; ring
    rw [e1b, b1, e0b]; ring
  have hA2 : e2.A = 2 ^ (e.CT + e1.CT) := by
    rw [he2, byteOut_A, he1s]
    simp only
    rw [he1, byteOut_A, hA0, ← pow_add]
  have key : (outV e2.out + 1) * 2 ^ (27 - e2.CT) ≤ base e2 + e2.A := by
    rw [hA2]
    have hbase : base e2 = outV e2.out * 2 ^ (27 - e2.CT) + e2.C := rfl
    rcases Nat.le_total (27 - e2.CT) (e.CT + e1.CT) with hz | hz
    · rw [hbase, add_mul, one_mul]
      have : 2 ^ (27 - e2.CT) ≤ 2 ^ (e.CT + e1.CT) := Nat.pow_le_pow_right (by norm_num) hz
      omega
    · obtain ⟨u, hu⟩ := Nat.exists_eq_add_of_le hz
      have hct1 := h.ct
      have hu15 : u ≤ 15 := by omega
      have hb0 : base e0 % 2 ^ 15 = 2 ^ 15 - 1 := by
        simp only [base, he0]
        rw [show 27 - e.CT = (12 - e.CT) + 15 by omega, pow_add, ← mul_assoc, Nat.mul_add_mod_self_right, s3]
      have hb0u : base e0 % 2 ^ u = 2 ^ u - 1 := by
        have hd : 2 ^ u ∣ 2 ^ 15 := Nat.pow_dvd_pow 2 hu15
        rw [← Nat.mod_mod_of_dvd _ hd, hb0]
        obtain ⟨k, hk⟩ := hd
        have hup : 0 < 2 ^ u := by positivity
        have hk0 : 0 < k := by
          rcases Nat.eq_zero_or_pos k with h0 | h0
          · rw [h0, mul_zero] at hk; norm_num at hk
          · exact h0
        rw [hk]
        obtain ⟨k', rfl⟩ : ∃ k', k = k' + 1 := ⟨k - 1, by omega⟩
        rw [mul_add, mul_one, Nat.add_sub_assoc (by omega), Nat.mul_add_mod]
        exact Nat.mod_eq_of_lt (by omega)
      rw [hu, pow_add] at cl2 hbase ⊢
      rw [hb2] at hbase ⊢
      set Z := 2 ^ (e.CT + e1.CT) with hZ
      have hZ0 : 0 < Z := by positivity
      have hU0 : 0 < 2 ^ u := by positivity
      -- the remaining bits are ones
      have hq : base e0 = outV e2.out * 2 ^ u + e2.C / Z := by
        have : base e0 * Z / Z = (outV e2.out * 2 ^ u * Z + e2.C) / Z := by rw [hbase]; congr 1; ring
        rwa [Nat.mul_div_cancel _ hZ0, Nat.mul_comm _ Z, Nat.mul_add_div hZ0] at this
      have hlt : e2.C / Z < 2 ^ u := by
        rw [Nat.div_lt_iff_lt_mul hZ0]
        calc _ < _ := cl2
          _ = _ := by ring
      have hc : e2.C / Z = 2 ^ u - 1 := by
        rw [hq, Nat.mul_comm, Nat.mul_add_mod, Nat.mod_eq_of_lt hlt] at hb0u
        exact hb0u
      have hfin : base e0 + 1 = (outV e2.out + 1) * 2 ^ u := by
        rw [hq, hc, add_mul]; omega
      calc _ = (outV e2.out + 1) * 2 ^ u * Z := by ring
        _ = (base e0 + 1) * Z := by rw [hfin]
        _ = _ := by ring
        _ ≤ _ := le_refl _
  have g2 : Good e2 e2.out.reverse := by
    refine ⟨Or.inl ⟨[], by simp⟩, fun r hr => ?_, fun r => ?_⟩
    · obtain ⟨k, hk⟩ := Nat.exists_eq_add_of_le hr.le
      have hpast := vr_wr_past e2.out.reverse k
      rw [hlen, ← hk, hv.1, hv.2] at hpast
      rw [hW, pow_add]
      have hlt : base e2 < (outV e2.out + 1) * 2 ^ (27 - e2.CT) := by
        simp only [base]; rw [add_mul, one_mul]; omega
      calc _ < (outV e2.out + 1) * 2 ^ (27 - e2.CT) * 2 ^ wr e2.out.reverse r :=
            Nat.mul_lt_mul_of_pos_right hlt (by positivity)
        _ = (outV e2.out + 1) * 2 ^ wr e2.out.reverse r * 2 ^ (27 - e2.CT) := by ring
        _ = _ := by rw [← hpast]; ring
    · have hsup := vr_lt_sup e2.out.reverse r
      rw [hlen, hv.1, hv.2] at hsup
      rw [hW, pow_add, ← mul_assoc]
      calc _ < (outV e2.out + 1) * 2 ^ wr e2.out.reverse r * 2 ^ (27 - e2.CT) :=
            Nat.mul_lt_mul_of_pos_right hsup (by positivity)
        _ = (outV e2.out + 1) * 2 ^ (27 - e2.CT) * 2 ^ wr e2.out.reverse r := by ring
        _ ≤ _ := Nat.mul_le_mul_right _ key
  have g1s : Good e1s e2.out.reverse := Good.byteOut i1s c1s g2
  have g1 : Good e1 e2.out.reverse := Good.shift (le_refl _) i1.ct i1.ctw rfl g1s
  have g0s : Good e0s e2.out.reverse := Good.byteOut i0s c0s g1
  have g0 : Good e0 e2.out.reverse := Good.shift (le_refl _) i0.ct i0.ctw rfl g0s
  exact g0.sub rfl rfl s1 s2

/-- The bytes of a segment: bytes, none over 0x8F after 0xFF. -/
def OkCode (l : List Nat) : Prop :=
  (∀ b ∈ l, b < 256) ∧ ∀ r b, l[r]? = some 0xFF → l[r + 1]? = some b → b ≤ 0x8F

theorem okOut_code {o : List Nat} (h : OkOut o) : OkCode o.reverse := by
  induction o with
  | nil => exact ⟨by simp, by simp⟩
  | cons b o ih =>
    obtain ⟨h1, h2, h3⟩ := h
    obtain ⟨g1, g2⟩ := ih h3
    refine ⟨fun x hx => ?_, fun r x hr hx => ?_⟩
    · simp only [List.reverse_cons, List.mem_append, List.mem_singleton] at hx
      rcases hx with hx | rfl
      · exact g1 x hx
      · exact h1
    · rw [List.reverse_cons] at hr hx
      rcases Nat.lt_trichotomy (r + 1) o.reverse.length with hlt | heq | hgt
      · rw [List.getElem?_append_left (by omega)] at hr
        rw [List.getElem?_append_left hlt] at hx
        exact g2 r x hr hx
      · rw [heq, List.getElem?_append_right (le_refl _), Nat.sub_self] at hx
        rw [List.getElem?_append_left (by omega)] at hr
        simp only [List.getElem?_cons_zero, Option.some.injEq] at hx
        subst hx
        apply h2
        cases o with
        | nil => simp at heq
        | cons c o' =>
          rw [List.reverse_cons, List.getElem?_append_right (by simp at heq ⊢; omega)] at hr
          simp only [List.length_reverse, List.length_cons] at heq hr
          rw [show r - o'.length = 0 by omega] at hr
          simpa using hr
      · rw [List.getElem?_append_right (by omega)] at hx
        have : 0 < r + 1 - o.reverse.length := by omega
        obtain ⟨k, hk⟩ : ∃ k, r + 1 - o.reverse.length = k + 1 := ⟨_, (Nat.succ_pred_eq_of_pos this).symm⟩
        rw [hk] at hx
        simp at hx

theorem OkCode.init {l : List Nat} {b : Nat} (h : OkCode (l ++ [b])) : OkCode l := by
  refine ⟨fun x hx => h.1 x (List.mem_append_left _ hx), fun r x hr hx => ?_⟩
  have h1 : r + 1 < l.length := by
    by_contra hc
    rw [List.getElem?_eq_none (by omega)] at hx
    simp at hx
  exact h.2 r x (by rw [List.getElem?_append_left (by omega)]; exact hr) (by rw [List.getElem?_append_left h1]; exact hx)

/-- A last byte 0xFF says nothing that is not said by its absence. -/
theorem drop_ff (l : List Nat) (h : OkCode (l ++ [0xFF])) (r : Nat) :
    vr (l ++ [0xFF]) r = vr l r ∧ wr (l ++ [0xFF]) r = wr l r := by
  induction r with
  | zero => exact ⟨rfl, rfl⟩
  | succ r ih =>
    have hy : byteAt (l ++ [0xFF]) r = byteAt l r := by
      simp only [byteAt, List.getD_eq_getElem?_getD]
      rcases Nat.lt_trichotomy r l.length with h1 | h1 | h1
      · rw [List.getElem?_append_left h1]
      · subst h1; simp
      · rw [List.getElem?_eq_none (by simp; omega), List.getElem?_eq_none (by omega)]
    have hb : bitsAt (l ++ [0xFF]) r = bitsAt l r := by
      unfold bitsAt
      rcases Nat.lt_trichotomy r l.length with h1 | h1 | h1
      · congr 1
        rw [List.getElem?_append_left (by omega)]
        simp [h1, Nat.lt_succ_of_lt h1]
      · rw [if_neg, if_neg (by omega)]
        rintro ⟨-, h0, hf⟩
        rw [List.getElem?_append_left (by omega)] at hf
        have := h.2 (r - 1) 0xFF (by rw [List.getElem?_append_left (by omega)]; exact hf)
          (by rw [show r - 1 + 1 = l.length by omega]; simp)
        omega
      · rw [if_neg (by simp; omega), if_neg (by omega)]
    simp only [vr, wr, hy, hb, ih.1, ih.2]
    exact ⟨trivial, trivial⟩

theorem encodeAll_ready (xs : List (Nat × Nat)) (e : Enc) (h : Ready e) : Ready (encodeAll e xs) := by
  induction xs generalizing e with
  | nil => exact h
  | cons x xs ih =>
    obtain ⟨up, n, hc, -⟩ := encode_spec h x.1 x.2
    exact ih _ hc.ready

theorem encodeAll_good (full : List Nat) (xs : List (Nat × Nat)) (e : Enc) (h : Ready e) (g : Good (encodeAll e xs) full) :
    Good e full := by
  induction xs generalizing e with
  | nil => exact g
  | cons x xs ih =>
    obtain ⟨up, n, hc, -⟩ := encode_spec h x.1 x.2
    exact hc.good h.lo full (ih _ hc.ready g)

/-- **What a segment says about each interval on the way to it.** -/
theorem code_good (xs : List (Nat × Nat)) (e : Enc) (h : Ready e) :
    OkCode (flush (encodeAll e xs)) ∧
    ∃ full, Good e full ∧ ∀ r, vr full r = vr (flush (encodeAll e xs)) r ∧ wr full r = wr (flush (encodeAll e xs)) r := by
  obtain ⟨g, ok⟩ := flush_good (encodeAll_ready xs e h)
  have g' := encodeAll_good _ xs e h g
  have hok := okOut_code ok
  unfold flush
  cases ho : (push (push (setBits (encodeAll e xs)))).out with
  | nil =>
    rw [ho] at g' hok
    exact ⟨hok, _, g', fun r => ⟨rfl, rfl⟩⟩
  | cons b o =>
    rw [ho] at g' hok
    simp only
    by_cases hb : b = 0xFF
    · rw [if_pos hb]
      subst hb
      rw [List.reverse_cons] at g' hok
      exact ⟨hok.init, _, g', drop_ff _ hok⟩
    · rw [if_neg hb]
      exact ⟨hok, _, g', fun r => ⟨rfl, rfl⟩⟩

theorem wr_mono (l : List Nat) {r s : Nat} (h : r ≤ s) : wr l r ≤ wr l s := by
  obtain ⟨k, rfl⟩ := Nat.exists_eq_add_of_le h
  clear h
  induction k with
  | zero => exact le_refl _
  | succ k ih => exact le_trans ih (Nat.le_add_right _ _)

/-- The bytes `cod`, read to any place fine enough, are in the interval that begins at `B` and is `A` wide, in units of
`2 ^ (-w)`; in no case are they above it. -/
structure Fits (B A w : Nat) (cod : List Nat) : Prop where
  low : ∀ r, w ≤ wr cod r → B * 2 ^ wr cod r < (vr cod r + 1) * 2 ^ w
  up : ∀ r, vr cod r * 2 ^ w < (B + A) * 2 ^ wr cod r

theorem Good.fits {e : Enc} {full cod : List Nat} (h : e.CT ≤ 12) (hw : e.CT ≤ outW e.out + 12) (g : Good e full)
    (hc : ∀ r, vr full r = vr cod r ∧ wr full r = wr cod r) : Fits (base e) e.A (15 + sc e) cod := by
  refine ⟨fun r hr => ?_, fun r => ?_⟩
  · rw [← (hc r).1, ← (hc r).2] at *
    apply g.low
    by_contra hlt
    have h1 := wr_mono full (Nat.le_of_not_lt hlt)
    rw [g.ext.value.2] at h1
    simp only [sc] at hr
    omega
  · rw [← (hc r).1, ← (hc r).2]
    exact g.up r

theorem ready_init (i mps : Nat → Nat) : Ready (initEnc i mps) := by
  refine ⟨⟨by simp [initEnc], by simp [initEnc], by simp [initEnc], by simp [initEnc], by simp [initEnc], trivial, by simp [initEnc]⟩,
    by simp [initEnc], by simp [initEnc], by simp [initEnc]⟩

end Verif.Ebcot.Std
