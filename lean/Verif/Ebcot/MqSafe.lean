import Verif.Ebcot.MqDec
/-
Decoding arbitrary bytes.
-/
namespace Verif.Ebcot

/-- No byte of the segment carries into a 0xFF before it: what follows a 0xFF is below 0x80, or a marker (over 0x8F). -/
def NoCarry (buf : List Nat) (pos len : Nat) : Prop :=
  ∀ i b, pos ≤ i → i + 1 < pos + len → buf[i]? = some 0xFF → buf[i + 1]? = some b → b < 0x80 ∨ 0x8F < b

/-- A result is as it should be, or the registers have overflowed and the segment has a carry. -/
def Safe {α : Type} (nc : Prop) (r : Except MqErr α) (P : α → Prop) : Prop :=
  (r = .error .overflow ∧ ¬ nc) ∨ ∃ v, r = .ok v ∧ P v

theorem Safe.ok {α : Type} {nc : Prop} {v : α} {P : α → Prop} (h : P v) : Safe nc (.ok v) P := Or.inr ⟨v, rfl, h⟩

theorem Safe.bind {α β : Type} {nc : Prop} {r : Except MqErr α} {P : α → Prop} {f : α → Except MqErr β} {Q : β → Prop}
    (h : Safe nc r P) (hf : ∀ v, P v → Safe nc (f v) Q) : Safe nc (r.bind f) Q := by
  rcases h with ⟨rfl, h⟩ | ⟨v, rfl, h⟩
  · exact Or.inl ⟨rfl, h⟩
  · exact hf v h

theorem Safe.map {α β : Type} {nc : Prop} {r : Except MqErr α} {P : α → Prop} {f : α → β} {Q : β → Prop}
    (h : Safe nc r P) (hf : ∀ v, P v → Q (f v)) : Safe nc (r.map f) Q := by
  rcases h with ⟨rfl, h⟩ | ⟨v, rfl, h⟩
  · exact Or.inl ⟨rfl, h⟩
  · exact Or.inr ⟨_, rfl, hf v h⟩

theorem Safe.mono {α : Type} {nc : Prop} {r : Except MqErr α} {P Q : α → Prop} (h : Safe nc r P) (hf : ∀ v, P v → Q v) :
    Safe nc r Q := by
  rcases h with h | ⟨v, rfl, h⟩
  · exact Or.inl h
  · exact Or.inr ⟨_, rfl, hf v h⟩

theorem safe_chk {nc : Prop} {n : Nat} (h : nc → n < 2 ^ 31) : Safe nc (chk n) (fun v => v = n) := by
  unfold chk
  split_ifs with c
  · exact Safe.ok rfl
  · exact Or.inl ⟨rfl, fun x => c (h x)⟩

section
variable (buf : List Nat) (pos len : Nat)

/-- The reading position is in the segment. -/
structure Inside (s : Mq) : Prop where
  lmax : s.Lmax = pos + len
  lo : pos ≤ s.L
  hi : s.L ≤ pos + len
  ff : s.T = 0xFF → pos < s.L ∧ buf[s.L - 1]? = some 0xFF

/-- Without carries, `C` is below `A` and has zeros below its last bit. -/
def Below (s : Mq) (t : Nat) : Prop := s.C < s.A ∧ s.C % 2 ^ (8 - t) = 0 ∧ s.A % 256 = 0

variable {buf pos len}

theorem Below.gap {s : Mq} {t : Nat} (h : Below s t) (ht : t ≤ 8) : s.C + 2 ^ (8 - t) ≤ s.A := by
  obtain ⟨h1, h2, h3⟩ := h
  have hd : 2 ^ (8 - t) ∣ 256 := by
    rw [show 256 = 2 ^ 8 by norm_num]; exact Nat.pow_dvd_pow 2 (by omega)
  obtain ⟨x, hx⟩ := Nat.dvd_of_mod_eq_zero h2
  obtain ⟨y, hy⟩ := dvd_trans hd (Nat.dvd_of_mod_eq_zero h3)
  have hp : 0 < 2 ^ (8 - t) := by positivity
  rw [hx, hy] at h1 ⊢
  have hxy : x < y := Nat.lt_of_mul_lt_mul_left h1
  calc 2 ^ (8 - t) * x + 2 ^ (8 - t) = 2 ^ (8 - t) * (x + 1) := by ring
    _ ≤ _ := Nat.mul_le_mul_left _ hxy

theorem fill_safe (hlen : pos + len ≤ buf.length) (hby : ∀ b ∈ buf, b < 256) {s : Mq} (hi : Inside buf pos len s) (hA : s.A < 2 ^ 24)
    (hb : NoCarry buf pos len → Below s 0) :
    Safe (NoCarry buf pos len) (fill buf s) (fun s' => Inside buf pos len s' ∧ (s'.t = 7 ∨ s'.t = 8) ∧ s'.A = s.A ∧ Same s s' ∧
      (NoCarry buf pos len → Below s' s'.t) ∧ (s.T ≠ 0xFF → s'.t = 8) ∧ (NoCarry buf pos len → s'.C < s.C + 256)) := by
  have hone : Safe (NoCarry buf pos len) ((chk (s.C + 0xFF)).map fun c => { s with t := 8, C := c })
      (fun s' => Inside buf pos len s' ∧ (s'.t = 7 ∨ s'.t = 8) ∧ s'.A = s.A ∧ Same s s' ∧
        (NoCarry buf pos len → Below s' s'.t) ∧ (s.T ≠ 0xFF → s'.t = 8) ∧ (NoCarry buf pos len → s'.C < s.C + 256)) := by
    refine Safe.map (safe_chk fun nc => ?_) ?_
    · have := (hb nc).1; norm_num at hA ⊢; omega
    · rintro v rfl
      refine ⟨⟨hi.lmax, hi.lo, hi.hi, hi.ff⟩, Or.inr rfl, rfl, ⟨rfl, rfl⟩, fun nc => ?_, fun _ => rfl, fun _ => by
        show s.C + 0xFF < _; omega⟩
      have hg := (hb nc).gap (by omega)
      refine ⟨?_, ?_, (hb nc).2.2⟩
      · show s.C + 0xFF < s.A; norm_num at hg; omega
      · show (s.C + 0xFF) % 2 ^ (8 - 8) = 0; norm_num; omega
  unfold fill
  by_cases c : s.L = s.Lmax
  · rw [if_pos c]; exact hone
  · rw [if_neg c]
    have h1 := hi.hi
    have hlt : s.L < buf.length := by rw [hi.lmax] at c; omega
    have hrd : rdByte buf s.L = .ok buf[s.L] := by simp only [rdByte, List.getElem?_eq_getElem hlt]
    rw [hrd]
    simp only [Except.bind]
    have hb256 := hby _ (List.getElem_mem hlt)
    set b := buf[s.L] with hbdef
    by_cases c2 : s.T = 0xFF ∧ 0x8F < b
    · rw [if_pos c2]; exact hone
    · rw [if_neg c2]
      have hcarry : NoCarry buf pos len → s.T = 0xFF → b < 0x80 := fun nc hT => by
        obtain ⟨f1, f2⟩ := hi.ff hT
        have := nc (s.L - 1) b (by omega) (by rw [hi.lmax] at c; omega) f2
          (by rw [show s.L - 1 + 1 = s.L by omega, List.getElem?_eq_getElem hlt])
        rcases this with x | x
        · exact x
        · exact absurd ⟨hT, x⟩ c2
      set t := if s.T = 0xFF then 7 else 8 with ht
      have ht2 : t = 7 ∨ t = 8 := by rw [ht]; split_ifs <;> simp
      have hadd : NoCarry buf pos len → b * 2 ^ (8 - t) < 256 := fun nc => by
        rw [ht]
        split_ifs with hT
        · have := hcarry nc hT; norm_num; omega
        · norm_num; omega
      refine Safe.map (safe_chk fun nc => ?_) ?_
      · have := (hb nc).1; have := hadd nc; norm_num at hA ⊢; omega
      · rintro v rfl
        refine ⟨⟨hi.lmax, ?_, ?_, ?_⟩, ht2, rfl, ⟨rfl, rfl⟩, fun nc => ?_, fun hT => ?_, fun nc => ?_⟩
        · show pos ≤ s.L + 1; have := hi.lo; omega
        · show s.L + 1 ≤ _; rw [hi.lmax] at c; omega
        · intro hbT
          show pos < s.L + 1 ∧ buf[s.L + 1 - 1]? = _
          have := hi.lo
          refine ⟨by omega, ?_⟩
          rw [Nat.add_sub_cancel, List.getElem?_eq_getElem hlt]
          exact congrArg some hbT
        · have hg := (hb nc).gap (by omega)
          have := hadd nc
          refine ⟨?_, ?_, (hb nc).2.2⟩
          · show s.C + b * 2 ^ (8 - t) < s.A; norm_num at hg; omega
          · show (s.C + b * 2 ^ (8 - t)) % 2 ^ (8 - t) = 0
            have h0 := (hb nc).2.1
            rw [Nat.add_mul_mod_self_right]
            have hd : 2 ^ (8 - t) ∣ 2 ^ (8 - 0) := Nat.pow_dvd_pow 2 (by omega)
            exact Nat.mod_eq_zero_of_dvd (dvd_trans hd (Nat.dvd_of_mod_eq_zero h0))
        · show t = 8
          rw [ht, if_neg hT]
        · show s.C + b * 2 ^ (8 - t) < _
          have := hadd nc
          omega

theorem shiftBy_safe {s : Mq} {n : Nat} (hi : Inside buf pos len s) (hn : n ≤ s.t) (ht : s.t ≤ 8) (hA : s.A * 2 ^ n < 2 ^ 24)
    (hb : NoCarry buf pos len → Below s s.t) :
    Safe (NoCarry buf pos len) (shiftBy n s) (fun s' => Inside buf pos len s' ∧ s'.t = s.t - n ∧ s'.A = s.A * 2 ^ n ∧ Same s s' ∧
      (NoCarry buf pos len → Below s' s'.t)) := by
  unfold shiftBy
  have hA31 : s.A * 2 ^ n < 2 ^ 31 := lt_trans hA (by norm_num)
  rw [chk_ok hA31]
  simp only [Except.bind]
  have hp : 0 < 2 ^ n := by positivity
  refine Safe.map (safe_chk fun nc => ?_) ?_
  · exact lt_of_le_of_lt (Nat.mul_le_mul_right _ (hb nc).1.le) hA31
  · rintro v rfl
    refine ⟨⟨hi.lmax, hi.lo, hi.hi, hi.ff⟩, rfl, rfl, ⟨rfl, rfl⟩, fun nc => ⟨?_, ?_, ?_⟩⟩
    · exact Nat.mul_lt_mul_of_pos_right (hb nc).1 hp
    · show s.C * 2 ^ n % 2 ^ (8 - (s.t - n)) = 0
      rw [show 8 - (s.t - n) = (8 - s.t) + n by omega, pow_add, Nat.mul_mod_mul_right, (hb nc).2.1, Nat.zero_mul]
    · show s.A * 2 ^ n % 256 = 0
      rw [Nat.mul_mod, (hb nc).2.2, Nat.zero_mul, Nat.zero_mod]

theorem renormLoop_safe (hlen : pos + len ≤ buf.length) (hby : ∀ b ∈ buf, b < 256) (k n : Nat) (hk : n ≤ k) (hn : 0 < n) {s : Mq}
    (hi : Inside buf pos len s) (hA : s.A * 2 ^ n < 2 ^ 24) (hb : NoCarry buf pos len → Below s 0) :
    Safe (NoCarry buf pos len) (renormLoop buf k n s) (fun s' => Inside buf pos len s' ∧ s'.t ≤ 8 ∧ s'.A = s.A * 2 ^ n ∧ Same s s' ∧
      (NoCarry buf pos len → Below s' s'.t)) := by
  induction k generalizing n s with
  | zero => omega
  | succ k ih =>
    have hA24 : s.A < 2 ^ 24 := lt_of_le_of_lt (Nat.le_mul_of_pos_right _ (by positivity)) hA
    unfold renormLoop
    refine Safe.bind (fill_safe hlen hby hi hA24 hb) ?_
    rintro s1 ⟨i1, t1, hA1, sm1, b1, -, -⟩
    simp only
    set sh := if n ≤ s1.t then n else s1.t with hsh
    have hsh1 : sh ≤ s1.t := by rw [hsh]; split_ifs <;> omega
    have hsh2 : sh ≤ n := by rw [hsh]; split_ifs <;> omega
    have hsh3 : 0 < sh := by rw [hsh]; split_ifs <;> omega
    have hp : 2 ^ sh ≤ 2 ^ n := Nat.pow_le_pow_right (by norm_num) hsh2
    refine Safe.bind (shiftBy_safe i1 hsh1 (by omega) (lt_of_le_of_lt (by rw [hA1]; exact Nat.mul_le_mul_left _ hp) hA) b1) ?_
    rintro s2 ⟨i2, t2, hA2, sm2, b2⟩
    by_cases c : 0 < n - sh
    · rw [if_pos c]
      have hsht : sh = s1.t := by
        by_contra hne
        have hle : n ≤ s1.t := by
          by_contra hgt
          exact hne (by rw [hsh, if_neg hgt])
        have : sh = n := by rw [hsh, if_pos hle]
        omega
      have ep : 2 ^ sh * 2 ^ (n - sh) = 2 ^ n := by rw [← pow_add, show sh + (n - sh) = n by omega]
      refine (ih (n - sh) (by omega) c i2 (by rw [hA2, hA1, mul_assoc, ep]; exact hA) (fun nc => ?_)).mono ?_
      · have := b2 nc
        rwa [show s2.t = 0 by omega] at this
      · rintro s3 ⟨i3, t3, hA3, sm3, b3⟩
        exact ⟨i3, t3, by rw [hA3, hA2, hA1, mul_assoc, ep], ⟨by rw [sm3.1, sm2.1, sm1.1], by rw [sm3.2, sm2.2, sm1.2]⟩, b3⟩
    · rw [if_neg c]
      have hsn : sh = n := by omega
      exact Safe.ok ⟨i2, by omega, by rw [hA2, hA1, hsn], ⟨by rw [sm2.1, sm1.1], by rw [sm2.2, sm1.2]⟩, b2⟩

theorem renormalize_safe (hlen : pos + len ≤ buf.length) (hby : ∀ b ∈ buf, b < 256) {s : Mq}
    (hi : Inside buf pos len s) (ht : s.t ≤ 8) (hA0 : 0 < s.A) (hA : s.A < 2 ^ 23) (hb : NoCarry buf pos len → Below s s.t) :
    Safe (NoCarry buf pos len) (renormalize buf s) (fun s' => Inside buf pos len s' ∧ s'.t ≤ 8 ∧ (2 ^ 23 ≤ s'.A ∧ s'.A < 2 ^ 24) ∧ Same s s' ∧
      (NoCarry buf pos len → Below s' s'.t)) := by
  obtain ⟨c1, c2, c3⟩ := clz_spec hA0 hA
  unfold renormalize
  rw [if_neg (by omega)]
  simp only
  set n := clz32 s.A - 8 with hn
  have hn0 : 0 < n := by omega
  have h1 : Safe (NoCarry buf pos len) (if s.t = 0 then fill buf s else .ok s) (fun s' => Inside buf pos len s' ∧ s'.t ≤ 8 ∧ s'.A = s.A ∧
      Same s s' ∧ (NoCarry buf pos len → Below s' s'.t)) := by
    by_cases c : s.t = 0
    · rw [if_pos c]
      refine (fill_safe hlen hby hi (lt_trans hA (by norm_num)) (fun nc => ?_)).mono ?_
      · have := hb nc; rwa [c] at this
      · rintro s' ⟨a, b, c, d, e, -, -⟩
        exact ⟨a, by omega, c, d, e⟩
    · rw [if_neg c]
      exact Safe.ok ⟨hi, ht, rfl, ⟨rfl, rfl⟩, hb⟩
  refine Safe.bind h1 ?_
  rintro s1 ⟨i1, t1, hA1, sm1, b1⟩
  by_cases c : n ≤ s1.t
  · rw [if_pos c]
    refine (shiftBy_safe i1 c t1 (by rw [hA1]; exact c3) b1).mono ?_
    rintro s2 ⟨i2, t2, hA2, sm2, b2⟩
    exact ⟨i2, by omega, by rw [hA2, hA1]; exact ⟨c2, c3⟩, ⟨by rw [sm2.1, sm1.1], by rw [sm2.2, sm1.2]⟩, b2⟩
  · rw [if_neg c]
    have hp : 2 ^ s1.t ≤ 2 ^ n := Nat.pow_le_pow_right (by norm_num) (by omega)
    refine Safe.bind (shiftBy_safe i1 (le_refl _) t1 (lt_of_le_of_lt (by rw [hA1]; exact Nat.mul_le_mul_left _ hp) c3) b1) ?_
    rintro s2 ⟨i2, t2, hA2, sm2, b2⟩
    have ep : 2 ^ s1.t * 2 ^ (n - s1.t) = 2 ^ n := by rw [← pow_add, show s1.t + (n - s1.t) = n by omega]
    refine (renormLoop_safe hlen hby n (n - s1.t) (by omega) (by omega) i2 (by rw [hA2, hA1, mul_assoc, ep]; exact c3) (fun nc => ?_)).mono ?_
    · have := b2 nc
      rwa [show s2.t = 0 by omega] at this
    · rintro s3 ⟨i3, t3, hA3, sm3, b3⟩
      refine ⟨i3, t3, ?_, ⟨by rw [sm3.1, sm2.1, sm1.1], by rw [sm3.2, sm2.2, sm1.2]⟩, b3⟩
      rw [hA3, hA2, hA1, mul_assoc, ep]
      exact ⟨c2, c3⟩

/-- What holds between two calls of `decode`. -/
structure MqInv (buf : List Nat) (pos len : Nat) (s : Mq) : Prop where
  inside : Inside buf pos len s
  t8 : s.t ≤ 8
  alo : 2 ^ 23 ≤ s.A
  ahi : s.A < 2 ^ 24
  ctx : CtxOk s.sigma s.mps
  below : NoCarry buf pos len → Below s s.t

theorem decode_safe (hlen : pos + len ≤ buf.length) (hby : ∀ b ∈ buf, b < 256) {s : Mq} (h : MqInv buf pos len s) {cx : Nat} (hcx : cx < 19) :
    Safe (NoCarry buf pos len) (decode buf s cx) (fun r => r.1 ≤ 1 ∧ MqInv buf pos len r.2) := by
  obtain ⟨v, hv, v1, v2, v3, v4, v5, v6, v7⟩ := staticTable_row (s.sigma cx) (h.ctx cx).1
  obtain ⟨q1, q2⟩ := Std.qe_bounds (s.sigma cx)
  have hlo := h.alo
  have hhi := h.ahi
  have hm := (h.ctx cx).2
  simp only [decode, if_pos hcx, hv, v1]
  set q := (Std.row (s.sigma cx)).qe with hq
  norm_num at hlo hhi
  rw [if_neg (by omega)]
  -- the common tail
  have tail : ∀ s' : Mq, Inside buf pos len s' → s'.t ≤ 8 → 0 < s'.A → s'.A < 2 ^ 23 → s'.sigma = s.sigma → s'.mps = s.mps →
      (NoCarry buf pos len → Below s' s'.t) → ∀ lps, lps ≤ 1 →
      Safe (NoCarry buf pos len) (settle buf s' cx v lps) (fun r => r.1 ≤ 1 ∧ MqInv buf pos len r.2) := by
    intro s' hi ht hA0 hA hs hm' hbl lps hlps
    unfold settle
    simp only
    refine Safe.map (renormalize_safe hlen hby hi ht hA0 hA hbl) ?_
    rintro s2 ⟨i2, t2, hA2, sm2, b2⟩
    have hx : ∀ a b : Nat, a ≤ 1 → b ≤ 1 → a ^^^ b ≤ 1 := by
      intro a b ha hb
      have : (a = 0 ∨ a = 1) ∧ (b = 0 ∨ b = 1) := by omega
      rcases this with ⟨rfl | rfl, rfl | rfl⟩ <;> decide
    have hand : v / 2 ^ 31 &&& (if lps = 1 then 0xFFFF else 0) ≤ 1 := by
      rw [v4]
      have : (Std.row (s.sigma cx)).switch = 0 ∨ (Std.row (s.sigma cx)).switch = 1 := by omega
      rcases this with x | x <;> rw [x] <;> split_ifs <;> decide
    refine ⟨hx _ _ (by rw [hm']; exact hm) hlps, ⟨⟨i2.lmax, i2.lo, i2.hi, i2.ff⟩, t2, hA2.1, hA2.2, ?_, b2⟩⟩
    intro k
    have hk := h.ctx k
    show Function.update s2.sigma cx _ k < 47 ∧ Function.update s2.mps cx _ k ≤ 1
    rw [sm2.1, sm2.2, hs, hm']
    by_cases hkc : k = cx
    · subst hkc
      simp only [Function.update_self]
      refine ⟨?_, hx _ _ hm hand⟩
      rw [v2, v3]
      split_ifs <;> omega
    · simp only [Function.update_of_ne hkc]
      exact hk
  by_cases c : q * 2 ^ 8 ≤ s.C
  · rw [if_pos c]
    have hbl : NoCarry buf pos len → Below { s with A := s.A - q * 2 ^ 8, C := s.C - q * 2 ^ 8 } s.t := fun nc => by
      obtain ⟨b1, b2, b3⟩ := h.below nc
      refine ⟨by show s.C - q * 2 ^ 8 < s.A - q * 2 ^ 8; omega, ?_, by show (s.A - q * 2 ^ 8) % 256 = 0; omega⟩
      show (s.C - q * 2 ^ 8) % 2 ^ (8 - s.t) = 0
      have hd : 2 ^ (8 - s.t) ∣ 2 ^ 8 := Nat.pow_dvd_pow 2 (by omega)
      exact Nat.mod_eq_zero_of_dvd (Nat.dvd_sub (Nat.dvd_of_mod_eq_zero b2) (dvd_trans hd (Nat.dvd_mul_left _ _)))
    by_cases c2 : s.A - q * 2 ^ 8 < aregMin
    · rw [if_pos c2]
      exact tail { s with A := s.A - q * 2 ^ 8, C := s.C - q * 2 ^ 8 } ⟨h.inside.lmax, h.inside.lo, h.inside.hi, h.inside.ff⟩ h.t8 (by show 0 < s.A - q * 2 ^ 8; omega)
        (by show s.A - q * 2 ^ 8 < 2 ^ 23; exact c2) rfl rfl hbl _ (by split_ifs <;> omega)
    · rw [if_neg c2]
      refine Safe.ok ⟨hm, ⟨h.inside.lmax, h.inside.lo, h.inside.hi, h.inside.ff⟩, h.t8, ?_, ?_, h.ctx, hbl⟩
      · show 2 ^ 23 ≤ s.A - q * 2 ^ 8; simp only [aregMin] at c2; omega
      · show s.A - q * 2 ^ 8 < 2 ^ 24; norm_num; omega
  · rw [if_neg c]
    refine tail { s with A := q * 2 ^ 8 } ⟨h.inside.lmax, h.inside.lo, h.inside.hi, h.inside.ff⟩ h.t8 (by show 0 < q * 2 ^ 8; omega)
      (by show q * 2 ^ 8 < 2 ^ 23; norm_num; omega) rfl rfl (fun nc => ?_) _ (by split_ifs <;> omega)
    obtain ⟨b1, b2, b3⟩ := h.below nc
    exact ⟨by show s.C < q * 2 ^ 8; omega, b2, by show q * 2 ^ 8 % 256 = 0; omega⟩

theorem decodeAll_safe (hlen : pos + len ≤ buf.length) (hby : ∀ b ∈ buf, b < 256) (ks : List Nat) {s : Mq} (h : MqInv buf pos len s)
    (hk : ∀ k ∈ ks, k < 19) :
    Safe (NoCarry buf pos len) (decodeAll buf s ks) (fun r => r.1.length = ks.length ∧ (∀ x ∈ r.1, x ≤ 1) ∧ MqInv buf pos len r.2) := by
  induction ks generalizing s with
  | nil => exact Safe.ok ⟨rfl, by simp, h⟩
  | cons k ks ih =>
    unfold decodeAll
    refine Safe.bind (decode_safe hlen hby h (hk k (List.mem_cons_self ..))) ?_
    rintro ⟨x, s1⟩ ⟨hx, h1⟩
    refine Safe.map (ih h1 (fun k hk' => hk k (List.mem_cons_of_mem _ hk'))) ?_
    rintro ⟨xs, s2⟩ ⟨h2, h3, h4⟩
    refine ⟨by simp only [List.length_cons] at *; omega, ?_, h4⟩
    intro y hy
    rcases List.mem_cons.1 hy with rfl | hy
    · exact hx
    · exact h3 y hy

theorem mqInit_safe (hlen : pos + len ≤ buf.length) (hby : ∀ b ∈ buf, b < 256) {s : Mq} (h : CtxOk s.sigma s.mps) :
    Safe (NoCarry buf pos len) (mqInit buf s pos len false) (MqInv buf pos len) := by
  unfold mqInit
  simp only [Bool.false_eq_true, if_false]
  -- the first byte
  have i0 : Inside buf pos len { s with A := aregMin, t := s.t, C := 0, T := 0, L := pos, Lmax := pos + len } :=
    ⟨rfl, le_refl _, Nat.le_add_right _ _, fun x => absurd x (by norm_num)⟩
  refine Safe.bind (fill_safe hlen hby i0 (by norm_num [aregMin]) (fun _ => ⟨by norm_num [aregMin], by norm_num, by norm_num [aregMin]⟩)) ?_
  rintro s1 ⟨i1, -, hA1, sm1, b1, t1, g1⟩
  have t8 : s1.t = 8 := t1 (by norm_num)
  have hA1' : s1.A = 2 ^ 23 := hA1
  rw [t8]
  refine Safe.bind (safe_chk fun nc => ?_) ?_
  · have := g1 nc; simp only at this; omega
  rintro c1 rfl
  have hc1 : NoCarry buf pos len → s1.C < 256 := fun nc => by have := g1 nc; simpa using this
  refine Safe.bind (fill_safe hlen hby (s := { s1 with C := s1.C * 2 ^ 8 }) ⟨i1.lmax, i1.lo, i1.hi, i1.ff⟩ (by rw [hA1']; norm_num)
    (fun nc => ⟨?_, ?_, ?_⟩)) ?_
  · have := hc1 nc; show s1.C * 2 ^ 8 < s1.A; rw [hA1']; norm_num; omega
  · show s1.C * 2 ^ 8 % 2 ^ (8 - 0) = 0; norm_num
  · show s1.A % 256 = 0; rw [hA1']; norm_num
  rintro s2 ⟨i2, t2, hA2, sm2, b2, -, g2⟩
  have hc2 : NoCarry buf pos len → s2.C < 65536 := fun nc => by
    have h1 := hc1 nc; have h2 := g2 nc; simp only at h2; omega
  have hA2' : s2.A = 2 ^ 23 := hA2.trans hA1'
  refine Safe.map (safe_chk fun nc => ?_) ?_
  · have := hc2 nc; omega
  rintro c2 rfl
  refine ⟨⟨i2.lmax, i2.lo, i2.hi, i2.ff⟩, ?_, ?_, ?_, ?_, fun nc => ⟨?_, ?_, ?_⟩⟩
  · show s2.t - 7 ≤ 8; omega
  · show 2 ^ 23 ≤ s2.A; rw [hA2']
  · show s2.A < 2 ^ 24; rw [hA2']; norm_num
  · show CtxOk s2.sigma s2.mps
    rw [sm2.1, sm2.2]
    show CtxOk s1.sigma s1.mps
    rw [sm1.1, sm1.2]
    exact h
  · show s2.C * 2 ^ 7 < s2.A; have := hc2 nc; rw [hA2']; norm_num; omega
  · show s2.C * 2 ^ 7 % 2 ^ (8 - (s2.t - 7)) = 0
    have := (b2 nc).2.1
    rw [show 8 - (s2.t - 7) = (8 - s2.t) + 7 by omega, pow_add, Nat.mul_mod_mul_right, this, Nat.zero_mul]
  · show s2.A % 256 = 0; rw [hA2']; norm_num

/-- The raw symbols of a bypass segment. -/
structure RawInv (buf : List Nat) (pos len : Nat) (s : Mq) : Prop where
  lmax : s.Lmax = pos + len
  lo : pos ≤ s.L
  hi : s.L ≤ pos + len
  t8 : s.t ≤ 8

theorem raw_init (buf : List Nat) (pos len : Nat) (s : Mq) :
    ∃ s', mqInit buf s pos len true = .ok s' ∧ RawInv buf pos len s' ∧ s'.t = 0 ∧ s'.T = 0 ∧ s'.L = pos ∧ s'.sigma = s.sigma ∧ s'.mps = s.mps :=
  ⟨_, rfl, ⟨rfl, le_refl _, Nat.le_add_right _ _, Nat.zero_le _⟩, rfl, rfl, rfl, rfl, rfl⟩

theorem rawSymbol_safe (hlen : pos + len ≤ buf.length) {s : Mq} (h : RawInv buf pos len s) :
    ∃ b s', rawSymbol buf s = .ok (b, s') ∧ b ≤ 1 ∧ RawInv buf pos len s' ∧ s'.sigma = s.sigma ∧ s'.mps = s.mps := by
  have hm : ∀ x : Nat, x % 2 ≤ 1 := fun x => by omega
  have h1 := h.hi
  have h2 := h.lo
  have h8 := h.t8
  unfold rawSymbol
  by_cases c : s.t = 0
  · rw [if_pos c]
    by_cases c2 : s.L = s.Lmax
    · rw [if_pos c2]
      exact ⟨_, _, rfl, hm _, ⟨h.lmax, h.lo, h.hi, by show 8 - 1 ≤ 8; omega⟩, rfl, rfl⟩
    · rw [if_neg c2]
      have hlt : s.L < buf.length := by rw [h.lmax] at c2; omega
      have hrd : rdByte buf s.L = .ok buf[s.L] := by simp only [rdByte, List.getElem?_eq_getElem hlt]
      rw [hrd]
      refine ⟨_, _, rfl, hm _, ⟨h.lmax, ?_, ?_, ?_⟩, rfl, rfl⟩
      · show pos ≤ s.L + 1; omega
      · show s.L + 1 ≤ _; rw [h.lmax] at c2; omega
      · show (if s.T = 0xFF then 7 else 8) - 1 ≤ 8; split_ifs <;> omega
  · rw [if_neg c]
    exact ⟨_, _, rfl, hm _, ⟨h.lmax, h.lo, h.hi, by show s.t - 1 ≤ 8; omega⟩, rfl, rfl⟩

end

/-! Only the bytes of the segment matter. -/

/-- Two computations give the same, and the result satisfies `P`. -/
def Agree {α : Type} (r r' : Except MqErr α) (P : α → Prop) : Prop := r = r' ∧ ∀ v, r = .ok v → P v

theorem Agree.bind {α β : Type} {r r' : Except MqErr α} {P : α → Prop} {f f' : α → Except MqErr β} {Q : β → Prop}
    (h : Agree r r' P) (hf : ∀ v, P v → Agree (f v) (f' v) Q) : Agree (r.bind f) (r'.bind f') Q := by
  obtain ⟨rfl, h⟩ := h
  cases r with
  | error e => exact ⟨rfl, fun v hv => by cases hv⟩
  | ok v => exact hf v (h v rfl)

theorem Agree.map {α β : Type} {r r' : Except MqErr α} {P : α → Prop} {f : α → β} {Q : β → Prop}
    (h : Agree r r' P) (hf : ∀ v, P v → Q (f v)) : Agree (r.map f) (r'.map f) Q := by
  obtain ⟨rfl, h⟩ := h
  cases r with
  | error e => exact ⟨rfl, fun v hv => by cases hv⟩
  | ok v => exact ⟨rfl, fun w hw => by cases hw; exact hf v (h v rfl)⟩

theorem Agree.rfl' {α : Type} {v : α} {P : α → Prop} (h : P v) : Agree (.ok v) (.ok v) P := ⟨rfl, fun w hw => by cases hw; exact h⟩

theorem Agree.err {α : Type} {e : MqErr} {P : α → Prop} : Agree (.error e : Except MqErr α) (.error e) P := ⟨rfl, fun w hw => by cases hw⟩

theorem agree_chk (n : Nat) : Agree (chk n) (chk n) (fun _ => True) := ⟨rfl, fun _ _ => trivial⟩

/-- The reading position is in the segment. -/
def InR (pos len : Nat) (s : Mq) : Prop := s.Lmax = pos + len ∧ pos ≤ s.L ∧ s.L ≤ pos + len

section
variable {buf buf' : List Nat} {pos len : Nat} (hb : ∀ i, pos ≤ i → i < pos + len → buf[i]? = buf'[i]?)
include hb

theorem fill_agree {s : Mq} (h : InR pos len s) : Agree (fill buf s) (fill buf' s) (InR pos len) := by
  obtain ⟨h1, h2, h3⟩ := h
  unfold fill
  by_cases c : s.L = s.Lmax
  · rw [if_pos c, if_pos c]
    exact (agree_chk _).map fun _ _ => ⟨h1, h2, h3⟩
  · rw [if_neg c, if_neg c]
    have : rdByte buf s.L = rdByte buf' s.L := by
      unfold rdByte; rw [hb s.L h2 (by rw [h1] at c; omega)]
    refine Agree.bind (P := fun _ => True) ⟨this, fun _ _ => trivial⟩ fun b _ => ?_
    by_cases c2 : s.T = 0xFF ∧ 0x8F < b
    · rw [if_pos c2]
      exact (agree_chk _).map fun _ _ => ⟨h1, h2, h3⟩
    · rw [if_neg c2]
      exact (agree_chk _).map fun _ _ => ⟨h1, by show pos ≤ s.L + 1; omega, by show s.L + 1 ≤ _; rw [h1] at c; omega⟩

omit hb in
theorem shiftBy_agree (n : Nat) {s : Mq} (h : InR pos len s) : Agree (shiftBy n s) (shiftBy n s) (InR pos len) :=
  (agree_chk _).bind fun _ _ => (agree_chk _).map fun _ _ => h

theorem renormLoop_agree (k n : Nat) {s : Mq} (h : InR pos len s) :
    Agree (renormLoop buf k n s) (renormLoop buf' k n s) (InR pos len) := by
  induction k generalizing n s with
  | zero => exact Agree.err
  | succ k ih =>
    unfold renormLoop
    refine (fill_agree hb h).bind fun s1 h1 => (shiftBy_agree _ h1).bind fun s2 h2 => ?_
    split_ifs
    · exact ih _ h2
    · exact Agree.rfl' h2
    · exact ih _ h2
    · exact Agree.rfl' h2

theorem renormalize_agree {s : Mq} (h : InR pos len s) : Agree (renormalize buf s) (renormalize buf' s) (InR pos len) := by
  unfold renormalize
  by_cases c : clz32 s.A < 8
  · rw [if_pos c, if_pos c]; exact Agree.err
  · rw [if_neg c, if_neg c]
    refine Agree.bind (P := InR pos len) ?_ fun s1 h1 => ?_
    · by_cases c2 : s.t = 0
      · rw [if_pos c2, if_pos c2]; exact fill_agree hb h
      · rw [if_neg c2, if_neg c2]; exact Agree.rfl' h
    · by_cases c2 : clz32 s.A - 8 ≤ s1.t
      · rw [if_pos c2, if_pos c2]; exact shiftBy_agree _ h1
      · rw [if_neg c2, if_neg c2]
        exact (shiftBy_agree _ h1).bind fun s2 h2 => renormLoop_agree hb _ _ h2

theorem decode_agree {s : Mq} (h : InR pos len s) (k : Nat) :
    Agree (decode buf s k) (decode buf' s k) (fun r => InR pos len r.2) := by
  have hs : ∀ (s : Mq) val lps, InR pos len s → Agree (settle buf s k val lps) (settle buf' s k val lps) (fun r => InR pos len r.2) :=
    fun s val lps h => (renormalize_agree hb h).map fun _ h => h
  unfold decode
  split_ifs with c
  · cases staticTable[s.sigma k]? with
    | none => exact Agree.err
    | some v =>
      simp only
      by_cases c1 : s.A < v % 2 ^ 16 * 2 ^ 8
      · rw [if_pos c1, if_pos c1]; exact Agree.err
      · rw [if_neg c1, if_neg c1]
        by_cases c2 : v % 2 ^ 16 * 2 ^ 8 ≤ s.C
        · rw [if_pos c2, if_pos c2]
          by_cases c3 : s.A - v % 2 ^ 16 * 2 ^ 8 < aregMin
          · rw [if_pos c3, if_pos c3]; exact hs _ _ _ h
          · rw [if_neg c3, if_neg c3]; exact Agree.rfl' h
        · rw [if_neg c2, if_neg c2]; exact hs _ _ _ h
  · exact Agree.err

theorem decodeAll_agree (ks : List Nat) {s : Mq} (h : InR pos len s) :
    Agree (decodeAll buf s ks) (decodeAll buf' s ks) (fun r => InR pos len r.2) := by
  induction ks generalizing s with
  | nil => exact Agree.rfl' h
  | cons k ks ih => exact (decode_agree hb h k).bind fun r h1 => (ih h1).map fun _ h2 => h2

theorem mqInit_agree (s : Mq) : Agree (mqInit buf s pos len false) (mqInit buf' s pos len false) (InR pos len) := by
  have h0 : InR pos len { s with A := aregMin, C := 0, T := 0, L := pos, Lmax := pos + len } := ⟨rfl, le_refl _, Nat.le_add_right _ _⟩
  unfold mqInit
  simp only [Bool.false_eq_true, if_false]
  exact (fill_agree hb h0).bind fun s1 h1 => (agree_chk _).bind fun c1 _ =>
    (fill_agree (s := { s1 with C := c1 }) hb h1).bind fun s2 h2 => (agree_chk _).map fun c2 _ => h2

end

end Verif.Ebcot
