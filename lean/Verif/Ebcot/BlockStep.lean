import Verif.Ebcot.BlockSim
/-
One coefficient, one column: the decoder follows the encoder.
-/
namespace Verif.Ebcot
open Std (Src St zc zeroCtx signCtx seen chi clamp hSum vSum dSum put bitAt coded signif sigE magE cleanE)

/-! Bytes. -/

theorem ByteOk.or1 {y : Nat} {s r v : Bool} (h : ByteOk y s r v) : ByteOk (y ||| 1) true r v ∧ (y ||| 1) / 8 = y / 8 := by
  obtain ⟨a, b, c, d⟩ := h
  have := (byte_ops ⟨y, a⟩).1
  simp only at this
  refine ⟨⟨this.1, by rw [this.2.1]; rfl, by rw [this.2.2.1, c], by rw [this.2.2.2.1, d]⟩, this.2.2.2.2⟩

theorem ByteOk.or2 {y : Nat} {s r v : Bool} (h : ByteOk y s r v) : ByteOk (y ||| 2) s true v ∧ (y ||| 2) / 8 = y / 8 := by
  obtain ⟨a, b, c, d⟩ := h
  have := (byte_ops ⟨y, a⟩).2.1
  simp only at this
  refine ⟨⟨this.1, by rw [this.2.1, b], by rw [this.2.2.1]; rfl, by rw [this.2.2.2.1, d]⟩, this.2.2.2.2⟩

theorem ByteOk.or4 {y : Nat} {s r v : Bool} (h : ByteOk y s r v) : ByteOk (y ||| 4) s r true ∧ (y ||| 4) / 8 = y / 8 := by
  obtain ⟨a, b, c, d⟩ := h
  have := (byte_ops ⟨y, a⟩).2.2.1
  simp only at this
  refine ⟨⟨this.1, by rw [this.2.1, b], by rw [this.2.2.1, c], by rw [this.2.2.2.1]; rfl⟩, this.2.2.2.2⟩

theorem ByteOk.andFB {y : Nat} {s r v : Bool} (h : ByteOk y s r v) : ByteOk (y &&& 0xFB) s r false ∧ (y &&& 0xFB) / 8 = y / 8 := by
  obtain ⟨a, b, c, d⟩ := h
  have := (byte_ops ⟨y, a⟩).2.2.2.1
  simp only at this
  refine ⟨⟨this.1, by rw [this.2.1, b], by rw [this.2.2.1, c], by rw [this.2.2.2.1]; rfl⟩, this.2.2.2.2⟩

theorem ByteOk.plane {y p : Nat} {s r v : Bool} (h : ByteOk y s r v) (hp : p ≤ 30) :
    ByteOk ((y &&& 7) ||| p * 8 % 256) s r v ∧ ((y &&& 7) ||| p * 8 % 256) / 8 = p := by
  obtain ⟨a, b, c, d⟩ := h
  have := byte_plane ⟨y, a⟩ ⟨p, by omega⟩
  simp only at this
  exact ⟨⟨this.1, by rw [this.2.1, b], by rw [this.2.2.1, c], by rw [this.2.2.2.1, d]⟩, this.2.2.2.2⟩

theorem ByteOk.and1 {y : Nat} {s r v : Bool} (h : ByteOk y s r v) : y &&& 1 = s.toNat := by
  rw [(byte_ops ⟨y, h.1⟩).2.2.2.2.1]; exact h.2.1

theorem ByteOk.and4 {y : Nat} {s r v : Bool} (h : ByteOk y s r v) : y &&& 4 = 0 ↔ v = false := by
  have := (byte_ops ⟨y, h.1⟩).2.2.2.2.2.1
  simp only at this
  rw [this, h.2.2.2]
  cases v <;> simp

theorem ByteOk.and2 {y : Nat} {s r v : Bool} (h : ByteOk y s r v) : y &&& 2 = r.toNat * 2 := by
  have := (byte_ops ⟨y, h.1⟩).2.2.2.2.2.2
  simp only at this
  rw [this, h.2.2.1]

theorem toNat_zero {s : Bool} : s.toNat = 0 ↔ s = false := by cases s <;> simp

/-! Samples. -/

theorem shl_ok {x p : Nat} (hp : p ≤ 30) (hx : x ≤ 1) : shl x p = .ok (x * 2 ^ p) := by
  have h2 : 2 ^ p ≤ 2 ^ 30 := Nat.pow_le_pow_right (by norm_num) hp
  have : x * 2 ^ p ≤ 1 * 2 ^ 30 := Nat.mul_le_mul hx h2
  unfold shl
  rw [if_pos (by omega), Nat.mod_eq_of_lt (by omega)]

theorem or_high {v x : Nat} (k : Nat) (hv : v < 2 ^ 31) (hx : x < 2 ^ 31) : (v + k * 2 ^ 31) ||| x = (v ||| x) + k * 2 ^ 31 := by
  have e : ∀ u, u < 2 ^ 31 → u + k * 2 ^ 31 = k <<< 31 ||| u := by
    intro u hu
    rw [← Nat.shiftLeft_add_eq_or_of_lt hu, Nat.shiftLeft_eq, Nat.add_comm]
  rw [e v hv, e _ (Nat.or_lt_two_pow hv hx), Nat.or_assoc]

theorem or_sign {v : Nat} (k : Nat) (hv : v < 2 ^ 31) : v ||| k * 2 ^ 31 = v + k * 2 ^ 31 := by
  rw [← Nat.shiftLeft_eq, Nat.add_comm v, Nat.shiftLeft_add_eq_or_of_lt hv, Nat.or_comm]

theorem sign_of {v : Nat} (n : Bool) (hv : v < 2 ^ 31) : (v + n.toNat * 2 ^ 31) >>> 31 &&& 1 = n.toNat := by
  rw [Nat.shiftRight_eq_div_pow, Nat.add_mul_div_right _ _ (by norm_num), Nat.div_eq_of_lt hv]
  cases n <;> rfl

theorem bitAt_le (B : Src) (p r c : Nat) : bitAt B p r c ≤ 1 := by unfold bitAt; omega

theorem bit_small {x p : Nat} (hp : p ≤ 30) (hx : x ≤ 1) : x * 2 ^ p < 2 ^ 31 := by
  have h2 : 2 ^ p ≤ 2 ^ 30 := Nat.pow_le_pow_right (by norm_num) hp
  have : x * 2 ^ p ≤ 1 * 2 ^ 30 := Nat.mul_le_mul hx h2
  omega

/-! States that differ in one coefficient. -/

/-- Same everywhere but at (`r`, `c`). -/
def SameOff (S S' : St) (r c : Nat) : Prop :=
  ∀ r' c', ¬(r' = r ∧ c' = c) → S'.sig r' c' = S.sig r' c' ∧ S'.ref r' c' = S.ref r' c' ∧ S'.vis r' c' = S.vis r' c' ∧ S'.val r' c' = S.val r' c' ∧
    S'.last r' c' = S.last r' c'

theorem put_same {α : Type} (f : Nat → Nat → α) (r c : Nat) (v : α) : put f r c v r c = v := by simp [put]

theorem put_ne {α : Type} (f : Nat → Nat → α) {r c r' c' : Nat} (v : α) (h : ¬(r' = r ∧ c' = c)) : put f r c v r' c' = f r' c' := by
  unfold put
  rw [if_neg h]

theorem BRel.at {B : Src} {S S' : St} {b : Blk} (R : BRel B S b) {j1 j2 y z : Nat} {ctx' : Nat → Nat → Nat} (hS : SameOff S S' (j1 + 1) (j2 + 1))
    (hst : ByteOk y (S'.sig (j1 + 1) (j2 + 1)) (S'.ref (j1 + 1) (j2 + 1)) (S'.vis (j1 + 1) (j2 + 1)))
    (hpl : S'.sig (j1 + 1) (j2 + 1) = true → y / 8 = S'.last (j1 + 1) (j2 + 1)) (hz : z = smpOf B S' (j1 + 1) (j2 + 1)) (hctx : CtxRel B S'.sig ctx') :
    BRel B S' { b with st := upd b.st (j1 + 1) (j2 + 1) y, smp := upd b.smp j1 j2 z, ctx := ctx' } := by
  refine ⟨R.w, R.h, R.o, R.causal, fun r c => ?_, fun r c hs => ?_, fun r c hr hc => ?_, hctx⟩
  · by_cases q : r = j1 + 1 ∧ c = j2 + 1
    · rw [q.1, q.2]; simp only; rw [upd_same]; exact hst
    · simp only; rw [upd_ne _ _ q, (hS r c q).1, (hS r c q).2.1, (hS r c q).2.2.1]; exact R.st r c
  · by_cases q : r = j1 + 1 ∧ c = j2 + 1
    · rw [q.1, q.2] at hs ⊢; simp only; rw [upd_same]; exact hpl hs
    · rw [(hS r c q).1] at hs
      simp only; rw [upd_ne _ _ q, (hS r c q).2.2.2.2]; exact R.plane r c hs
  · by_cases q : r = j1 ∧ c = j2
    · rw [q.1, q.2]; simp only; rw [upd_same]; exact hz
    · have q' : ¬(r + 1 = j1 + 1 ∧ c + 1 = j2 + 1) := by omega
      simp only; rw [upd_ne _ _ q, R.smp r c hr hc]
      unfold smpOf
      rw [(hS _ _ q').1, (hS _ _ q').2.2.2.1]

theorem upd_id {α : Type} (f : Nat → Nat → α) (r c : Nat) : upd f r c (f r c) = f := by
  funext r' c'
  unfold upd
  split_ifs with h
  · rw [h.1, h.2]
  · rfl

theorem seen_mono {B : Src} {S S' : St} (h : ∀ r c, S.sig r c = true → S'.sig r c = true) (r r' c' : Nat) :
    (seen B S r r' c').toNat ≤ (seen B S' r r' c').toNat := by
  unfold seen
  cases hs : S.sig r' c' with
  | false => simp
  | true => rw [h _ _ hs]

theorem zc_mono {B : Src} {S S' : St} (h : ∀ r c, S.sig r c = true → S'.sig r c = true) {r c : Nat} (hz : 0 < zc B S r c) : 0 < zc B S' r c := by
  rw [zc_pos] at hz ⊢
  unfold hSum vSum dSum at *
  have h1 := seen_mono (B := B) h r r (c - 1)
  have h2 := seen_mono (B := B) h r r (c + 1)
  have h3 := seen_mono (B := B) h r (r - 1) c
  have h4 := seen_mono (B := B) h r (r + 1) c
  have h5 := seen_mono (B := B) h r (r - 1) (c - 1)
  have h6 := seen_mono (B := B) h r (r - 1) (c + 1)
  have h7 := seen_mono (B := B) h r (r + 1) (c - 1)
  have h8 := seen_mono (B := B) h r (r + 1) (c + 1)
  omega

theorem SInv.at {B : Src} {S S' : St} (I : SInv B S) {r c : Nat} (hS : SameOff S S' r c) (hr : 1 ≤ r ∧ r ≤ B.h) (hc : 1 ≤ c ∧ c ≤ B.w)
    (hmono : S.sig r c = true → S'.sig r c = true) (hz : S'.sig r c = false → S'.val r c = 0) (hsm : S'.val r c < 2 ^ 31)
    (hv : S'.vis r c = true → S'.sig r c = true ∨ 0 < zc B S r c) : SInv B S' := by
  have mono : ∀ r' c', S.sig r' c' = true → S'.sig r' c' = true := fun r' c' h => by
    by_cases q : r' = r ∧ c' = c
    · rw [q.1, q.2] at h ⊢; exact hmono h
    · rw [(hS r' c' q).1]; exact h
  refine ⟨fun r' c' h => ?_, fun r' c' h => ?_, fun r' c' => ?_, fun r' c' h => ?_⟩
  · by_cases q : r' = r ∧ c' = c
    · rw [q.1, q.2]; exact ⟨hr, hc⟩
    · rw [(hS r' c' q).1] at h; exact I.inside r' c' h
  · by_cases q : r' = r ∧ c' = c
    · rw [q.1, q.2] at h ⊢; exact hz h
    · rw [(hS r' c' q).1] at h; rw [(hS r' c' q).2.2.2.1]; exact I.zero r' c' h
  · by_cases q : r' = r ∧ c' = c
    · rw [q.1, q.2]; exact hsm
    · rw [(hS r' c' q).2.2.2.1]; exact I.small r' c'
  · by_cases q : r' = r ∧ c' = c
    · rw [q.1, q.2] at h ⊢; exact (hv h).imp id (zc_mono mono)
    · rw [(hS r' c' q).2.2.1] at h; exact (I.vis r' c' h).imp (mono _ _) (zc_mono mono)

/-! A new significant coefficient: broadcast and sign. -/

theorem sig_tail {raw : Bool} {buf : List Nat} {B : Src} {S : St} {b : Blk} {m : Mq} {j1 j2 y z : Nat} {ds} {fin} (R : BRel B S b) (I : SInv B S)
    (h1 : j1 < B.h) (h2 : j2 < B.w) (hf : Feeds raw buf m (Std.signBit raw B S (j1 + 1) (j2 + 1) :: ds) fin) :
    ∃ ctx' m', ((broadcast { b with st := upd b.st (j1 + 1) (j2 + 1) y, smp := upd b.smp j1 j2 z } j1 j2).bind fun b => signDec raw buf j1 j2 (b, m)) =
        .ok ({ b with st := upd b.st (j1 + 1) (j2 + 1) y, smp := upd b.smp j1 j2 (z ||| (B.neg (j1 + 1) (j2 + 1)).toNat * 2 ^ 31), ctx := ctx' }, m') ∧
      CtxRel B (put S.sig (j1 + 1) (j2 + 1) true) ctx' ∧ Feeds raw buf m' ds fin := by
  obtain ⟨ctx', e, hc⟩ := broadcast_ok (b := { b with st := upd b.st (j1 + 1) (j2 + 1) y, smp := upd b.smp j1 j2 z }) (j1 := j1) (j2 := j2)
    (by rw [R.h]; exact h1) (by rw [R.w]; exact h2)
  have ho : Off B S.sig { b with st := upd b.st (j1 + 1) (j2 + 1) y, smp := upd b.smp j1 j2 z, ctx := ctx' } j1 j2 := by
    refine ⟨R.w, R.h, R.causal, fun r c q => ?_, fun r c hr hc q => ?_⟩
    · simp only; rw [upd_ne _ _ q]; exact (R.st r c).and1
    · simp only; rw [upd_ne _ _ q, R.smp r c hr hc]
      exact sign_of _ (I.small _ _)
  obtain ⟨m', e', hf'⟩ := signDec_ok ho I.inside h1 h2 hf
  refine ⟨ctx', m', ?_, hc B S.sig R.ctx, hf'⟩
  rw [e]
  simp only [Except.bind]
  rw [e']
  simp only [upd_same, upd_upd]

/-! The significance propagation pass. -/

/-- `f` on the decoder's side does what `g` does on the encoder's side. -/
def Sim (raw : Bool) (buf : List Nat) (B : Src) (f : Blk × Mq → Except DErr (Blk × Mq)) (g : St → St × List (Nat × Nat)) : Prop :=
  ∀ S b m ds fin, BRel B S b → SInv B S → Feeds raw buf m ((g S).2 ++ ds) fin →
    ∃ b' m', f (b, m) = .ok (b', m') ∧ BRel B (g S).1 b' ∧ SInv B (g S).1 ∧ Feeds raw buf m' ds fin

theorem sigStep_sim (raw : Bool) (buf : List Nat) (B : Src) (h4 : B.o < 4) {p j1 j2 : Nat} (hp : p ≤ 30) (h1 : j1 < B.h) (h2 : j2 < B.w) :
    Sim raw buf B (sigStep raw buf p j1 j2) (sigE raw B p (j1 + 1, j2 + 1)) := by
  intro S b m ds fin R I hf
  have eh := R.h
  have ew := R.w
  have hby := R.st (j1 + 1) (j2 + 1)
  have gst : b.getSt (j1 + 1) (j2 + 1) = .ok (b.st (j1 + 1) (j2 + 1)) := getSt_ok (by omega) (by omega)
  have mst : ∀ f, b.modSt (j1 + 1) (j2 + 1) f = .ok { b with st := upd b.st (j1 + 1) (j2 + 1) (f (b.st (j1 + 1) (j2 + 1))) } := fun f => modSt_ok f (by omega) (by omega)
  have mst' : ∀ st smp ctx f, ({ b with st := st, smp := smp, ctx := ctx } : Blk).modSt (j1 + 1) (j2 + 1) f =
      .ok { b with st := upd st (j1 + 1) (j2 + 1) (f (st (j1 + 1) (j2 + 1))), smp := smp, ctx := ctx } := fun st smp ctx f => modSt_ok f (by simp only; omega) (by simp only; omega)
  have oms' : ∀ st smp ctx v, ({ b with st := st, smp := smp, ctx := ctx } : Blk).orSmp j1 j2 v =
      .ok { b with st := st, smp := upd smp j1 j2 (smp j1 j2 ||| v), ctx := ctx } := fun st smp ctx v => orSmp_ok v (by simp only; omega) (by simp only; omega)
  have hl := labelSig_ok R.w R.h R.o R.causal R.ctx h4 (S := S) rfl h1 h2
  unfold sigStep sigE at *
  simp only [gst, Except.bind] at hf ⊢
  have hin : (1 ≤ j1 + 1 ∧ j1 + 1 ≤ B.h) ∧ 1 ≤ j2 + 1 ∧ j2 + 1 ≤ B.w := by omega
  by_cases hc : S.sig (j1 + 1) (j2 + 1) = false ∧ 0 < zc B S (j1 + 1) (j2 + 1)
  · rw [if_pos hc] at hf ⊢
    have hx : b.st (j1 + 1) (j2 + 1) &&& 1 = 0 := by rw [hby.and1, hc.1]; rfl
    simp only [hx, if_true, hl, hc.2, mst]
    have hz : b.smp j1 j2 = 0 := by
      rw [R.smp j1 j2 h1 h2]; unfold smpOf; rw [hc.1, I.zero _ _ hc.1]; simp
    have hv0 := I.zero _ _ hc.1
    obtain ⟨hy1, hy2⟩ := hby.plane hp
    by_cases hb : bitAt B p (j1 + 1) (j2 + 1) = 1
    · rw [if_pos hb] at hf ⊢
      obtain ⟨m1, e1, hf1⟩ := Feeds.sym hf
      simp only [e1, ne_eq, one_ne_zero, not_false_eq_true, if_true, shl_ok hp (le_refl 1), oms', mst', upd_same, upd_upd]
      obtain ⟨ctx', m2, e2, hc2, hf2⟩ := sig_tail (y := ((b.st (j1 + 1) (j2 + 1) &&& 7) ||| p * 8 % 256) ||| 1) (z := b.smp j1 j2 ||| 1 * 2 ^ p) R I h1 h2 hf1
      simp only [Except.bind] at e2
      rw [e2]
      simp only [mst', Except.map, upd_same, upd_upd]
      refine ⟨_, _, rfl, ?_, ?_, hf2⟩
      · obtain ⟨hy3, hy4⟩ := hy1.or1
        obtain ⟨hy5, hy6⟩ := hy3.or4
        refine R.at ?_ ?_ ?_ ?_ ?_
        · intro r' c' q
          simp only [signif, coded, put_ne _ _ q, and_self]
        · simp only [signif, coded, put_same]
          exact hy5
        · intro _
          simp only [signif, coded, put_same]
          rw [hy6, hy4, hy2]
        · rw [hz]
          unfold smpOf
          simp only [signif, coded, put_same, hv0, hb, Nat.zero_or, Bool.true_and]
          exact or_sign _ (bit_small hp (le_refl 1))
        · exact hc2
      · refine I.at (r := j1 + 1) (c := j2 + 1) ?_ hin.1 hin.2 ?_ ?_ ?_ ?_
        · intro r' c' q
          simp only [signif, coded, put_ne _ _ q, and_self]
        · intro _; simp only [signif, put_same]
        · intro h; simp only [signif, put_same] at h; exact absurd h (by simp)
        · simp only [signif, coded, put_same, hv0, hb, Nat.zero_or]
          exact bit_small hp (le_refl 1)
        · intro _; left; simp only [signif, put_same]
    · rw [if_neg hb] at hf ⊢
      have hb0 : bitAt B p (j1 + 1) (j2 + 1) = 0 := by have := bitAt_le B p (j1 + 1) (j2 + 1); omega
      obtain ⟨m1, e1, hf1⟩ := Feeds.sym hf
      simp only [e1, ne_eq, not_true_eq_false, if_false, mst', Except.map, upd_same, upd_upd]
      refine ⟨_, _, rfl, ?_, ?_, hf1⟩
      · obtain ⟨hy5, hy6⟩ := hy1.or4
        have hkey : b.smp = upd b.smp j1 j2 (b.smp j1 j2) := (upd_id _ _ _).symm
        rw [hkey]
        refine R.at ?_ ?_ ?_ ?_ ?_
        · intro r' c' q
          simp only [coded, put_ne _ _ q, and_self]
        · simp only [coded, put_same]
          exact hy5
        · intro h; simp only [coded] at h; rw [hc.1] at h; exact absurd h (by simp)
        · rw [hz]
          unfold smpOf
          simp only [coded, put_same, hv0, hb0, hc.1, Nat.zero_mul, Nat.or_zero, Bool.false_and, Bool.toNat_false, Nat.add_zero]
        · exact R.ctx
      · refine I.at (r := j1 + 1) (c := j2 + 1) ?_ hin.1 hin.2 ?_ ?_ ?_ ?_
        · intro r' c' q
          simp only [coded, put_ne _ _ q, and_self]
        · intro h; exact h
        · intro _; simp only [coded, put_same, hv0, hb0, Nat.zero_mul, Nat.or_zero]
        · simp only [coded, put_same, hv0, hb0, Nat.zero_mul, Nat.or_zero]; norm_num
        · intro _; right; exact hc.2
  · rw [if_neg hc] at hf ⊢
    have hlab : ∃ l, (if b.st (j1 + 1) (j2 + 1) &&& 1 = 0 then labelSig b j1 j2 else .ok 0) = .ok l ∧ ¬ 0 < l := by
      by_cases hs : S.sig (j1 + 1) (j2 + 1) = false
      · have hx : b.st (j1 + 1) (j2 + 1) &&& 1 = 0 := by rw [hby.and1, hs]; rfl
        rw [if_pos hx, hl]
        exact ⟨_, rfl, fun h => hc ⟨hs, h⟩⟩
      · have hx : ¬ (b.st (j1 + 1) (j2 + 1) &&& 1 = 0) := by rw [hby.and1, toNat_zero]; exact hs
        rw [if_neg hx]
        exact ⟨0, rfl, by norm_num⟩
    obtain ⟨l, el, hn⟩ := hlab
    simp only [el, if_neg hn, mst, Except.map]
    refine ⟨_, _, rfl, ?_, ?_, hf⟩
    · obtain ⟨hy1, hy2⟩ := hby.andFB
      have hkey : b.smp = upd b.smp j1 j2 (b.smp j1 j2) := (upd_id _ _ _).symm
      rw [hkey]
      refine R.at ?_ ?_ ?_ ?_ ?_
      · intro r' c' q
        simp only [put_ne _ _ q, and_self]
      · simp only [put_same]; exact hy1
      · intro h; rw [hy2]; exact R.plane _ _ h
      · exact R.smp j1 j2 h1 h2
      · exact R.ctx
    · refine I.at (r := j1 + 1) (c := j2 + 1) ?_ hin.1 hin.2 ?_ ?_ ?_ ?_
      · intro r' c' q
        simp only [put_ne _ _ q, and_self]
      · intro h; exact h
      · intro h; exact I.zero _ _ h
      · exact I.small _ _
      · intro h; simp only [put_same] at h; exact absurd h (by simp)

/-! The magnitude refinement pass. -/

theorem magStep_sim (raw : Bool) (buf : List Nat) (B : Src) (h4 : B.o < 4) {p j1 j2 : Nat} (hp : p ≤ 30) (h1 : j1 < B.h) (h2 : j2 < B.w) :
    Sim raw buf B (magStep raw buf p j1 j2) (magE B p (j1 + 1, j2 + 1)) := by
  intro S b m ds fin R I hf
  have eh := R.h
  have ew := R.w
  have hby := R.st (j1 + 1) (j2 + 1)
  have gst : b.getSt (j1 + 1) (j2 + 1) = .ok (b.st (j1 + 1) (j2 + 1)) := getSt_ok (by omega) (by omega)
  have mst : ∀ f, b.modSt (j1 + 1) (j2 + 1) f = .ok { b with st := upd b.st (j1 + 1) (j2 + 1) (f (b.st (j1 + 1) (j2 + 1))) } := fun f => modSt_ok f (by omega) (by omega)
  have mst' : ∀ st smp ctx f, ({ b with st := st, smp := smp, ctx := ctx } : Blk).modSt (j1 + 1) (j2 + 1) f =
      .ok { b with st := upd st (j1 + 1) (j2 + 1) (f (st (j1 + 1) (j2 + 1))), smp := smp, ctx := ctx } := fun st smp ctx f => modSt_ok f (by simp only; omega) (by simp only; omega)
  have oms' : ∀ st smp ctx v, ({ b with st := st, smp := smp, ctx := ctx } : Blk).orSmp j1 j2 v =
      .ok { b with st := st, smp := upd smp j1 j2 (smp j1 j2 ||| v), ctx := ctx } := fun st smp ctx v => orSmp_ok v (by simp only; omega) (by simp only; omega)
  have hin : (1 ≤ j1 + 1 ∧ j1 + 1 ≤ B.h) ∧ 1 ≤ j2 + 1 ∧ j2 + 1 ≤ B.w := by omega
  unfold magStep magE at *
  simp only [gst, Except.bind] at hf ⊢
  by_cases hc : S.sig (j1 + 1) (j2 + 1) = true ∧ S.vis (j1 + 1) (j2 + 1) = false
  · rw [if_pos hc] at hf ⊢
    have hx : b.st (j1 + 1) (j2 + 1) &&& 1 = 1 ∧ b.st (j1 + 1) (j2 + 1) &&& 4 = 0 := by
      rw [hby.and1, hby.and4, hc.1]; exact ⟨rfl, hc.2⟩
    rw [if_pos hx]
    simp only [mst]
    obtain ⟨hy1, hy2⟩ := hby.plane hp
    have hl := labelSig_ok (b := { b with st := upd b.st (j1 + 1) (j2 + 1) ((b.st (j1 + 1) (j2 + 1) &&& 7) ||| p * 8 % 256) }) R.w R.h R.o R.causal R.ctx h4
      (S := S) rfl h1 h2
    have hsym : ∃ l m1, (if raw = true then (.ok 0 : Except DErr Nat)
          else (labelSig { b with st := upd b.st (j1 + 1) (j2 + 1) ((b.st (j1 + 1) (j2 + 1) &&& 7) ||| p * 8 % 256) } j1 j2).bind
            fun l => .ok ([14, 15, 16, 16].getD ((upd b.st (j1 + 1) (j2 + 1) ((b.st (j1 + 1) (j2 + 1) &&& 7) ||| p * 8 % 256) (j1 + 1) (j2 + 1) &&& 2) |||
              (if 0 < l then 1 else 0)) 0)) = .ok l ∧
        sym raw buf m l = .ok (bitAt B p (j1 + 1) (j2 + 1), m1) ∧ Feeds raw buf m1 ds fin := by
      cases raw with
      | true =>
        obtain ⟨m1, e1, hf1⟩ := Feeds.symRaw hf 0
        exact ⟨0, m1, rfl, e1, hf1⟩
      | false =>
        obtain ⟨m1, e1, hf1⟩ := Feeds.sym hf
        refine ⟨_, m1, ?_, e1, hf1⟩
        rw [if_neg (by simp), hl]
        simp only [upd_same, Except.bind]
        rw [hy1.and2]
        simp only [zc_pos]
        cases S.ref (j1 + 1) (j2 + 1) <;> by_cases q : 1 ≤ hSum B S (j1 + 1) (j2 + 1) + vSum B S (j1 + 1) (j2 + 1) + dSum B S (j1 + 1) (j2 + 1) <;> simp [q]
    obtain ⟨l, m1, el, e1, hf1⟩ := hsym
    have hbl := bitAt_le B p (j1 + 1) (j2 + 1)
    simp only [Except.bind] at el
    rw [el]
    simp only [e1, shl_ok hp hbl, oms', mst', Except.map, upd_same, upd_upd]
    refine ⟨_, _, rfl, ?_, ?_, hf1⟩
    · obtain ⟨hy3, hy4⟩ := hy1.or2
      refine R.at ?_ ?_ ?_ ?_ ?_
      · intro r' c' q
        simp only [coded, put_ne _ _ q, and_self]
      · simp only [coded, put_same]; exact hy3
      · intro _
        simp only [coded, put_same]
        rw [hy4, hy2]
      · rw [R.smp j1 j2 h1 h2]
        unfold smpOf
        simp only [coded, put_same]
        exact or_high _ (I.small _ _) (bit_small hp hbl)
      · exact R.ctx
    · refine I.at (r := j1 + 1) (c := j2 + 1) ?_ hin.1 hin.2 ?_ ?_ ?_ ?_
      · intro r' c' q
        simp only [coded, put_ne _ _ q, and_self]
      · intro h; exact h
      · intro h; simp only [coded] at h; rw [hc.1] at h; exact absurd h (by simp)
      · simp only [coded, put_same]; exact Nat.or_lt_two_pow (I.small _ _) (bit_small hp hbl)
      · intro h; exact I.vis _ _ h
  · rw [if_neg hc] at hf ⊢
    have hx : ¬(b.st (j1 + 1) (j2 + 1) &&& 1 = 1 ∧ b.st (j1 + 1) (j2 + 1) &&& 4 = 0) := by
      rw [hby.and1, hby.and4]
      intro q
      refine hc ⟨?_, q.2⟩
      cases hs : S.sig (j1 + 1) (j2 + 1) with
      | true => rfl
      | false => rw [hs] at q; exact absurd q.1 (by simp)
    rw [if_neg hx]
    exact ⟨_, _, rfl, R, I, hf⟩

/-! The cleanup pass on one coefficient. -/

/-- The states behind a coefficient that was coded in the cleanup pass. -/
theorem cleanE_one {B : Src} {S : St} {b : Blk} (R : BRel B S b) (I : SInv B S) {p j1 j2 : Nat} (hp : p ≤ 30) (h1 : j1 < B.h) (h2 : j2 < B.w)
    (hs : S.sig (j1 + 1) (j2 + 1) = false) (hb : bitAt B p (j1 + 1) (j2 + 1) = 1) {ctx' : Nat → Nat → Nat}
    (hc : CtxRel B (put S.sig (j1 + 1) (j2 + 1) true) ctx') :
    BRel B (signif (j1 + 1) (j2 + 1) (coded B p (j1 + 1) (j2 + 1) S))
      { b with st := upd b.st (j1 + 1) (j2 + 1) (((b.st (j1 + 1) (j2 + 1) &&& 7) ||| p * 8 % 256) ||| 1),
               smp := upd b.smp j1 j2 (1 * 2 ^ p ||| (B.neg (j1 + 1) (j2 + 1)).toNat * 2 ^ 31), ctx := ctx' } ∧
    SInv B (signif (j1 + 1) (j2 + 1) (coded B p (j1 + 1) (j2 + 1) S)) := by
  have hv0 := I.zero _ _ hs
  obtain ⟨hy1, hy2⟩ := (R.st (j1 + 1) (j2 + 1)).plane hp
  obtain ⟨hy3, hy4⟩ := hy1.or1
  have hin : (1 ≤ j1 + 1 ∧ j1 + 1 ≤ B.h) ∧ 1 ≤ j2 + 1 ∧ j2 + 1 ≤ B.w := by omega
  refine ⟨R.at ?_ ?_ ?_ ?_ hc, I.at (r := j1 + 1) (c := j2 + 1) ?_ hin.1 hin.2 ?_ ?_ ?_ ?_⟩
  · intro r' c' q
    simp only [signif, coded, put_ne _ _ q, and_self]
  · simp only [signif, coded, put_same]; exact hy3
  · intro _
    simp only [signif, coded, put_same]
    rw [hy4, hy2]
  · unfold smpOf
    simp only [signif, coded, put_same, hv0, hb, Nat.zero_or, Bool.true_and]
    exact or_sign _ (bit_small hp (le_refl 1))
  · intro r' c' q
    simp only [signif, coded, put_ne _ _ q, and_self]
  · intro _; simp only [signif, put_same]
  · intro h; simp only [signif, put_same] at h; exact absurd h (by simp)
  · simp only [signif, coded, put_same, hv0, hb, Nat.zero_or]
    exact bit_small hp (le_refl 1)
  · intro _; left; simp only [signif, put_same]

theorem cleanE_zero {B : Src} {S : St} {b : Blk} (R : BRel B S b) (I : SInv B S) {p j1 j2 : Nat} (hp : p ≤ 30) (h1 : j1 < B.h) (h2 : j2 < B.w)
    (hs : S.sig (j1 + 1) (j2 + 1) = false) (hb : bitAt B p (j1 + 1) (j2 + 1) = 0) :
    BRel B (coded B p (j1 + 1) (j2 + 1) S)
      { b with st := upd b.st (j1 + 1) (j2 + 1) ((b.st (j1 + 1) (j2 + 1) &&& 7) ||| p * 8 % 256), smp := upd b.smp j1 j2 0 } ∧
    SInv B (coded B p (j1 + 1) (j2 + 1) S) := by
  have hv0 := I.zero _ _ hs
  obtain ⟨hy1, hy2⟩ := (R.st (j1 + 1) (j2 + 1)).plane hp
  have hin : (1 ≤ j1 + 1 ∧ j1 + 1 ≤ B.h) ∧ 1 ≤ j2 + 1 ∧ j2 + 1 ≤ B.w := by omega
  refine ⟨R.at ?_ ?_ ?_ ?_ R.ctx, I.at (r := j1 + 1) (c := j2 + 1) ?_ hin.1 hin.2 ?_ ?_ ?_ ?_⟩
  · intro r' c' q
    simp only [coded, put_ne _ _ q, and_self]
  · simp only [coded]; exact hy1
  · intro h; simp only [coded] at h; rw [hs] at h; exact absurd h (by simp)
  · unfold smpOf
    simp only [coded, put_same, hv0, hb, hs, Nat.zero_mul, Nat.or_zero, Bool.false_and, Bool.toNat_false, Nat.add_zero]
  · intro r' c' q
    simp only [coded, put_ne _ _ q, and_self]
  · intro h; exact h
  · intro _; simp only [coded, put_same, hv0, hb, Nat.zero_mul, Nat.or_zero]
  · simp only [coded, put_same, hv0, hb, Nat.zero_mul, Nat.or_zero]; norm_num
  · intro h; exact I.vis _ _ h

theorem cleanRest_sim (buf : List Nat) (B : Src) (h4 : B.o < 4) {p j1 j2 : Nat} (hp : p ≤ 30) (h1 : j1 < B.h) (h2 : j2 < B.w) :
    Sim false buf B (cleanRest buf p j1 j2) (cleanE B p (j1 + 1, j2 + 1)) := by
  intro S b m ds fin R I hf
  have eh := R.h
  have ew := R.w
  have hby := R.st (j1 + 1) (j2 + 1)
  have gst : b.getSt (j1 + 1) (j2 + 1) = .ok (b.st (j1 + 1) (j2 + 1)) := getSt_ok (by omega) (by omega)
  have mst : ∀ f, b.modSt (j1 + 1) (j2 + 1) f = .ok { b with st := upd b.st (j1 + 1) (j2 + 1) (f (b.st (j1 + 1) (j2 + 1))) } := fun f => modSt_ok f (by omega) (by omega)
  have mst' : ∀ st smp ctx f, ({ b with st := st, smp := smp, ctx := ctx } : Blk).modSt (j1 + 1) (j2 + 1) f =
      .ok { b with st := upd st (j1 + 1) (j2 + 1) (f (st (j1 + 1) (j2 + 1))), smp := smp, ctx := ctx } := fun st smp ctx f => modSt_ok f (by simp only; omega) (by simp only; omega)
  have oms' : ∀ st smp ctx v, ({ b with st := st, smp := smp, ctx := ctx } : Blk).orSmp j1 j2 v =
      .ok { b with st := st, smp := upd smp j1 j2 (smp j1 j2 ||| v), ctx := ctx } := fun st smp ctx v => orSmp_ok v (by simp only; omega) (by simp only; omega)
  unfold cleanRest cleanE at *
  simp only [gst, Except.bind] at hf ⊢
  have hiff : (b.st (j1 + 1) (j2 + 1) &&& 1 = 0 ∧ b.st (j1 + 1) (j2 + 1) &&& 4 = 0) ↔ (S.sig (j1 + 1) (j2 + 1) = false ∧ S.vis (j1 + 1) (j2 + 1) = false) := by
    rw [hby.and1, hby.and4, toNat_zero]
  by_cases hc : S.sig (j1 + 1) (j2 + 1) = false ∧ S.vis (j1 + 1) (j2 + 1) = false
  · rw [if_pos hc] at hf ⊢
    rw [if_pos (hiff.2 hc)]
    simp only [mst]
    have hl := labelSig_ok (b := { b with st := upd b.st (j1 + 1) (j2 + 1) ((b.st (j1 + 1) (j2 + 1) &&& 7) ||| p * 8 % 256) }) R.w R.h R.o R.causal R.ctx h4
      (S := S) rfl h1 h2
    have hz : b.smp j1 j2 = 0 := by
      rw [R.smp j1 j2 h1 h2]; unfold smpOf; rw [hc.1, I.zero _ _ hc.1]; simp
    by_cases hb : bitAt B p (j1 + 1) (j2 + 1) = 1
    · rw [if_pos hb] at hf ⊢
      obtain ⟨m1, e1, hf1⟩ := Feeds.sym hf
      simp only [hl, e1, shl_ok hp (le_refl 1), oms', mst', ne_eq, one_ne_zero, not_false_eq_true, if_true, upd_same, upd_upd, hz, Nat.zero_or]
      obtain ⟨ctx', m2, e2, hc2, hf2⟩ := sig_tail (y := ((b.st (j1 + 1) (j2 + 1) &&& 7) ||| p * 8 % 256) ||| 1) (z := 1 * 2 ^ p) R I h1 h2 hf1
      simp only [Except.bind] at e2
      rw [e2]
      obtain ⟨R', I'⟩ := cleanE_one R I hp h1 h2 hc.1 hb hc2
      exact ⟨_, _, rfl, R', I', hf2⟩
    · rw [if_neg hb] at hf ⊢
      have hb0 : bitAt B p (j1 + 1) (j2 + 1) = 0 := by have := bitAt_le B p (j1 + 1) (j2 + 1); omega
      obtain ⟨m1, e1, hf1⟩ := Feeds.sym hf
      simp only [hl, e1, shl_ok hp (Nat.zero_le 1), oms', ne_eq, not_true_eq_false, if_false, hz, Nat.zero_mul, Nat.or_zero]
      obtain ⟨R', I'⟩ := cleanE_zero R I hp h1 h2 hc.1 hb0
      exact ⟨_, _, rfl, R', I', hf1⟩
  · rw [if_neg hc] at hf ⊢
    rw [if_neg (fun q => hc (hiff.1 q))]
    exact ⟨_, _, rfl, R, I, hf⟩

theorem cleanCoef_sim (buf : List Nat) (B : Src) (h4 : B.o < 4) {p j1 j2 : Nat} (hp : p ≤ 30) (h1 : j1 < B.h) (h2 : j2 < B.w) :
    Sim false buf B (cleanCoef buf p j1 j2 false) (cleanE B p (j1 + 1, j2 + 1)) := by
  intro S b m ds fin R I hf
  have eh := R.h
  have ew := R.w
  have hby := R.st (j1 + 1) (j2 + 1)
  have gst : b.getSt (j1 + 1) (j2 + 1) = .ok (b.st (j1 + 1) (j2 + 1)) := getSt_ok (by omega) (by omega)
  have mst : ∀ f, b.modSt (j1 + 1) (j2 + 1) f = .ok { b with st := upd b.st (j1 + 1) (j2 + 1) (f (b.st (j1 + 1) (j2 + 1))) } := fun f => modSt_ok f (by omega) (by omega)
  have mst' : ∀ st smp ctx f, ({ b with st := st, smp := smp, ctx := ctx } : Blk).modSt (j1 + 1) (j2 + 1) f =
      .ok { b with st := upd st (j1 + 1) (j2 + 1) (f (st (j1 + 1) (j2 + 1))), smp := smp, ctx := ctx } := fun st smp ctx f => modSt_ok f (by simp only; omega) (by simp only; omega)
  have oms' : ∀ st smp ctx v, ({ b with st := st, smp := smp, ctx := ctx } : Blk).orSmp j1 j2 v =
      .ok { b with st := st, smp := upd smp j1 j2 (smp j1 j2 ||| v), ctx := ctx } := fun st smp ctx v => orSmp_ok v (by simp only; omega) (by simp only; omega)
  have gsm' : ∀ st smp ctx, ({ b with st := st, smp := smp, ctx := ctx } : Blk).getSmp j1 j2 = .ok (smp j1 j2) :=
    fun st smp ctx => getSmp_ok (by simp only; omega) (by simp only; omega)
  unfold cleanCoef cleanE at *
  simp only [gst, Except.bind] at hf ⊢
  have hiff : (b.st (j1 + 1) (j2 + 1) &&& 1 = 0 ∧ b.st (j1 + 1) (j2 + 1) &&& 4 = 0) ↔ (S.sig (j1 + 1) (j2 + 1) = false ∧ S.vis (j1 + 1) (j2 + 1) = false) := by
    rw [hby.and1, hby.and4, toNat_zero]
  have hpp : ¬ (0 = 1 * 2 ^ p) := by have := Nat.two_pow_pos p; omega
  by_cases hc : S.sig (j1 + 1) (j2 + 1) = false ∧ S.vis (j1 + 1) (j2 + 1) = false
  · rw [if_pos hc] at hf ⊢
    rw [if_pos (hiff.2 hc)]
    simp only [mst, Bool.false_eq_true, if_false]
    have hl := labelSig_ok (b := { b with st := upd b.st (j1 + 1) (j2 + 1) ((b.st (j1 + 1) (j2 + 1) &&& 7) ||| p * 8 % 256) }) R.w R.h R.o R.causal R.ctx h4
      (S := S) rfl h1 h2
    have hz : b.smp j1 j2 = 0 := by
      rw [R.smp j1 j2 h1 h2]; unfold smpOf; rw [hc.1, I.zero _ _ hc.1]; simp
    by_cases hb : bitAt B p (j1 + 1) (j2 + 1) = 1
    · rw [if_pos hb] at hf ⊢
      obtain ⟨m1, e1, hf1⟩ := Feeds.sym hf
      simp only [hl, e1, shl_ok hp (le_refl 1), oms', mst', Except.map, gsm', if_true, upd_same, upd_upd, hz, Nat.zero_or]
      obtain ⟨ctx', m2, e2, hc2, hf2⟩ := sig_tail (y := ((b.st (j1 + 1) (j2 + 1) &&& 7) ||| p * 8 % 256) ||| 1) (z := 1 * 2 ^ p) R I h1 h2 hf1
      simp only [Except.bind] at e2
      rw [e2]
      obtain ⟨R', I'⟩ := cleanE_one R I hp h1 h2 hc.1 hb hc2
      exact ⟨_, _, rfl, R', I', hf2⟩
    · rw [if_neg hb] at hf ⊢
      have hb0 : bitAt B p (j1 + 1) (j2 + 1) = 0 := by have := bitAt_le B p (j1 + 1) (j2 + 1); omega
      obtain ⟨m1, e1, hf1⟩ := Feeds.sym hf
      simp only [hl, e1, shl_ok hp (Nat.zero_le 1), shl_ok hp (le_refl 1), oms', Except.map, gsm', upd_same, hz, Nat.zero_mul, Nat.or_zero, if_neg hpp]
      obtain ⟨R', I'⟩ := cleanE_zero R I hp h1 h2 hc.1 hb0
      exact ⟨_, _, rfl, R', I', hf1⟩
  · rw [if_neg hc] at hf ⊢
    rw [if_neg (fun q => hc (hiff.1 q))]
    exact ⟨_, _, rfl, R, I, hf⟩

end Verif.Ebcot
