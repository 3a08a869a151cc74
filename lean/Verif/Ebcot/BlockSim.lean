import Verif.Ebcot.BlockSpec
import Verif.Ebcot.Block
/-
The decoder's code-block follows the encoder's state: contexts, signs.
-/
namespace Verif.Ebcot
open Std (Src St zc zeroCtx signCtx seen chi clamp hSum vSum dSum put)

/-! The tables. -/

theorem sigLUT9_table : ∀ o : Fin 4, ∀ n : Fin 512, sigLUT9 o n =
    .ok (zeroCtx o ((n.1.testBit 3).toNat + (n.1.testBit 5).toNat) ((n.1.testBit 1).toNat + (n.1.testBit 7).toNat)
      ((n.1.testBit 0).toNat + (n.1.testBit 2).toNat + (n.1.testBit 6).toNat + (n.1.testBit 8).toNat)) := by
  decide +kernel

/-- The contribution of a neighbour, from its significance and its sign. -/
def chiB (s n : Bool) : Int := if s then (if n then -1 else 1) else 0

/-- The index of `sign_LUT`. -/
def signIdxB (t d l r nt nd nl nr : Bool) : Nat :=
  t.toNat + l.toNat * 4 + r.toNat * 8 + d.toNat * 2 + (t && nt).toNat * 16 + (l && nl).toNat * 64 + (r && nr).toNat * 128 + (d && nd).toNat * 32

theorem signLUT_table : ∀ t d l r nt nd nl nr : Bool,
    signLUT0[signIdxB t d l r nt nd nl nr]? = some (signCtx (clamp (chiB l nl + chiB r nr)) (clamp (chiB t nt + chiB d nd))).1 ∧
    signLUT1[signIdxB t d l r nt nd nl nr]? = some (signCtx (clamp (chiB l nl + chiB r nr)) (clamp (chiB t nt + chiB d nd))).2 ∧
    signIdxB t d l r nt nd nl nr &&& 0xDD = signIdxB t false l r nt nd nl nr ∧
    (signCtx (clamp (chiB l nl + chiB r nr)) (clamp (chiB t nt + chiB d nd))).2 ≤ 1 := by
  decide +kernel

/-- The operations on a byte of `block_states`. -/
theorem byte_ops : ∀ y : Fin 256,
    ((y.1 ||| 1) < 256 ∧ (y.1 ||| 1) % 2 = 1 ∧ (y.1 ||| 1) / 2 % 2 = y.1 / 2 % 2 ∧ (y.1 ||| 1) / 4 % 2 = y.1 / 4 % 2 ∧ (y.1 ||| 1) / 8 = y.1 / 8) ∧
    ((y.1 ||| 2) < 256 ∧ (y.1 ||| 2) % 2 = y.1 % 2 ∧ (y.1 ||| 2) / 2 % 2 = 1 ∧ (y.1 ||| 2) / 4 % 2 = y.1 / 4 % 2 ∧ (y.1 ||| 2) / 8 = y.1 / 8) ∧
    ((y.1 ||| 4) < 256 ∧ (y.1 ||| 4) % 2 = y.1 % 2 ∧ (y.1 ||| 4) / 2 % 2 = y.1 / 2 % 2 ∧ (y.1 ||| 4) / 4 % 2 = 1 ∧ (y.1 ||| 4) / 8 = y.1 / 8) ∧
    ((y.1 &&& 0xFB) < 256 ∧ (y.1 &&& 0xFB) % 2 = y.1 % 2 ∧ (y.1 &&& 0xFB) / 2 % 2 = y.1 / 2 % 2 ∧ (y.1 &&& 0xFB) / 4 % 2 = 0 ∧
      (y.1 &&& 0xFB) / 8 = y.1 / 8) ∧
    (y.1 &&& 1 = y.1 % 2 ∧ (y.1 &&& 4 = 0 ↔ y.1 / 4 % 2 = 0) ∧ y.1 &&& 2 = y.1 / 2 % 2 * 2) := by
  decide +kernel

theorem byte_plane : ∀ y : Fin 256, ∀ p : Fin 31,
    ((y.1 &&& 7) ||| p.1 * 8 % 256) < 256 ∧ ((y.1 &&& 7) ||| p.1 * 8 % 256) % 2 = y.1 % 2 ∧ ((y.1 &&& 7) ||| p.1 * 8 % 256) / 2 % 2 = y.1 / 2 % 2 ∧
      ((y.1 &&& 7) ||| p.1 * 8 % 256) / 4 % 2 = y.1 / 4 % 2 ∧ ((y.1 &&& 7) ||| p.1 * 8 % 256) / 8 = p.1 := by
  decide +kernel

/-! The relation. -/

/-- A byte of `block_states` and what it stands for. -/
def ByteOk (y : Nat) (sig ref vis : Bool) : Prop := y < 256 ∧ y % 2 = sig.toNat ∧ y / 2 % 2 = ref.toNat ∧ y / 4 % 2 = vis.toNat

/-- The word of a stripe column has the significance of its 6 x 3 surroundings. -/
def CtxRel (B : Src) (sig : Nat → Nat → Bool) (ctx : Nat → Nat → Nat) : Prop :=
  ∀ s c i d, c < B.w → i < 6 → d < 3 → (ctx (s + 1) (c + 1)).testBit (3 * i + d) = sig (4 * s + i) (c + d)

/-- A sample: the magnitude bits coded so far, the sign if significant. -/
def smpOf (B : Src) (S : St) (r c : Nat) : Nat := S.val r c + (S.sig r c && B.neg r c).toNat * 2 ^ 31

/-- The decoder's code-block is where the encoder is. -/
structure BRel (B : Src) (S : St) (b : Blk) : Prop where
  w : b.w = B.w
  h : b.h = B.h
  o : b.orient = B.o
  causal : b.causal = B.causal
  st : ∀ r c, ByteOk (b.st r c) (S.sig r c) (S.ref r c) (S.vis r c)
  plane : ∀ r c, S.sig r c = true → b.st r c / 8 = S.last r c
  smp : ∀ r c, r < B.h → c < B.w → b.smp r c = smpOf B S (r + 1) (c + 1)
  ctx : CtxRel B S.sig b.ctx

/-- What holds in the encoder. -/
structure SInv (B : Src) (S : St) : Prop where
  inside : ∀ r c, S.sig r c = true → (1 ≤ r ∧ r ≤ B.h) ∧ 1 ≤ c ∧ c ≤ B.w
  zero : ∀ r c, S.sig r c = false → S.val r c = 0
  small : ∀ r c, S.val r c < 2 ^ 31
  vis : ∀ r c, S.vis r c = true → S.sig r c = true ∨ 0 < zc B S r c

theorem le_rup8 (x : Nat) : x ≤ rup8 x := by unfold rup8; omega

theorem rup8_div (x : Nat) : x / 4 ≤ rup8 x / 4 := Nat.div_le_div_right (le_rup8 x)

/-! Accesses inside of the code-block. -/

theorem getSt_ok {b : Blk} {r c : Nat} (hr : r ≤ b.h + 1) (hc : c ≤ b.w + 1) : b.getSt r c = .ok (b.st r c) := by
  have := le_rup8 b.h; have := le_rup8 b.w
  have hi : b.inSt r c := by unfold Blk.inSt; omega
  unfold Blk.getSt
  rw [if_pos hi]

theorem modSt_ok {b : Blk} {r c : Nat} (f : Nat → Nat) (hr : r ≤ b.h + 1) (hc : c ≤ b.w + 1) :
    b.modSt r c f = .ok { b with st := upd b.st r c (f (b.st r c)) } := by
  have := le_rup8 b.h; have := le_rup8 b.w
  have hi : b.inSt r c := by unfold Blk.inSt; omega
  unfold Blk.modSt
  rw [if_pos hi]

theorem getSmp_ok {b : Blk} {r c : Nat} (hr : r < b.h) (hc : c < b.w) : b.getSmp r c = .ok (b.smp r c) := by
  have := le_rup8 b.h; have := le_rup8 b.w
  have hi : b.inSmp r c := by unfold Blk.inSmp; omega
  unfold Blk.getSmp
  rw [if_pos hi]

theorem orSmp_ok {b : Blk} {r c : Nat} (v : Nat) (hr : r < b.h) (hc : c < b.w) :
    b.orSmp r c v = .ok { b with smp := upd b.smp r c (b.smp r c ||| v) } := by
  have := le_rup8 b.h; have := le_rup8 b.w
  have hi : b.inSmp r c := by unfold Blk.inSmp; omega
  unfold Blk.orSmp
  rw [if_pos hi]

/-! Significance contexts. -/

theorem idx_bit (word k sr : Nat) (hk : k < 9) : (word >>> (3 * sr) &&& 0x1FF).testBit k = word.testBit (3 * sr + k) := by
  rw [Nat.testBit_and, Nat.testBit_shiftRight, show (0x1FF : Nat) = 2 ^ 9 - 1 by norm_num, Nat.testBit_two_pow_sub_one]
  simp [hk]

theorem labelSig_ok {B : Src} {sig : Nat → Nat → Bool} {b : Blk} (hw : b.w = B.w) (hh : b.h = B.h) (ho : b.orient = B.o) (hc : b.causal = B.causal)
    (hctx : CtxRel B sig b.ctx) (h4 : B.o < 4) {S : St} (hs : S.sig = sig) {j1 j2 : Nat} (h1 : j1 < B.h) (h2 : j2 < B.w) :
    labelSig b j1 j2 = .ok (zc B S (j1 + 1) (j2 + 1)) := by
  subst hs
  have hin : b.inCtx (j1 / 4 + 1) (j2 + 1) := by
    unfold Blk.inCtx
    have := rup8_div B.h
    have := le_rup8 B.w
    rw [hh, hw]
    omega
  unfold labelSig Blk.getCtx
  rw [if_pos hin]
  simp only [Except.bind]
  rw [ho, hc]
  set word := b.ctx (j1 / 4 + 1) (j2 + 1) with hword
  have key : ∀ i d, i < 3 → d < 3 → word.testBit (3 * (j1 % 4) + (3 * i + d)) = S.sig (j1 + i) (j2 + d) := by
    intro i d hi hd
    have := hctx (j1 / 4) j2 (j1 % 4 + i) d h2 (by omega) hd
    rw [show 3 * (j1 % 4) + (3 * i + d) = 3 * (j1 % 4 + i) + d by ring, this]
    congr 1
    omega
  have hb : ∀ k, k < 9 → (word >>> (3 * (j1 % 4)) &&& 0x1FF).testBit k = S.sig (j1 + k / 3) (j2 + k % 3) := by
    intro k hk
    rw [idx_bit _ _ _ hk, ← key (k / 3) (k % 3) (by omega) (by omega)]
    congr 2
    omega
  have hlt : word >>> (3 * (j1 % 4)) &&& 0x1FF < 512 := by
    rw [show (0x1FF : Nat) = 2 ^ 9 - 1 by norm_num, Nat.and_two_pow_sub_one_eq_mod]; omega
  have hm : ∀ n : Nat, n < 512 → n &&& 0x3F < 512 := fun n h => lt_of_le_of_lt Nat.and_le_left h
  have hmb : ∀ n k : Nat, (n &&& 0x3F).testBit k = (n.testBit k && decide (k < 6)) := by
    intro n k
    rw [Nat.testBit_and, show (0x3F : Nat) = 2 ^ 6 - 1 by norm_num, Nat.testBit_two_pow_sub_one]
  set n := word >>> (3 * (j1 % 4)) &&& 0x1FF with hn
  have b0 : n.testBit 0 = S.sig j1 j2 := hb 0 (by norm_num)
  have b1 : n.testBit 1 = S.sig j1 (j2 + 1) := hb 1 (by norm_num)
  have b2 : n.testBit 2 = S.sig j1 (j2 + 1 + 1) := hb 2 (by norm_num)
  have b3 : n.testBit 3 = S.sig (j1 + 1) j2 := hb 3 (by norm_num)
  have b5 : n.testBit 5 = S.sig (j1 + 1) (j2 + 1 + 1) := hb 5 (by norm_num)
  have b6 : n.testBit 6 = S.sig (j1 + 1 + 1) j2 := hb 6 (by norm_num)
  have b7 : n.testBit 7 = S.sig (j1 + 1 + 1) (j2 + 1) := hb 7 (by norm_num)
  have b8 : n.testBit 8 = S.sig (j1 + 1 + 1) (j2 + 1 + 1) := hb 8 (by norm_num)
  clear_value n
  unfold zc hSum vSum dSum seen
  simp only [Nat.add_sub_cancel]
  have e0 : (j1 == j1 + 1 + 1) = false := by rw [beq_eq_false_iff_ne]; omega
  have e1 : (j1 + 1 == j1 + 1 + 1) = false := by rw [beq_eq_false_iff_ne]; omega
  by_cases cc : B.causal = true ∧ j1 % 4 = 3
  · rw [if_pos cc]
    have ht := sigLUT9_table ⟨B.o, h4⟩ ⟨_, hm _ hlt⟩
    simp only at ht
    rw [ht, hmb, hmb, hmb, hmb, hmb, hmb, hmb, hmb, b0, b1, b2, b3, b5, b6, b7, b8, e0, e1]
    have c1 : ((j1 + 1) % 4 == 0) = true := by rw [beq_iff_eq]; omega
    rw [cc.1, c1]
    simp
  · rw [if_neg cc]
    have ht := sigLUT9_table ⟨B.o, h4⟩ ⟨_, hlt⟩
    simp only at ht
    rw [ht, b0, b1, b2, b3, b5, b6, b7, b8, e0, e1]
    have hf : (B.causal && (j1 + 1) % 4 == 0) = false := by
      by_contra hne
      rw [Bool.not_eq_false, Bool.and_eq_true, beq_iff_eq] at hne
      exact cc ⟨hne.1, by omega⟩
    rw [hf]
    simp

theorem zc_pos {B : Src} {S : St} {r c : Nat} : 0 < zc B S r c ↔ 1 ≤ hSum B S r c + vSum B S r c + dSum B S r c := by
  have hh : hSum B S r c ≤ 2 := by
    unfold hSum
    have := Bool.toNat_le (seen B S r r (c - 1)); have := Bool.toNat_le (seen B S r r (c + 1)); omega
  have hv : vSum B S r c ≤ 2 := by
    unfold vSum
    have := Bool.toNat_le (seen B S r (r - 1) c); have := Bool.toNat_le (seen B S r (r + 1) c); omega
  unfold zc zeroCtx
  generalize hSum B S r c = x at *
  generalize vSum B S r c = y at *
  generalize dSum B S r c = z at *
  by_cases c3 : B.o = 3
  · rw [if_pos c3]
    split_ifs <;> omega
  · rw [if_neg c3]
    by_cases c1 : B.o = 1
    · rw [if_pos c1]
      simp only
      split_ifs <;> omega
    · rw [if_neg c1]
      simp only
      split_ifs <;> omega

/-! The broadcast of a new significance. -/

theorem upd_same {α : Type} (f : Nat → Nat → α) (r c : Nat) (v : α) : upd f r c v r c = v := by simp [upd]

theorem upd_upd {α : Type} (f : Nat → Nat → α) (r c : Nat) (v w : α) : upd (upd f r c v) r c w = upd f r c w := by
  funext r' c'
  unfold upd
  split_ifs <;> rfl

theorem upd_ne {α : Type} (f : Nat → Nat → α) {r c r' c' : Nat} (v : α) (h : ¬(r' = r ∧ c' = c)) : upd f r c v r' c' = f r' c' := by
  unfold upd
  rw [if_neg h]

theorem orBit (f : Nat → Nat → Nat) (r c k r' c' n : Nat) :
    (upd f r c (f r c ||| 2 ^ k) r' c').testBit n = ((f r' c').testBit n || decide (r' = r ∧ c' = c ∧ n = k)) := by
  unfold upd
  by_cases h : r' = r ∧ c' = c
  · rw [if_pos h, Nat.testBit_or, Nat.testBit_two_pow, h.1, h.2]
    simp [eq_comm]
  · rw [if_neg h]
    have : ¬(r' = r ∧ c' = c ∧ n = k) := fun q => h ⟨q.1, q.2.1⟩
    simp [this]

theorem orCtx_ok {b : Blk} {r c v : Nat} (h : b.inCtx r c) : b.orCtx r c v = .ok { b with ctx := upd b.ctx r c (b.ctx r c ||| v) } := by
  unfold Blk.orCtx
  rw [if_pos h]

theorem broadcast_ok {b : Blk} {j1 j2 : Nat} (h1 : j1 < b.h) (h2 : j2 < b.w) :
    ∃ ctx', broadcast b j1 j2 = .ok { b with ctx := ctx' } ∧
      ∀ (B : Src) (sig : Nat → Nat → Bool), CtxRel B sig b.ctx → CtxRel B (put sig (j1 + 1) (j2 + 1) true) ctx' := by
  have hh := rup8_div b.h
  have hw := le_rup8 b.w
  have i1 : ∀ c, c ≤ j2 + 2 → ∀ ctx, ({ b with ctx := ctx } : Blk).inCtx (j1 / 4 + 1) c := fun c hc ctx => by
    unfold Blk.inCtx; simp only; omega
  have i0 : ∀ c, c ≤ j2 + 2 → ∀ ctx, ({ b with ctx := ctx } : Blk).inCtx (j1 / 4 + 1 - 1) c := fun c hc ctx => by
    unfold Blk.inCtx; simp only; omega
  have i2 : j1 % 4 = 3 → ∀ c, c ≤ j2 + 2 → ∀ ctx, ({ b with ctx := ctx } : Blk).inCtx (j1 / 4 + 1 + 1) c := fun h3 c hc ctx => by
    unfold Blk.inCtx; simp only; omega
  unfold broadcast
  simp only [orCtx_ok (i1 (j2 + 1 - 1) (by omega) b.ctx), Except.bind, orCtx_ok (i1 (j2 + 1) (by omega) _), orCtx_ok (i1 (j2 + 1 + 1) (by omega) _)]
  have fin : ∀ (B : Src) (sig : Nat → Nat → Bool) (ctx' : Nat → Nat → Nat), CtxRel B sig b.ctx →
      (∀ s c i d, i < 6 → d < 3 → (ctx' (s + 1) (c + 1)).testBit (3 * i + d) =
        ((b.ctx (s + 1) (c + 1)).testBit (3 * i + d) || decide (4 * s + i = j1 + 1 ∧ c + d = j2 + 1))) →
      CtxRel B (put sig (j1 + 1) (j2 + 1) true) ctx' := by
    intro B sig ctx' hr hx s c i d hc hi hd
    rw [hx s c i d hi hd, hr s c i d hc hi hd]
    unfold put
    by_cases q : 4 * s + i = j1 + 1 ∧ c + d = j2 + 1
    · rw [if_pos q]; simp [q]
    · rw [if_neg q]; simp [q]
  by_cases c0 : j1 % 4 = 0
  · simp only [c0, if_true, orCtx_ok (i0 (j2 + 1 - 1) (by omega) _), orCtx_ok (i0 (j2 + 1) (by omega) _), orCtx_ok (i0 (j2 + 1 + 1) (by omega) _)]
    refine ⟨_, rfl, fun B sig hr => fin B sig _ hr fun s c i d hi hd => ?_⟩
    simp only [orBit, Bool.or_assoc]
    congr 1
    rw [Bool.eq_iff_iff]
    simp only [Bool.or_eq_true, decide_eq_true_eq]
    interval_cases d <;> interval_cases i <;> omega
  · by_cases c3 : j1 % 4 = 3
    · simp only [c3, if_true, orCtx_ok (i2 c3 (j2 + 1 - 1) (by omega) _), orCtx_ok (i2 c3 (j2 + 1) (by omega) _), orCtx_ok (i2 c3 (j2 + 1 + 1) (by omega) _)]
      rw [if_neg (by norm_num)]
      refine ⟨_, rfl, fun B sig hr => fin B sig _ hr fun s c i d hi hd => ?_⟩
      simp only [orBit, Bool.or_assoc]
      congr 1
      rw [Bool.eq_iff_iff]
      simp only [Bool.or_eq_true, decide_eq_true_eq]
      interval_cases d <;> interval_cases i <;> omega
    · rw [if_neg c0, if_neg c3]
      refine ⟨_, rfl, fun B sig hr => fin B sig _ hr fun s c i d hi hd => ?_⟩
      simp only [orBit, Bool.or_assoc]
      congr 1
      rw [Bool.eq_iff_iff]
      simp only [Bool.or_eq_true, decide_eq_true_eq]
      interval_cases d <;> interval_cases i <;> omega

/-! Where the decisions come from. -/

/-- The next decisions of the decoder are `ds`; behind them it is in a state with `K`. -/
def Feeds (raw : Bool) (buf : List Nat) (m : Mq) : List (Nat × Nat) → (Mq → Prop) → Prop
  | [], K => K m
  | (l, b) :: ds, K => ∃ m', (∀ l', raw = true ∨ l' = l → sym raw buf m l' = .ok (b, m')) ∧ Feeds raw buf m' ds K

theorem Feeds.symRaw {buf : List Nat} {m : Mq} {l b : Nat} {ds : List (Nat × Nat)} {fin} (h : Feeds true buf m ((l, b) :: ds) fin) (l' : Nat) :
    ∃ m', sym true buf m l' = .ok (b, m') ∧ Feeds true buf m' ds fin := by
  obtain ⟨m', e, q⟩ := h
  exact ⟨m', e l' (Or.inl rfl), q⟩

theorem Feeds.sym {raw : Bool} {buf : List Nat} {m : Mq} {l b : Nat} {ds : List (Nat × Nat)} {fin} (h : Feeds raw buf m ((l, b) :: ds) fin) :
    ∃ m', sym raw buf m l = .ok (b, m') ∧ Feeds raw buf m' ds fin := by
  obtain ⟨m', e, q⟩ := h
  exact ⟨m', e l (Or.inr rfl), q⟩

/-! The sign. -/

/-- The block follows the encoder everywhere but at the coefficient that is being decoded. -/
structure Off (B : Src) (sig : Nat → Nat → Bool) (b : Blk) (j1 j2 : Nat) : Prop where
  w : b.w = B.w
  h : b.h = B.h
  causal : b.causal = B.causal
  st : ∀ r c, ¬(r = j1 + 1 ∧ c = j2 + 1) → b.st r c &&& 1 = (sig r c).toNat
  smp : ∀ r c, r < B.h → c < B.w → ¬(r = j1 ∧ c = j2) → b.smp r c >>> 31 &&& 1 = (sig (r + 1) (c + 1) && B.neg (r + 1) (c + 1)).toNat

theorem signIdx_ok {B : Src} {sig : Nat → Nat → Bool} {b : Blk} {j1 j2 : Nat} (ho : Off B sig b j1 j2)
    (hin : ∀ r c, sig r c = true → (1 ≤ r ∧ r ≤ B.h) ∧ 1 ≤ c ∧ c ≤ B.w) (h1 : j1 < B.h) (h2 : j2 < B.w) :
    signIdx b j1 j2 = .ok (signIdxB (sig j1 (j2 + 1)) (sig (j1 + 2) (j2 + 1)) (sig (j1 + 1) j2) (sig (j1 + 1) (j2 + 2))
      (B.neg j1 (j2 + 1)) (B.neg (j1 + 2) (j2 + 1)) (B.neg (j1 + 1) j2) (B.neg (j1 + 1) (j2 + 2))) := by
  have lh := le_rup8 b.h
  have lw := le_rup8 b.w
  have eh := ho.h
  have ew := ho.w
  have gs : ∀ r c, r ≤ j1 + 2 → c ≤ j2 + 2 → b.getSt r c = .ok (b.st r c) := fun r c hr hc => getSt_ok (by omega) (by omega)
  have gm : ∀ r c, r < B.h → c < B.w → b.getSmp r c = .ok (b.smp r c) := fun r c hr hc => getSmp_ok (by omega) (by omega)
  have out : ∀ r c, ¬((1 ≤ r ∧ r ≤ B.h) ∧ 1 ≤ c ∧ c ≤ B.w) → sig r c = false := fun r c h => by
    cases hs : sig r c with
    | false => rfl
    | true => exact absurd (hin r c hs) h
  have pick : ∀ (P : Prop) [Decidable P] r c, (P → r < B.h ∧ c < B.w ∧ ¬(r = j1 ∧ c = j2)) → ∀ R C, (P → R = r + 1 ∧ C = c + 1) → (¬P → sig R C = false) →
      ∃ v, (if P then b.getSmp r c else .ok 0) = .ok v ∧ v >>> 31 &&& 1 = (sig R C && B.neg R C).toNat := by
    intro P _ r c hp R C hR hn
    by_cases q : P
    · rw [if_pos q, gm r c (hp q).1 (hp q).2.1]
      refine ⟨_, rfl, ?_⟩
      rw [ho.smp r c (hp q).1 (hp q).2.1 (hp q).2.2, (hR q).1, (hR q).2]
    · rw [if_neg q]
      refine ⟨0, rfl, ?_⟩
      rw [hn q]; rfl
  obtain ⟨ts, et, ft⟩ := pick (0 < j1) (j1 - 1) j2 (by omega) j1 (j2 + 1) (by omega) (fun h => out _ _ (by omega))
  obtain ⟨ls, el, fl⟩ := pick (0 < j2) j1 (j2 - 1) (by omega) (j1 + 1) j2 (by omega) (fun h => out _ _ (by omega))
  obtain ⟨rs, er, fr⟩ := pick (j2 < b.w - 1) j1 (j2 + 1) (by omega) (j1 + 1) (j2 + 2) (by omega) (fun h => out _ _ (by omega))
  obtain ⟨ds, ed, fd⟩ := pick (j1 < b.h - 1) (j1 + 1) j2 (by omega) (j1 + 2) (j2 + 1) (by omega) (fun h => out _ _ (by omega))
  unfold signIdx
  rw [gs j1 (j2 + 1) (by omega) (by omega), gs (j1 + 1) j2 (by omega) (by omega), gs (j1 + 1) (j2 + 2) (by omega) (by omega),
    gs (j1 + 2) (j2 + 1) (by omega) (by omega), et, el, er, ed]
  simp only [Except.bind]
  rw [ft, fl, fr, fd, ho.st _ _ (by omega), ho.st _ _ (by omega), ho.st _ _ (by omega), ho.st _ _ (by omega)]
  rfl

theorem chi_eq (B : Src) (S : St) (r r' c' : Nat) : chi B S r r' c' = chiB (seen B S r r' c') (B.neg r' c') := rfl

theorem xor_flip (n : Bool) {x : Nat} (hx : x ≤ 1) : ((n.toNat ^^^ x) ^^^ x) &&& 1 = n.toNat := by
  have : x = 0 ∨ x = 1 := by omega
  rcases this with rfl | rfl <;> cases n <;> rfl

theorem signDec_ok {raw : Bool} {buf : List Nat} {B : Src} {S : St} {b : Blk} {m : Mq} {j1 j2 : Nat} {ds} {fin} (ho : Off B S.sig b j1 j2)
    (hin : ∀ r c, S.sig r c = true → (1 ≤ r ∧ r ≤ B.h) ∧ 1 ≤ c ∧ c ≤ B.w) (h1 : j1 < B.h) (h2 : j2 < B.w)
    (hf : Feeds raw buf m (Std.signBit raw B S (j1 + 1) (j2 + 1) :: ds) fin) :
    ∃ m', signDec raw buf j1 j2 (b, m) = .ok ({ b with smp := upd b.smp j1 j2 (b.smp j1 j2 ||| (B.neg (j1 + 1) (j2 + 1)).toNat * 2 ^ 31) }, m') ∧
      Feeds raw buf m' ds fin := by
  have lh := le_rup8 b.h
  have lw := le_rup8 b.w
  have eh := ho.h
  have ew := ho.w
  have hsmp : ∀ v, b.orSmp j1 j2 v = .ok { b with smp := upd b.smp j1 j2 (b.smp j1 j2 ||| v) } := fun v => orSmp_ok v (by omega) (by omega)
  have hshl : ∀ n : Bool, shl n.toNat 31 = .ok (n.toNat * 2 ^ 31) := fun n => by cases n <;> rfl
  cases raw with
  | true =>
    unfold Std.signBit at hf
    simp only [if_true] at hf
    obtain ⟨m', e, q⟩ := hf.sym
    refine ⟨m', ?_, q⟩
    unfold signDec
    simp only [if_true, e, Except.bind, hshl, hsmp, Except.map]
  | false =>
    unfold Std.signBit at hf
    simp only [Bool.false_eq_true, if_false, chi_eq, Nat.add_sub_cancel] at hf
    set sd := seen B S (j1 + 1) (j1 + 1 + 1) (j2 + 1) with hsd
    have e0 : (j1 == j1 + 1 + 1) = false := by rw [beq_eq_false_iff_ne]; omega
    have e1 : (j1 + 1 == j1 + 1 + 1) = false := by rw [beq_eq_false_iff_ne]; omega
    have s1 : seen B S (j1 + 1) (j1 + 1) j2 = S.sig (j1 + 1) j2 := by unfold seen; rw [e1]; simp
    have s2 : seen B S (j1 + 1) (j1 + 1) (j2 + 1 + 1) = S.sig (j1 + 1) (j2 + 2) := by unfold seen; rw [e1]; simp
    have s3 : seen B S (j1 + 1) j1 (j2 + 1) = S.sig j1 (j2 + 1) := by unfold seen; rw [e0]; simp
    rw [s1, s2, s3, show j1 + 1 + 1 = j1 + 2 from rfl, show j2 + 1 + 1 = j2 + 2 from rfl] at hf
    have ht := signLUT_table (S.sig j1 (j2 + 1)) sd (S.sig (j1 + 1) j2) (S.sig (j1 + 1) (j2 + 2)) (B.neg j1 (j2 + 1)) (B.neg (j1 + 2) (j2 + 1))
      (B.neg (j1 + 1) j2) (B.neg (j1 + 1) (j2 + 2))
    obtain ⟨m', e, q⟩ := hf.sym
    refine ⟨m', ?_, q⟩
    unfold signDec
    simp only [Bool.false_eq_true, if_false, signIdx_ok ho hin h1 h2, Except.bind]
    have hidx : (if b.causal = true ∧ j1 % 4 = 3 then
        signIdxB (S.sig j1 (j2 + 1)) (S.sig (j1 + 2) (j2 + 1)) (S.sig (j1 + 1) j2) (S.sig (j1 + 1) (j2 + 2))
          (B.neg j1 (j2 + 1)) (B.neg (j1 + 2) (j2 + 1)) (B.neg (j1 + 1) j2) (B.neg (j1 + 1) (j2 + 2)) &&& 0xDD
        else signIdxB (S.sig j1 (j2 + 1)) (S.sig (j1 + 2) (j2 + 1)) (S.sig (j1 + 1) j2) (S.sig (j1 + 1) (j2 + 2))
          (B.neg j1 (j2 + 1)) (B.neg (j1 + 2) (j2 + 1)) (B.neg (j1 + 1) j2) (B.neg (j1 + 1) (j2 + 2))) =
        signIdxB (S.sig j1 (j2 + 1)) sd (S.sig (j1 + 1) j2) (S.sig (j1 + 1) (j2 + 2))
          (B.neg j1 (j2 + 1)) (B.neg (j1 + 2) (j2 + 1)) (B.neg (j1 + 1) j2) (B.neg (j1 + 1) (j2 + 2)) := by
      rw [ho.causal]
      by_cases cc : B.causal = true ∧ j1 % 4 = 3
      · rw [if_pos cc, (signLUT_table _ _ _ _ _ _ _ _).2.2.1]
        have c1 : ((j1 + 1) % 4 == 0) = true := by rw [beq_iff_eq]; omega
        have : sd = false := by rw [hsd]; unfold seen; rw [cc.1, c1]; simp
        rw [this]
      · rw [if_neg cc]
        have hf : (B.causal && (j1 + 1) % 4 == 0) = false := by
          by_contra hne
          rw [Bool.not_eq_false, Bool.and_eq_true, beq_iff_eq] at hne
          exact cc ⟨hne.1, by omega⟩
        have : sd = S.sig (j1 + 2) (j2 + 1) := by rw [hsd]; unfold seen; rw [hf]; simp
        rw [this]
    rw [hidx, ht.1, ht.2.1]
    simp only [e]
    rw [xor_flip _ ht.2.2.2, hshl]
    simp only [hsmp, Except.map]

end Verif.Ebcot
