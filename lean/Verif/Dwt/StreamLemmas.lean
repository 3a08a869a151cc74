import Verif.Dwt.Stream
import Verif.Dwt.FilterLemmas
import Verif.Tactics
import Mathlib.Algebra.Order.BigOperators.Group.Finset
import Mathlib.Data.Int.Interval

/-!
# Lemmas on the streaming transforms

A row with level `d` holds the value `Y d` of the batch transform after `d` pairs of lifting passes; the
invariant `Good` says so together with the bookkeeping of the ring.  `climb` is the progress argument.
-/

namespace Verif.Dwt.Stream

variable {α : Type}

/-! ## Constants -/

/-- The parity of the rows that are lifted first. -/
def Cfg.lead (c : Cfg α) : Int := if c.forward then 1 else 0

theorem consts (c : Cfg α) : (c.maxDl = 1 ∨ c.maxDl = 2) ∧ (c.lead = 0 ∨ c.lead = 1) ∧
    (c.depth = 8 ∨ c.depth = 12) ∧
    (c.v0 % 2 = c.lead → c.topPse = 2 * c.maxDl - 1) ∧ (c.v0 % 2 ≠ c.lead → c.topPse = 2 * c.maxDl) ∧
    (c.v1 % 2 ≠ c.lead → c.botPse = 2 * c.maxDl - 1) ∧ (c.v1 % 2 = c.lead → c.botPse = 2 * c.maxDl) := by
  rcases c with ⟨fw, flt, v0, v1, _, _, _⟩
  have h0 : v0 % 2 = 0 ∨ v0 % 2 = 1 := by omega
  have h1 : v1 % 2 = 0 ∨ v1 % 2 = 1 := by omega
  cases fw <;> cases flt <;> rcases h0 with h0 | h0 <;> rcases h1 with h1 | h1 <;>
    simp [Cfg.maxDl, Cfg.lead, Cfg.depth, Cfg.topPse, Cfg.botPse, h0, h1]

theorem depth_of (c : Cfg α) : c.depth = if c.forward then 12 else 8 := rfl

/-! ## Reading back what was written -/

/-- Row `r` has a place in the buffers. -/
def Slot (c : Cfg α) (s : St α) (r : Int) : Prop :=
  (c.v0 ≤ r ∧ r < c.v1 ∧ s.origin ≤ r ∧ r < s.origin + c.depth) ∨ (c.v0 - c.topPse ≤ r ∧ r < c.v0) ∨
    (c.v1 ≤ r ∧ r < c.v1 + c.botPse)

theorem live_slot {c : Cfg α} {s : St α} {r : Int} (h : 0 ≤ getDl c s r) : Slot c s r := by
  unfold getDl at h
  unfold Slot
  split_ifs at h <;> omega

theorem slot_inj {d o r q : Int} (hd : 0 < d) (h : r % d = q % d) (h1 : o ≤ r) (h2 : r < o + d) (h3 : o ≤ q)
    (h4 : q < o + d) : r = q := by
  have h5 := Int.emod_emod_of_dvd (r - q) (dvd_refl d)
  have h6 : (r - q) % d = 0 := Int.emod_eq_emod_iff_emod_sub_eq_zero.1 h
  obtain ⟨k, hk⟩ := Int.dvd_of_emod_eq_zero h6
  have : k = 0 := by
    rcases lt_trichotomy k 0 with h7 | h7 | h7
    · have : d * k ≤ d * (-1) := Int.mul_le_mul_of_nonneg_left (by omega) (by omega)
      omega
    · exact h7
    · have : d * 1 ≤ d * k := Int.mul_le_mul_of_nonneg_left (by omega) (by omega)
      omega
  subst this
  omega

theorem depth_pos (c : Cfg α) : 0 < c.depth := by
  have := (consts c).2.2.1
  omega

/-- The two states have the same cursors. -/
structure Same (s s' : St α) : Prop where
  origin : s'.origin = s.origin
  nextIn : s'.nextIn = s.nextIn
  nextOut : s'.nextOut = s.nextOut
  asked : s'.asked = s.asked

theorem Same.refl (s : St α) : Same s s := ⟨rfl, rfl, rfl, rfl⟩

theorem Same.trans {s t u : St α} (h : Same s t) (h' : Same t u) : Same s u :=
  ⟨h'.1.trans h.1, h'.2.trans h.2, h'.3.trans h.3, h'.4.trans h.4⟩

theorem Same.slot {c : Cfg α} {s s' : St α} (h : Same s s') (r : Int) : Slot c s' r ↔ Slot c s r := by
  unfold Slot; rw [h.origin]

theorem setDl_same (c : Cfg α) (s : St α) (r lv : Int) : Same s (setDl c s r lv) := by
  unfold setDl; split_ifs <;> exact ⟨rfl, rfl, rfl, rfl⟩

theorem setZero_same (c : Cfg α) (s : St α) (r : Int) (z : Bool) : Same s (setZero c s r z) := by
  unfold setZero; split_ifs <;> exact ⟨rfl, rfl, rfl, rfl⟩

theorem wr_same (c : Cfg α) (s : St α) (r : Int) (x : α) : Same s (wr c s r x) := by
  unfold wr; split_ifs <;> exact ⟨rfl, rfl, rfl, rfl⟩

theorem getDl_setDl {c : Cfg α} {s : St α} {r : Int} (h : Slot c s r) (lv q : Int) :
    getDl c (setDl c s r lv) q = if q = r then lv else getDl c s q := by
  have hd := depth_pos c
  rcases h with h | h | h
  · unfold setDl
    rw [if_pos ⟨h.1, h.2.1⟩]
    unfold getDl
    by_cases hq : q = r
    · subst hq
      rw [if_pos ⟨h.1, h.2.1⟩, if_neg (by simp only; omega), if_pos rfl]
      simp
    · rw [if_neg hq]
      simp only
      split_ifs with h1 h2 <;> try rfl
      rw [Function.update_of_ne]
      exact fun e => hq (slot_inj (o := s.origin) hd e (by omega) (by omega) (by omega) (by omega))
  · unfold setDl
    rw [if_neg (by omega), if_pos h]
    unfold getDl
    by_cases hq : q = r
    · subst hq
      rw [if_neg (by omega), if_pos h, if_pos rfl]
      simp
    · rw [if_neg hq]
      simp only
      split_ifs with h1 h2 <;> try rfl
      rw [Function.update_of_ne]
      omega
  · unfold setDl
    by_cases h9 : c.v0 ≤ r ∧ r < c.v1
    · omega
    by_cases h8 : c.v0 - c.topPse ≤ r ∧ r < c.v0
    · rw [if_neg h9, if_pos h8]
      unfold getDl
      by_cases hq : q = r
      · subst hq
        rw [if_neg h9, if_pos h8, if_pos rfl]
        simp
      · rw [if_neg hq]
        simp only
        split_ifs with h1 h2 <;> try rfl
        rw [Function.update_of_ne]
        omega
    rw [if_neg h9, if_neg h8, if_pos h]
    unfold getDl
    by_cases hq : q = r
    · subst hq
      rw [if_neg h9, if_neg h8, if_pos h, if_pos rfl]
      simp
    · rw [if_neg hq]
      simp only
      split_ifs with h1 h2 <;> try rfl
      rw [Function.update_of_ne]
      omega

theorem isZero_setZero {c : Cfg α} {s : St α} {r q : Int} (h : Slot c s r) (hq' : Slot c s q) (z : Bool) :
    isZero c (setZero c s r z) q = if q = r then z else isZero c s q := by
  have hd := depth_pos c
  unfold setZero
  by_cases h9 : c.v0 ≤ r ∧ r < c.v1
  · rw [if_pos h9]
    unfold isZero
    by_cases hq : q = r
    · subst hq
      rw [if_pos h9, if_pos rfl]
      simp
    · rw [if_neg hq]
      simp only
      split_ifs with h1 h2 <;> try rfl
      rw [Function.update_of_ne]
      unfold Slot at h hq'
      exact fun e => hq (slot_inj (o := s.origin) hd e (by omega) (by omega) (by omega) (by omega))
  by_cases h8 : c.v0 - c.topPse ≤ r ∧ r < c.v0
  · rw [if_neg h9, if_pos h8]
    unfold isZero
    by_cases hq : q = r
    · subst hq
      rw [if_neg h9, if_pos h8, if_pos rfl]
      simp
    · rw [if_neg hq]
      simp only
      split_ifs with h1 h2 <;> try rfl
      rw [Function.update_of_ne]
      omega
  have h7 : c.v1 ≤ r ∧ r < c.v1 + c.botPse := by unfold Slot at h; omega
  rw [if_neg h9, if_neg h8, if_pos h7]
  unfold isZero
  by_cases hq : q = r
  · subst hq
    rw [if_neg h9, if_neg h8, if_pos h7, if_pos rfl]
    simp
  · rw [if_neg hq]
    simp only
    split_ifs with h1 h2 <;> try rfl
    rw [Function.update_of_ne]
    omega

theorem rd_wr {c : Cfg α} {s : St α} {r q : Int} (h : Slot c s r) (hq' : Slot c s q) (x : α) :
    rd c (wr c s r x) q = if q = r then some x else rd c s q := by
  have hd := depth_pos c
  unfold wr
  by_cases h9 : c.v0 ≤ r ∧ r < c.v1
  · rw [if_pos h9]
    unfold rd
    by_cases hq : q = r
    · subst hq
      rw [if_pos h9, if_pos rfl]
      simp
    · rw [if_neg hq]
      simp only
      split_ifs with h1 h2 <;> try rfl
      rw [Function.update_of_ne]
      unfold Slot at h hq'
      exact fun e => hq (slot_inj (o := s.origin) hd e (by omega) (by omega) (by omega) (by omega))
  by_cases h8 : r < c.v0
  · rw [if_neg h9, if_pos h8]
    unfold rd
    by_cases hq : q = r
    · subst hq
      rw [if_neg h9, if_pos h8, if_pos rfl]
      simp
    · rw [if_neg hq]
      simp only
      split_ifs with h1 h2 <;> try rfl
      rw [Function.update_of_ne]
      omega
  rw [if_neg h9, if_neg h8]
  unfold rd
  by_cases hq : q = r
  · subst hq
    rw [if_neg h9, if_neg h8, if_pos rfl]
    simp
  · rw [if_neg hq]
    simp only
    split_ifs with h1 h2 <;> try rfl
    rw [Function.update_of_ne]
    omega

theorem getDl_wr (c : Cfg α) (s : St α) (r : Int) (x : α) (q : Int) : getDl c (wr c s r x) q = getDl c s q := by
  unfold wr; split_ifs <;> rfl

theorem getDl_setZero (c : Cfg α) (s : St α) (r : Int) (z : Bool) (q : Int) :
    getDl c (setZero c s r z) q = getDl c s q := by
  unfold setZero; split_ifs <;> rfl

theorem rd_setDl (c : Cfg α) (s : St α) (r lv q : Int) : rd c (setDl c s r lv) q = rd c s q := by
  unfold setDl; split_ifs <;> rfl

theorem rd_setZero (c : Cfg α) (s : St α) (r : Int) (z : Bool) (q : Int) :
    rd c (setZero c s r z) q = rd c s q := by
  unfold setZero; split_ifs <;> rfl

theorem isZero_setDl (c : Cfg α) (s : St α) (r lv q : Int) : isZero c (setDl c s r lv) q = isZero c s q := by
  unfold setDl; split_ifs <;> rfl

theorem isZero_wr (c : Cfg α) (s : St α) (r : Int) (x : α) (q : Int) :
    isZero c (wr c s r x) q = isZero c s q := by
  unfold wr; split_ifs <;> rfl

/-! ## The values of the batch transform -/

/-- Stage `n` of the batch transform of the signal `x`: `n` pairs of passes. -/
def Y (c : Cfg α) (x : Int → α) : Nat → Int → α
  | 0 => x
  | n + 1 => liftAll (1 - c.lead) (c.step (1 - c.lead) n) (liftAll c.lead (c.step c.lead n) (Y c x n))

theorem step_parity (c : Cfg α) {r q : Int} (h : r % 2 = q % 2) (cur : Int) : c.step r cur = c.step q cur := by
  unfold Cfg.step
  rw [h]

theorem Y_lead {c : Cfg α} {x : Int → α} {n : Nat} {r : Int} (h : r % 2 = c.lead) :
    Y c x (n + 1) r = c.step r n (Y c x n (r - 1)) (Y c x n (r + 1)) (Y c x n r) := by
  have hl := (consts c).2.1
  have e : Y c x (n + 1) r = liftAll (1 - c.lead) (c.step (1 - c.lead) n)
    (liftAll c.lead (c.step c.lead n) (Y c x n)) r := rfl
  rw [e]
  generalize Y c x n = y
  simp only [liftAll]
  rw [if_neg (by omega), if_pos h, step_parity c (q := r) (r := c.lead) (by omega)]

theorem Y_lag {c : Cfg α} {x : Int → α} {n : Nat} {r : Int} (h : r % 2 ≠ c.lead) :
    Y c x (n + 1) r = c.step r n (Y c x (n + 1) (r - 1)) (Y c x (n + 1) (r + 1)) (Y c x n r) := by
  have hl := (consts c).2.1
  have e : ∀ r, Y c x (n + 1) r = liftAll (1 - c.lead) (c.step (1 - c.lead) n)
    (liftAll c.lead (c.step c.lead n) (Y c x n)) r := fun _ => rfl
  rw [e, e, e]
  generalize Y c x n = y
  generalize hu : liftAll c.lead (c.step c.lead n) y = u
  have hur : u r = y r := by rw [← hu]; simp only [liftAll]; rw [if_neg h]
  simp only [liftAll]
  rw [if_pos (by omega), if_neg (by omega), if_neg (by omega), hur,
    step_parity c (q := r) (r := 1 - c.lead) (by omega)]

/-- The level that the neighbours need for row `r` to be lifted from level `cur`. -/
def need (c : Cfg α) (r cur : Int) : Int := if r % 2 = c.lead then cur else cur + 1

/-- Row `r` can be lifted. -/
def Can (c : Cfg α) (D : Int → Int) (r : Int) : Prop :=
  0 ≤ D r ∧ D r < c.maxDl ∧ need c r (D r) ≤ D (r - 1) ∧ need c r (D r) ≤ D (r + 1)

/-- The row that row `r` mirrors. -/
def src (c : Cfg α) (r : Int) : Int := c.v0 + mirror (c.v1 - c.v0) (r - c.v0)

/-- `z` is a row that does not contribute as a neighbour. -/
def Neutral (c : Cfg α) (z : α) : Prop := ∀ r cur t, c.step r cur z z t = t

/-- The invariant. -/
structure Good (c : Cfg α) (x : Int → α) (z : α) (s : St α) : Prop where
  org : c.v0 ≤ s.origin
  orgOut : s.origin ≤ s.nextOut
  outIn : s.nextOut ≤ s.nextIn
  inV1 : s.nextIn ≤ c.v1
  fit : s.nextIn ≤ s.origin + c.depth
  lo : ∀ r, -1 ≤ getDl c s r
  hi : ∀ r, getDl c s r ≤ c.maxDl
  real : ∀ r, c.v0 ≤ r → r < c.v1 → (0 ≤ getDl c s r ↔ s.origin ≤ r ∧ r < s.nextIn)
  pse : ∀ r, (c.v0 - c.topPse ≤ r ∧ r < c.v0 ∨ c.v1 ≤ r ∧ r < c.v1 + c.botPse) →
    (0 ≤ getDl c s r ↔ src c r < s.nextIn)
  cons : ∀ r q, (q = r - 1 ∨ q = r + 1) → r % 2 = c.lead → 0 ≤ getDl c s r → 0 ≤ getDl c s q →
    getDl c s q ≤ getDl c s r ∧ getDl c s r ≤ getDl c s q + 1
  nbr : ∀ r q, (q = r - 1 ∨ q = r + 1) → 1 ≤ getDl c s r → 0 ≤ getDl c s q ∨ c.v0 ≤ q ∧ q < s.origin
  data : ∀ r, 0 ≤ getDl c s r → rd c s r = some (Y c x (getDl c s r).toNat r)
  zero : ∀ r, 0 ≤ getDl c s r → isZero c s r = true → rd c s r = some z ∧ Neutral c z
  done : ∀ r, s.origin ≤ r → r < s.nextOut → getDl c s r = c.maxDl

theorem adv {c : Cfg α} {x : Int → α} {z : α} {s : St α} (g : Good c x z s) {r : Int}
    (h : Can c (getDl c s) r) : ∃ s', advStep c s r (getDl c s r) = some s' ∧ Good c x z s' ∧ Same s s' ∧
      ∀ q, getDl c s' q = if q = r then getDl c s r + 1 else getDl c s q := by
  have hl := (consts c).2.1
  obtain ⟨h0, h1, h2, h3⟩ := h
  have hn : 0 ≤ need c r (getDl c s r) := by unfold need; split_ifs <;> omega
  have hp0 : 0 ≤ getDl c s (r - 1) := by omega
  have hq0 : 0 ≤ getDl c s (r + 1) := by omega
  have hpz := g.data _ hp0
  have hqz := g.data _ hq0
  have hrz := g.data _ h0
  -- the value that has to be stored
  have key : c.step r (getDl c s r) (Y c x (getDl c s (r - 1)).toNat (r - 1))
      (Y c x (getDl c s (r + 1)).toNat (r + 1)) (Y c x (getDl c s r).toNat r) =
      Y c x ((getDl c s r) + 1).toNat r := by
    have e1 : ((getDl c s r) + 1).toNat = (getDl c s r).toNat + 1 := by omega
    rw [e1]
    unfold need at h2 h3
    have e3 : getDl c s r = ((getDl c s r).toNat : Int) := by omega
    by_cases hr : r % 2 = c.lead
    · rw [if_pos hr] at h2 h3
      have c1 := g.cons r (r - 1) (Or.inl rfl) hr h0 hp0
      have c2 := g.cons r (r + 1) (Or.inr rfl) hr h0 hq0
      rw [show getDl c s (r - 1) = getDl c s r by omega, show getDl c s (r + 1) = getDl c s r by omega, Y_lead hr,
        ← e3]
    · rw [if_neg hr] at h2 h3
      have c1 := g.cons (r - 1) r (by omega) (by omega) hp0 h0
      have c2 := g.cons (r + 1) r (by omega) (by omega) hq0 h0
      rw [show getDl c s (r - 1) = getDl c s r + 1 by omega, show getDl c s (r + 1) = getDl c s r + 1 by omega, e1,
        Y_lag hr, ← e3]
  -- what is needed of the new state
  have suff : ∀ s', Same s s' → (∀ q, getDl c s' q = if q = r then getDl c s r + 1 else getDl c s q) →
      (∀ q, 0 ≤ getDl c s q → rd c s' q = if q = r then some (Y c x ((getDl c s r) + 1).toNat r) else rd c s q) →
      (∀ q, 0 ≤ getDl c s q → isZero c s' q = true →
        if q = r then some (Y c x ((getDl c s r) + 1).toNat r) = some z ∧ Neutral c z else isZero c s q = true) →
      Good c x z s' := by
    intro s' hs hD hR hZ
    have live : ∀ q, 0 ≤ getDl c s' q ↔ 0 ≤ getDl c s q := by
      intro q; rw [hD]; split_ifs with e
      · subst e; omega
      · rfl
    constructor
    · rw [hs.origin]; exact g.org
    · rw [hs.origin, hs.nextOut]; exact g.orgOut
    · rw [hs.nextIn, hs.nextOut]; exact g.outIn
    · rw [hs.nextIn]; exact g.inV1
    · rw [hs.nextIn, hs.origin]; exact g.fit
    · intro q; rw [hD]; have := g.lo q; split_ifs <;> omega
    · intro q; rw [hD]; have := g.hi q; split_ifs <;> omega
    · intro q a b; rw [live, hs.nextIn, hs.origin]; exact g.real q a b
    · intro q a; rw [live, hs.nextIn]; exact g.pse q a
    · intro a b hab ha la lb
      rw [live] at la lb
      have c1 := g.cons a b hab ha la lb
      rw [hD a, hD b]
      unfold need at h2 h3
      by_cases e1 : a = r
      · subst e1
        rw [if_pos ha] at h2 h3
        rw [if_pos rfl, if_neg (by omega)]
        rcases hab with e | e <;> subst e <;> omega
      · rw [if_neg e1]
        by_cases e2 : b = r
        · subst e2
          rw [if_neg (by omega)] at h2 h3
          rw [if_pos rfl]
          rcases hab with e | e
          · have : a = b + 1 := by omega
            subst this; omega
          · have : a = b - 1 := by omega
            subst this; omega
        · rw [if_neg e2]; exact c1
    · intro a b hab la
      rw [live, hs.origin]
      by_cases e : a = r
      · subst e
        rcases hab with e | e <;> subst e <;> omega
      · rw [hD, if_neg e] at la
        exact g.nbr a b hab la
    · intro q lq
      rw [live] at lq
      rw [hR q lq, hD]
      split_ifs with e
      · rw [e]
      · exact g.data q lq
    · intro q lq hz
      rw [live] at lq
      have := hZ q lq hz
      rw [hR q lq]
      split_ifs at this ⊢ with e
      · exact this
      · exact g.zero q lq this
    · intro q a b
      rw [hs.origin] at a
      rw [hs.nextOut] at b
      have := g.done q a b
      rw [hD]
      split_ifs with e
      · subst e; omega
      · exact this
  have sr := live_slot h0
  unfold advStep
  split_ifs with hz
  · rw [Bool.and_eq_true] at hz
    refine ⟨_, rfl, ?_, setDl_same _ _ _ _, getDl_setDl sr _⟩
    have hv : Y c x ((getDl c s r) + 1).toNat r = Y c x (getDl c s r).toNat r := by
      have e1 := (g.zero _ hp0 hz.1)
      have e2 := (g.zero _ hq0 hz.2)
      rw [hpz] at e1
      rw [hqz] at e2
      rw [← key, Option.some.inj e1.1, Option.some.inj e2.1, e1.2]
    apply suff _ (setDl_same _ _ _ _) (getDl_setDl sr _)
    · intro q lq
      rw [rd_setDl]
      split_ifs with e
      · rw [e, hv, hrz]
      · rfl
    · intro q lq hq
      rw [isZero_setDl] at hq
      split_ifs with e
      · rw [hv, ← hrz]; subst e; exact g.zero _ h0 hq
      · exact hq
  · have s1 := setZero_same c s r false
    have sr1 : Slot c (setZero c s r false) r := (s1.slot r).2 sr
    have s2 := s1.trans (wr_same c (setZero c s r false) r (Y c x ((getDl c s r) + 1).toNat r))
    have sr2 := (s2.slot r).2 sr
    have hD : ∀ q, getDl c (setDl c (wr c (setZero c s r false) r (Y c x ((getDl c s r) + 1).toNat r)) r
        (getDl c s r + 1)) q = if q = r then getDl c s r + 1 else getDl c s q := by
      intro q
      rw [getDl_setDl sr2, getDl_wr, getDl_setZero]
    refine ⟨setDl c (wr c (setZero c s r false) r (Y c x ((getDl c s r) + 1).toNat r)) r (getDl c s r + 1),
      ?_, ?_, s2.trans (setDl_same _ _ _ _), hD⟩
    · rw [hpz, hqz, hrz]
      simp only [Option.bind_some, Option.map_some, key]
    · apply suff _ (s2.trans (setDl_same _ _ _ _)) hD
      · intro q lq
        rw [rd_setDl, rd_wr sr1 ((s1.slot q).2 (live_slot lq)), rd_setZero]
      · intro q lq hq
        rw [isZero_setDl, isZero_wr, isZero_setZero sr (live_slot lq)] at hq
        split_ifs at hq ⊢
        exact hq

/-! ## The cascade -/

/-- The shape of the result of a function that only lifts rows. -/
def Lifts (c : Cfg α) (x : Int → α) (z : α) (s s' : St α) : Prop :=
  Good c x z s' ∧ Same s s' ∧ ∀ q, getDl c s q ≤ getDl c s' q

theorem Lifts.refl {c : Cfg α} {x : Int → α} {z : α} {s : St α} (g : Good c x z s) : Lifts c x z s s :=
  ⟨g, Same.refl s, fun _ => le_refl _⟩

theorem Lifts.trans {c : Cfg α} {x : Int → α} {z : α} {s t u : St α} (h : Lifts c x z s t)
    (h' : Lifts c x z t u) : Lifts c x z s u :=
  ⟨h'.1, h.2.1.trans h'.2.1, fun q => (h.2.2 q).trans (h'.2.2 q)⟩

theorem adv_lifts {c : Cfg α} {x : Int → α} {z : α} {s : St α} (g : Good c x z s) {r : Int}
    (h : Can c (getDl c s) r) : ∃ s', advStep c s r (getDl c s r) = some s' ∧ Lifts c x z s s' ∧
      ∀ q, getDl c s' q = if q = r then getDl c s r + 1 else getDl c s q := by
  obtain ⟨s', e, g', hs, hD⟩ := adv g h
  refine ⟨s', e, ⟨g', hs, fun q => ?_⟩, hD⟩
  rw [hD]; split_ifs with e
  · rw [e]; omega
  · exact le_refl _

theorem phase_spec {c : Cfg α} {x : Int → α} {z : α} {cur : Int} (hc : 0 ≤ cur) (hc' : cur < c.maxDl)
    (n : Nat) : ∀ (first : Int) (s : St α), Good c x z s →
    ∃ s', phase c cur (need c first cur) n first s = some s' ∧ Lifts c x z s s' ∧
      ∀ q, getDl c s' q = if first ≤ q ∧ q < first + 2 * n ∧ q % 2 = first % 2 ∧ getDl c s q = cur ∧
        need c first cur ≤ getDl c s (q - 1) ∧ need c first cur ≤ getDl c s (q + 1) then cur + 1
        else getDl c s q := by
  induction n with
  | zero =>
    intro first s g
    refine ⟨s, rfl, Lifts.refl g, fun q => ?_⟩
    rw [if_neg (by omega)]
  | succ n ih =>
    intro first s g
    have hneed : need c (first + 2) cur = need c first cur := by
      unfold need
      rw [show (first + 2) % 2 = first % 2 by omega]
    rw [phase]
    by_cases hcan : getDl c s first = cur ∧ getDl c s (first - 1) ≥ need c first cur ∧
        getDl c s (first + 1) ≥ need c first cur
    · rw [if_pos hcan]
      obtain ⟨s1, e1, l1, d1⟩ := adv_lifts g (r := first)
        ⟨by omega, by omega, by rw [hcan.1]; exact hcan.2.1, by rw [hcan.1]; exact hcan.2.2⟩
      rw [hcan.1] at e1 d1
      rw [e1, Option.bind_some]
      obtain ⟨s2, e2, l2, d2⟩ := ih (first + 2) s1 l1.1
      rw [hneed] at e2 d2
      refine ⟨s2, e2, l1.trans l2, fun q => ?_⟩
      rw [d2, d1 q, d1 (q - 1), d1 (q + 1)]
      by_cases hq : q = first
      · subst hq
        rw [if_neg (by omega), if_pos rfl, if_pos ⟨by omega, by omega, rfl, hcan⟩]
      · rw [if_neg hq]
        by_cases hpar : q % 2 = first % 2
        · rw [if_neg (show ¬ q - 1 = first by omega), if_neg (show ¬ q + 1 = first by omega)]
          congr 1
          rw [eq_iff_iff]
          push_cast
          constructor
          · rintro ⟨a1, a2, a3, a4⟩
            exact ⟨by omega, by omega, by omega, a4⟩
          · rintro ⟨a1, a2, a3, a4⟩
            exact ⟨by omega, by omega, by omega, a4⟩
        · rw [if_neg (by omega), if_neg (by omega)]
    · rw [if_neg hcan, Option.bind_some]
      obtain ⟨s2, e2, l2, d2⟩ := ih (first + 2) s g
      rw [hneed] at e2 d2
      refine ⟨s2, e2, l2, fun q => ?_⟩
      rw [d2]
      by_cases hq : q = first
      · subst hq
        rw [if_neg (by omega), if_neg (fun h => hcan h.2.2.2)]
      · congr 1
        rw [eq_iff_iff]
        push_cast
        constructor
        · rintro ⟨a1, a2, a3, a4⟩
          exact ⟨by omega, by omega, by omega, a4⟩
        · rintro ⟨a1, a2, a3, a4⟩
          exact ⟨by omega, by omega, by omega, a4⟩

theorem phaseAll_spec {c : Cfg α} {x : Int → α} {z : α} {s : St α} (g : Good c x z s) {par cur nd : Int}
    (hc : 0 ≤ cur) (hc' : cur < c.maxDl) (hp : par = 0 ∨ par = 1) (hnd : nd = need c par cur) :
    ∃ s', phaseAll c par cur nd s = some s' ∧ Lifts c x z s s' ∧
      ∀ q, getDl c s' q = if scanLo c s ≤ q ∧ q < scanHi c s ∧ q % 2 = par ∧ getDl c s q = cur ∧
        nd ≤ getDl c s (q - 1) ∧ nd ≤ getDl c s (q + 1) then cur + 1 else getDl c s q := by
  unfold phaseAll
  simp only
  generalize hf : (if scanLo c s % 2 = par then scanLo c s else scanLo c s + 1) = first
  have hfp : first % 2 = par := by split_ifs at hf <;> omega
  have hn : need c first cur = nd := by
    rw [hnd]; unfold need
    rw [hfp, show par % 2 = par by omega]
  obtain ⟨s', e, l, d⟩ := phase_spec hc hc' ((scanHi c s - first + 1) / 2).toNat first s g
  rw [hn] at e d
  refine ⟨s', e, l, fun q => ?_⟩
  rw [d]
  congr 1
  rw [eq_iff_iff, hfp]
  have e1 : scanLo c s ≤ first ∧ first ≤ scanLo c s + 1 ∧ (first = scanLo c s + 1 → scanLo c s % 2 ≠ par) := by
    split_ifs at hf <;> omega
  constructor
  · rintro ⟨a1, a2, a3, a4⟩
    exact ⟨by omega, by omega, by omega, a4⟩
  · rintro ⟨a1, a2, a3, a4⟩
    exact ⟨by omega, by omega, by omega, a4⟩

/-- No row in the scanned range can be lifted. -/
def Stable (c : Cfg α) (s : St α) : Prop :=
  ∀ q, scanLo c s ≤ q → q < scanHi c s → ¬ Can c (getDl c s) q

theorem Same.scanLo {c : Cfg α} {s s' : St α} (h : Same s s') : scanLo c s' = scanLo c s := by
  simp only [Stream.scanLo, h.origin]

theorem Same.scanHi {c : Cfg α} {s s' : St α} (h : Same s s') : scanHi c s' = scanHi c s := by
  simp only [Stream.scanHi, h.nextIn]

theorem two_phases {c : Cfg α} {x : Int → α} {z : α} {s : St α} (g : Good c x z s) {p : Int} (hp : p = c.lead)
    {q : Int} (hq : q = 1 - c.lead) (hm : c.maxDl = 1) :
    ∃ s', (phaseAll c p 0 0 s).bind (phaseAll c q 0 1) = some s' ∧ Lifts c x z s s' ∧ Stable c s' := by
  have hl := (consts c).2.1
  obtain ⟨s1, e1, l1, d1⟩ := phaseAll_spec g (par := p) (cur := 0) (nd := 0) (by omega) (by omega) (by omega)
    (by unfold need; rw [if_pos (by omega)])
  obtain ⟨s2, e2, l2, d2⟩ := phaseAll_spec l1.1 (par := q) (cur := 0) (nd := 1) (by omega) (by omega) (by omega)
    (by unfold need; rw [if_neg (by omega)]; rfl)
  rw [e1, Option.bind_some]
  refine ⟨s2, e2, l1.trans l2, ?_⟩
  intro r hlo hhi hcan
  rw [l2.2.1.scanLo] at hlo
  rw [l2.2.1.scanHi] at hhi
  rw [l1.2.1.scanLo] at hlo
  rw [l1.2.1.scanHi] at hhi
  rw [l1.2.1.scanLo, l1.2.1.scanHi] at d2
  obtain ⟨c1, c2, c3, c4⟩ := hcan
  rw [hm] at c2
  unfold need at c3 c4
  subst hp hq
  by_cases hr : r % 2 = c.lead
  · rw [if_pos hr] at c3 c4
    have a0 := d1 r
    have b0 := d2 r
    have b1 := d2 (r - 1)
    have b2 := d2 (r + 1)
    rw [if_neg (by omega)] at b0
    have a1 := d1 (r - 1)
    have a2 := d1 (r + 1)
    rw [if_neg (by omega)] at a1 a2
    have k1 : 0 ≤ getDl c s1 (r - 1) := by split_ifs at b1 <;> omega
    have k2 : 0 ≤ getDl c s1 (r + 1) := by split_ifs at b2 <;> omega
    by_cases h0 : getDl c s r = 0
    · rw [if_pos ⟨hlo, hhi, hr, h0, by omega, by omega⟩] at a0
      omega
    · rw [if_neg (by omega)] at a0
      omega
  · rw [if_neg hr] at c3 c4
    have a0 := d1 r
    have b0 := d2 r
    have b1 := d2 (r - 1)
    have b2 := d2 (r + 1)
    rw [if_neg (by omega)] at b1 b2 a0
    by_cases h0 : getDl c s1 r = 0
    · rw [if_pos ⟨hlo, hhi, by omega, h0, by omega, by omega⟩] at b0
      omega
    · rw [if_neg (by omega)] at b0
      omega

theorem four_phases {c : Cfg α} {x : Int → α} {z : α} {s : St α} (g : Good c x z s) {p : Int} (hp : p = c.lead)
    {q : Int} (hq : q = 1 - c.lead) (hm : c.maxDl = 2) :
    ∃ s', ((phaseAll c p 0 0 s).bind fun s => (phaseAll c q 0 1 s).bind fun s =>
      (phaseAll c p 1 1 s).bind (phaseAll c q 1 2)) = some s' ∧ Lifts c x z s s' ∧ Stable c s' := by
  have hl := (consts c).2.1
  obtain ⟨s1, e1, l1, d1⟩ := phaseAll_spec g (par := p) (cur := 0) (nd := 0) (by omega) (by omega) (by omega)
    (by unfold need; rw [if_pos (by omega)])
  obtain ⟨s2, e2, l2, d2⟩ := phaseAll_spec l1.1 (par := q) (cur := 0) (nd := 1) (by omega) (by omega) (by omega)
    (by unfold need; rw [if_neg (by omega)]; rfl)
  obtain ⟨s3, e3, l3, d3⟩ := phaseAll_spec l2.1 (par := p) (cur := 1) (nd := 1) (by omega) (by omega) (by omega)
    (by unfold need; rw [if_pos (by omega)])
  obtain ⟨s4, e4, l4, d4⟩ := phaseAll_spec l3.1 (par := q) (cur := 1) (nd := 2) (by omega) (by omega) (by omega)
    (by unfold need; rw [if_neg (by omega)]; rfl)
  rw [e1, Option.bind_some, e2, Option.bind_some, e3, Option.bind_some]
  refine ⟨s4, e4, l1.trans (l2.trans (l3.trans l4)), ?_⟩
  have l12 := l1.2.1.trans l2.2.1
  have l13 := l12.trans l3.2.1
  have l14 := l13.trans l4.2.1
  intro r hlo hhi hcan
  rw [l14.scanLo] at hlo
  rw [l14.scanHi] at hhi
  rw [l13.scanLo, l13.scanHi] at d4
  rw [l12.scanLo, l12.scanHi] at d3
  rw [l1.2.1.scanLo, l1.2.1.scanHi] at d2
  obtain ⟨c1, c2, c3, c4⟩ := hcan
  rw [hm] at c2
  unfold need at c3 c4
  subst hp hq
  -- what a phase does at a row of the other parity, and how far it can go at a row of its own
  have o1 : ∀ k, k % 2 ≠ c.lead → getDl c s1 k = getDl c s k := fun k hk => by rw [d1, if_neg (by omega)]
  have o2 : ∀ k, k % 2 = c.lead → getDl c s2 k = getDl c s1 k := fun k hk => by rw [d2, if_neg (by omega)]
  have o3 : ∀ k, k % 2 ≠ c.lead → getDl c s3 k = getDl c s2 k := fun k hk => by rw [d3, if_neg (by omega)]
  have o4 : ∀ k, k % 2 = c.lead → getDl c s4 k = getDl c s3 k := fun k hk => by rw [d4, if_neg (by omega)]
  have w1 : ∀ k, getDl c s1 k = getDl c s k ∨ getDl c s k = 0 ∧ getDl c s1 k = 1 := fun k => by
    rw [d1]; split_ifs <;> omega
  have w2 : ∀ k, getDl c s2 k = getDl c s1 k ∨ getDl c s1 k = 0 ∧ getDl c s2 k = 1 := fun k => by
    rw [d2]; split_ifs <;> omega
  have w3 : ∀ k, getDl c s3 k = getDl c s2 k ∨ getDl c s2 k = 1 ∧ getDl c s3 k = 2 := fun k => by
    rw [d3]; split_ifs <;> omega
  have w4 : ∀ k, getDl c s4 k = getDl c s3 k ∨ getDl c s3 k = 1 ∧ getDl c s4 k = 2 := fun k => by
    rw [d4]; split_ifs <;> omega
  by_cases hr : r % 2 = c.lead
  · rw [if_pos hr] at c3 c4
    have p1 := o1 (r - 1) (by omega)
    have p2 := w2 (r - 1)
    have p3 := o3 (r - 1) (by omega)
    have p4 := w4 (r - 1)
    have q1 := o1 (r + 1) (by omega)
    have q2 := w2 (r + 1)
    have q3 := o3 (r + 1) (by omega)
    have q4 := w4 (r + 1)
    have t2 := o2 r hr
    have t4 := o4 r hr
    have t1 := d1 r
    have t3 := d3 r
    by_cases h0 : getDl c s r = 0
    · rw [if_pos ⟨hlo, hhi, hr, h0, by omega, by omega⟩] at t1
      by_cases h1 : 1 ≤ getDl c s2 (r - 1) ∧ 1 ≤ getDl c s2 (r + 1)
      · rw [if_pos ⟨hlo, hhi, hr, by omega, h1⟩] at t3
        omega
      · rw [if_neg (fun h => h1 h.2.2.2.2)] at t3
        omega
    · rw [if_neg (by omega)] at t1
      by_cases h1 : getDl c s2 r = 1
      · by_cases h2 : 1 ≤ getDl c s2 (r - 1) ∧ 1 ≤ getDl c s2 (r + 1)
        · rw [if_pos ⟨hlo, hhi, hr, h1, h2⟩] at t3
          omega
        · rw [if_neg (fun h => h2 h.2.2.2.2)] at t3
          omega
      · rw [if_neg (fun h => h1 h.2.2.2.1)] at t3
        omega
  · rw [if_neg hr] at c3 c4
    have p2 := o2 (r - 1) (by omega)
    have p3 := w3 (r - 1)
    have p4 := o4 (r - 1) (by omega)
    have q2 := o2 (r + 1) (by omega)
    have q3 := w3 (r + 1)
    have q4 := o4 (r + 1) (by omega)
    have t1 := o1 r hr
    have t3 := o3 r hr
    have t2 := d2 r
    have t4 := d4 r
    by_cases h0 : getDl c s1 r = 0 ∧ 1 ≤ getDl c s1 (r - 1) ∧ 1 ≤ getDl c s1 (r + 1)
    · rw [if_pos ⟨hlo, hhi, by omega, h0⟩] at t2
      by_cases h1 : 2 ≤ getDl c s3 (r - 1) ∧ 2 ≤ getDl c s3 (r + 1)
      · rw [if_pos ⟨hlo, hhi, by omega, by omega, h1⟩] at t4
        omega
      · rw [if_neg (fun h => h1 h.2.2.2.2)] at t4
        omega
    · rw [if_neg (fun h => h0 h.2.2.2)] at t2
      by_cases h1 : getDl c s3 r = 1 ∧ 2 ≤ getDl c s3 (r - 1) ∧ 2 ≤ getDl c s3 (r + 1)
      · rw [if_pos ⟨hlo, hhi, by omega, h1⟩] at t4
        omega
      · rw [if_neg (fun h => h1 h.2.2.2)] at t4
        omega

theorem canAdv_iff {c : Cfg α} {s : St α} {r : Int} (hf : c.forward = true) (hm : c.maxDl = 2) :
    canAdv c s r = true ↔ Can c (getDl c s) r := by
  have hlead : c.lead = 1 := by unfold Cfg.lead; rw [if_pos hf]
  unfold canAdv Can need
  simp only [hm, hlead]
  split_ifs <;> simp <;> omega

theorem scan_spec {c : Cfg α} {x : Int → α} {z : α} (hf : c.forward = true) (hm : c.maxDl = 2) (n : Nat) :
    ∀ (r : Int) (s : St α) (p : Bool), Good c x z s →
    ∃ s' b, scan c n r s p = some (s', b) ∧ Lifts c x z s s' ∧
      (b = true → p = true ∨ ∃ q, r ≤ q ∧ q < r + n ∧ getDl c s q < getDl c s' q) ∧
      (b = false → p = false ∧ s' = s ∧ ∀ q, r ≤ q → q < r + n → ¬ Can c (getDl c s) q) := by
  induction n with
  | zero =>
    intro r s p g
    refine ⟨s, p, rfl, Lifts.refl g, fun h => Or.inl h, fun h => ⟨h, rfl, fun q _ _ => by omega⟩⟩
  | succ n ih =>
    intro r s p g
    rw [scan]
    by_cases hc : canAdv c s r = true
    · rw [if_pos hc]
      obtain ⟨s1, e1, l1, d1⟩ := adv_lifts g ((canAdv_iff hf hm).1 hc)
      rw [e1, Option.bind_some]
      obtain ⟨s2, b, e2, l2, a2, _⟩ := ih (r + 1) s1 true l1.1
      refine ⟨s2, b, e2, l1.trans l2, fun _ => Or.inr ⟨r, by omega, by push_cast; omega, ?_⟩, fun hb => ?_⟩
      · have := l2.2.2 r
        rw [d1, if_pos rfl] at this
        omega
      · obtain ⟨k, _⟩ := ‹b = false → _› hb
        exact absurd k (by simp)
    · rw [if_neg hc]
      obtain ⟨s2, b, e2, l2, a2, b2⟩ := ih (r + 1) s p g
      refine ⟨s2, b, e2, l2, fun hb => ?_, fun hb => ?_⟩
      · rcases a2 hb with h | ⟨q, h1, h2, h3⟩
        · exact Or.inl h
        · exact Or.inr ⟨q, by omega, by push_cast; omega, h3⟩
      · obtain ⟨h1, h2, h3⟩ := b2 hb
        refine ⟨h1, h2, fun q hq hq' => ?_⟩
        by_cases e : q = r
        · subst e
          exact fun h => hc ((canAdv_iff hf hm).2 h)
        · exact h3 q (by omega) (by push_cast at hq'; omega)

theorem scanAll_spec {c : Cfg α} {x : Int → α} {z : α} (hf : c.forward = true) (hm : c.maxDl = 2) (fuel : Nat) :
    ∀ s : St α, Good c x z s →
    (∑ q ∈ Finset.Ico (scanLo c s) (scanHi c s), (c.maxDl - getDl c s q).toNat) < fuel →
    ∃ s', scanAll c fuel s = some s' ∧ Lifts c x z s s' ∧ Stable c s' := by
  induction fuel with
  | zero => intro s _ h; omega
  | succ fuel ih =>
    intro s g hfuel
    rw [scanAll]
    obtain ⟨s1, b, e1, l1, a1, b1⟩ := scan_spec hf hm (scanHi c s - scanLo c s).toNat (scanLo c s) s false g
    rw [e1, Option.bind_some]
    cases b with
    | false =>
      obtain ⟨_, h2, h3⟩ := b1 rfl
      subst h2
      exact ⟨s1, by simp, l1, fun q hq hq' => h3 q hq (by omega)⟩
    | true =>
      rcases a1 rfl with h | ⟨q, h1, h2, h3⟩
      · exact absurd h (by simp)
      · have hlt : (∑ q ∈ Finset.Ico (scanLo c s1) (scanHi c s1), (c.maxDl - getDl c s1 q).toNat) <
            ∑ q ∈ Finset.Ico (scanLo c s) (scanHi c s), (c.maxDl - getDl c s q).toNat := by
          rw [l1.2.1.scanLo, l1.2.1.scanHi]
          apply Finset.sum_lt_sum
          · intro k _
            have := l1.2.2 k
            omega
          · refine ⟨q, Finset.mem_Ico.2 ⟨h1, by omega⟩, ?_⟩
            have := l1.1.hi q
            omega
        obtain ⟨s2, e2, l2, st⟩ := ih s1 l1.1 (by omega)
        exact ⟨s2, by simpa using e2, l1.trans l2, st⟩

theorem cascade_spec {c : Cfg α} {x : Int → α} {z : α} {s : St α} (g : Good c x z s) :
    ∃ s', cascade c s = some s' ∧ Lifts c x z s s' ∧ Stable c s' := by
  unfold cascade
  cases hf : c.forward <;> cases hfl : c.flt <;> simp only
  · exact two_phases g (by simp [Cfg.lead, hf]) (by simp [Cfg.lead, hf]) (by simp [Cfg.maxDl, hfl])
  · exact four_phases g (by simp [Cfg.lead, hf]) (by simp [Cfg.lead, hf]) (by simp [Cfg.maxDl, hfl])
  · exact two_phases g (by simp [Cfg.lead, hf]) (by simp [Cfg.lead, hf]) (by simp [Cfg.maxDl, hfl])
  · have hm : c.maxDl = 2 := by simp [Cfg.maxDl, hfl]
    apply scanAll_spec hf hm _ s g
    have h1 : ∀ q ∈ Finset.Ico (scanLo c s) (scanHi c s), (c.maxDl - getDl c s q).toNat ≤ 3 := by
      intro q _
      have := g.lo q
      omega
    have h2 := Finset.sum_le_card_nsmul _ _ _ h1
    rw [Int.card_Ico, nsmul_eq_mul, Nat.cast_id] at h2
    omega

/-! ## Progress -/

/-- In a range where nothing can be lifted any more, a row far enough from the ends is finished.  `b` is a
finished row below which nothing needs to be known. -/
theorem climb {c : Cfg α} {D : Int → Int} {b r : Int} (hhi : ∀ q, D q ≤ c.maxDl)
    (hlive : ∀ q, b ≤ q → r - 2 * c.maxDl + 1 ≤ q → q ≤ r + 2 * c.maxDl - 1 → 0 ≤ D q)
    (hnb : ∀ q, b < q → r - 2 * c.maxDl + 1 ≤ q → q ≤ r + 2 * c.maxDl - 1 → q % 2 = c.lead →
      0 ≤ D (q - 1) ∧ 0 ≤ D (q + 1))
    (hb : r - 2 * c.maxDl + 1 ≤ b → D b = c.maxDl)
    (hst : ∀ q, b ≤ q → r - 2 * c.maxDl + 1 ≤ q → q ≤ r + 2 * c.maxDl - 1 → ¬ Can c D q)
    (hbr : b ≤ r) : D r = c.maxDl := by
  have hm := (consts c).1
  have hl := (consts c).2.1
  have main : ∀ j : Nat, 1 ≤ j → (j : Int) ≤ 2 * c.maxDl → ∀ q, b ≤ q → r - 2 * c.maxDl + j ≤ q →
      q ≤ r + 2 * c.maxDl - j → (if q % 2 = c.lead then ((j : Int) + 1) / 2 else (j : Int) / 2) ≤ D q := by
    intro j
    induction j with
    | zero => intro h; omega
    | succ j ih =>
      intro _ hj q h1 h2 h3
      push_cast at hj h2 h3 ⊢
      have l0 := hlive q h1 (by omega) (by omega)
      have u0 := hhi q
      by_cases hqb : q = b
      · have := hb (by omega)
        subst hqb
        split_ifs <;> omega
      have st := hst q h1 (by omega) (by omega)
      unfold Can need at st
      by_cases hj0 : j = 0
      · subst hj0
        split_ifs with hq
        · rw [if_pos hq] at st
          have := hnb q (by omega) (by omega) (by omega) hq
          push_cast
          by_contra hcon
          exact st ⟨l0, by omega, by omega, by omega⟩
        · push_cast
          omega
      · have i0 := ih (by omega) (by omega) q h1 (by omega) (by omega)
        have i1 := ih (by omega) (by omega) (q - 1) (by omega) (by omega) (by omega)
        have i2 := ih (by omega) (by omega) (q + 1) (by omega) (by omega) (by omega)
        by_cases hq : q % 2 = c.lead
        · rw [if_pos hq] at st i0 ⊢
          rw [if_neg (by omega)] at i1 i2
          by_contra hcon
          exact st ⟨l0, by omega, by omega, by omega⟩
        · rw [if_neg hq] at st i0 ⊢
          rw [if_pos (by omega)] at i1 i2
          by_contra hcon
          exact st ⟨l0, by omega, by omega, by omega⟩
  have := main (2 * c.maxDl).toNat (by omega) (by omega) r hbr (by omega) (by omega)
  have u := hhi r
  split_ifs at this <;> omega

/-- Every row far enough from the last row received is finished. -/
def Settled (c : Cfg α) (s : St α) : Prop :=
  ∀ r, s.origin ≤ r → r < c.v1 → (r + 2 * c.maxDl < s.nextIn ∨ s.nextIn = c.v1) → getDl c s r = c.maxDl

/-- A finished row had all rows it depends on. -/
theorem reach {c : Cfg α} {x : Int → α} {z : α} {s : St α} (g : Good c x z s) {r : Int} (h0 : s.origin ≤ r)
    (h1 : r < c.v1) (hd : getDl c s r = c.maxDl) (hin : s.nextIn < c.v1) :
    r + 2 * c.maxDl - 1 < s.nextIn := by
  have hm := (consts c).1
  have hl := (consts c).2.1
  have horg := g.org
  -- the next row is there, as long as rows are inside
  have next : ∀ q, s.origin ≤ q → q < c.v1 → 1 ≤ getDl c s q → q + 1 < s.nextIn ∧ 0 ≤ getDl c s (q + 1) := by
    intro q a b d
    have l : 0 ≤ getDl c s (q + 1) := by
      rcases g.nbr q (q + 1) (Or.inr rfl) d with h | h
      · exact h
      · omega
    refine ⟨?_, l⟩
    have := (g.real q (by omega) b).1 (by omega)
    have := (g.real (q + 1) (by omega) (by omega)).1 l
    omega
  obtain ⟨n1, n2⟩ := next r h0 h1 (by omega)
  rcases hm with hm | hm
  · omega
  rw [hm] at hd
  by_cases hr : r % 2 = c.lead
  · have k1 := g.cons r (r + 1) (Or.inr rfl) hr (by omega) n2
    obtain ⟨n3, n4⟩ := next (r + 1) (by omega) (by omega) (by omega)
    have k2 := g.cons (r + 1 + 1) (r + 1) (by omega) (by omega) n4 n2
    obtain ⟨n5, n6⟩ := next (r + 1 + 1) (by omega) (by omega) (by omega)
    omega
  · have k1 := g.cons (r + 1) r (by omega) (by omega) n2 (by omega)
    obtain ⟨n3, n4⟩ := next (r + 1) (by omega) (by omega) (by omega)
    have k2 := g.cons (r + 1) (r + 1 + 1) (by omega) (by omega) n2 n4
    obtain ⟨n5, n6⟩ := next (r + 1 + 1) (by omega) (by omega) (by omega)
    omega

/-! ## Storing a row -/

theorem pseSrc_eq {c : Cfg α} (h : c.v0 + 2 ≤ c.v1) (p : Int) : c.pseSrc p = some (src c p) := by
  unfold Cfg.pseSrc src
  rw [pseo_eq h]
  rfl

theorem src_range {c : Cfg α} (h : c.v0 + 2 ≤ c.v1) (p : Int) : c.v0 ≤ src c p ∧ src c p < c.v1 := by
  have := mirror_range (w := c.v1 - c.v0) (by omega) (p - c.v0)
  unfold src
  omega

theorem src_top {c : Cfg α} (h : c.v0 + 2 ≤ c.v1) {i : Int} (h0 : 0 ≤ i) (h1 : i < c.v1 - c.v0) :
    src c (c.v0 - i) = c.v0 + i := by
  unfold src
  rw [show c.v0 - i - c.v0 = -i by ring, mirror_neg (by omega), mirror_self h0 h1]

/-- Storing the next row and filling the extension rows that mirror it. -/
theorem store_spec {c : Cfg α} {x : Int → α} {z : α} {s : St α} (g : Good c x z s) (hw : c.v0 + 2 ≤ c.v1)
    (hsym : ∀ r, x (src c r) = x r) (hin : s.nextIn < c.v1) (hroom : s.nextIn < s.origin + c.depth)
    {v : α} (hv : v = x s.nextIn) {b : Bool} (hb : b = true → v = z ∧ Neutral c z) (log : List Int) :
    ∃ s', fillPse c { store c s v b with asked := log } s.nextIn = some s' ∧ Good c x z s' ∧
      s'.origin = s.origin ∧ s'.nextIn = s.nextIn + 1 ∧ s'.nextOut = s.nextOut ∧ s'.asked = log ∧
      ∀ q, getDl c s q ≤ getDl c s' q := by
  have hd := depth_pos c
  have horg := g.org
  have hoo := g.orgOut
  have hoi := g.outIn
  have hm := (consts c).1
  generalize ht : ({ store c s v b with asked := log } : St α) = t
  have hrd : rd c t s.nextIn = some v := by
    subst ht
    unfold rd store
    rw [if_pos ⟨by omega, by omega⟩]
    simp
  have hz0 : isZero c t s.nextIn = b := by
    subst ht
    unfold isZero store
    rw [if_pos ⟨by omega, by omega⟩]
    simp
  obtain ⟨s', hfp⟩ : ∃ s', fillPse c t s.nextIn = some s' := by
    unfold fillPse
    rw [hrd, Option.map_some]
    exact ⟨_, rfl⟩
  refine ⟨s', hfp, ?_⟩
  unfold fillPse at hfp
  rw [hrd, Option.map_some] at hfp
  simp only [hz0] at hfp
  have hs' := Option.some.inj hfp
  clear hfp
  obtain ⟨F, hF⟩ : ∃ F : Int → Prop, ∀ q, F q ↔ (q = s.nextIn ∨
      ((c.v0 - c.topPse ≤ q ∧ q < c.v0 ∨ c.v1 ≤ q ∧ q < c.v1 + c.botPse) ∧ src c q = s.nextIn)) := ⟨_, fun _ => Iff.rfl⟩
  -- the rows that get filled were empty
  have hFD : ∀ q, F q → getDl c s q = -1 := by
    intro q hq
    have := g.lo q
    by_contra hcon
    have hq' : 0 ≤ getDl c s q := by omega
    rcases (hF q).1 hq with h | ⟨h, h'⟩
    · subst h
      have := (g.real s.nextIn (by omega) (by omega)).1 hq'
      omega
    · have := (g.pse q h).1 hq'
      omega
  have hcur : s'.origin = s.origin ∧ s'.nextIn = s.nextIn + 1 ∧ s'.nextOut = s.nextOut ∧ s'.asked = log := by
    subst hs' ht
    exact ⟨rfl, rfl, rfl, rfl⟩
  obtain ⟨ho, hi, hou, hlog⟩ := hcur
  have D1 : ∀ q, F q → getDl c s' q = 0 := by
    intro q hq
    have hneg := hFD q hq
    rcases (hF q).1 hq with h | ⟨h | h, h'⟩
    · subst h hs' ht
      unfold getDl
      rw [if_pos ⟨by omega, by omega⟩, if_neg (by simp only [store]; omega)]
      simp [store]
    · unfold getDl at hneg ⊢
      rw [if_neg (by omega), if_pos h] at hneg ⊢
      subst hs' ht
      simp only [store, hneg, pseSrc_eq hw]
      rw [if_pos]
      rw [decide_eq_true_eq, show c.v0 - (c.v0 - 1 - q + 1) = q by ring, h']
      exact ⟨by omega, by omega, by omega, rfl⟩
    · unfold getDl at hneg ⊢
      rw [if_neg (by omega), if_neg (by omega), if_pos h] at hneg ⊢
      subst hs' ht
      simp only [store, hneg, pseSrc_eq hw]
      rw [if_pos]
      rw [decide_eq_true_eq, show c.v1 + (q - c.v1) = q by ring, h']
      exact ⟨by omega, by omega, by omega, rfl⟩
  have D2 : ∀ q, ¬ F q → getDl c s' q = getDl c s q := by
    intro q hq
    have hq' := mt (hF q).2 hq
    unfold getDl
    by_cases c1 : c.v0 ≤ q ∧ q < c.v1
    · rw [if_pos c1, if_pos c1, ho]
      split_ifs with c2
      · rfl
      · subst hs' ht
        simp only [store]
        rw [Function.update_of_ne]
        intro e
        exact hq' (Or.inl (slot_inj (o := s.origin) hd e (by omega) (by omega) (by omega) (by omega)))
    · rw [if_neg c1, if_neg c1]
      by_cases c2 : c.v0 - c.topPse ≤ q ∧ q < c.v0
      · rw [if_pos c2, if_pos c2]
        subst hs' ht
        simp only [store, pseSrc_eq hw]
        rw [if_neg]
        rw [decide_eq_true_eq, show c.v0 - (c.v0 - 1 - q + 1) = q by ring]
        rintro ⟨_, _, _, h⟩
        exact hq' (Or.inr ⟨Or.inl c2, Option.some.inj h⟩)
      · rw [if_neg c2, if_neg c2]
        by_cases c3 : c.v1 ≤ q ∧ q < c.v1 + c.botPse
        · rw [if_pos c3, if_pos c3]
          subst hs' ht
          simp only [store, pseSrc_eq hw]
          rw [if_neg]
          rw [decide_eq_true_eq, show c.v1 + (q - c.v1) = q by ring]
          rintro ⟨_, _, _, h⟩
          exact hq' (Or.inr ⟨Or.inr c3, Option.some.inj h⟩)
        · rw [if_neg c3, if_neg c3]
  have R1 : ∀ q, F q → rd c s' q = some v := by
    intro q hq
    have hneg := hFD q hq
    rcases (hF q).1 hq with h | ⟨h | h, h'⟩
    · subst h hs' ht
      unfold rd
      rw [if_pos ⟨by omega, by omega⟩]
      simp [store]
    · unfold getDl at hneg
      unfold rd
      rw [if_neg (by omega), if_pos h] at hneg
      rw [if_neg (by omega), if_pos (by omega)]
      subst hs' ht
      simp only [store, hneg, pseSrc_eq hw]
      rw [if_pos]
      rw [decide_eq_true_eq, show c.v0 - (c.v0 - 1 - q + 1) = q by ring, h']
      exact ⟨by omega, by omega, by omega, rfl⟩
    · unfold getDl at hneg
      unfold rd
      rw [if_neg (by omega), if_neg (by omega), if_pos h] at hneg
      rw [if_neg (by omega), if_neg (by omega)]
      subst hs' ht
      simp only [store, hneg, pseSrc_eq hw]
      rw [if_pos]
      rw [decide_eq_true_eq, show c.v1 + (q - c.v1) = q by ring, h']
      exact ⟨by omega, by omega, by omega, rfl⟩
  have Z1 : ∀ q, F q → isZero c s' q = b := by
    intro q hq
    have hneg := hFD q hq
    rcases (hF q).1 hq with h | ⟨h | h, h'⟩
    · subst h hs' ht
      unfold isZero
      rw [if_pos ⟨by omega, by omega⟩]
      simp [store]
    · unfold getDl at hneg
      unfold isZero
      rw [if_neg (by omega), if_pos h] at hneg ⊢
      subst hs' ht
      simp only [store, hneg, pseSrc_eq hw]
      rw [if_pos]
      rw [decide_eq_true_eq, show c.v0 - (c.v0 - 1 - q + 1) = q by ring, h']
      exact ⟨by omega, by omega, by omega, rfl⟩
    · unfold getDl at hneg
      unfold isZero
      rw [if_neg (by omega), if_neg (by omega), if_pos h] at hneg ⊢
      subst hs' ht
      simp only [store, hneg, pseSrc_eq hw]
      rw [if_pos]
      rw [decide_eq_true_eq, show c.v1 + (q - c.v1) = q by ring, h']
      exact ⟨by omega, by omega, by omega, rfl⟩
  have RZ2 : ∀ q, 0 ≤ getDl c s q → rd c s' q = rd c s q ∧ isZero c s' q = isZero c s q := by
    intro q hl
    have hq' := mt (hF q).2 (fun h => by have := hFD q h; omega)
    have sl := live_slot hl
    unfold rd isZero
    by_cases c1 : c.v0 ≤ q ∧ q < c.v1
    · simp only [if_pos c1]
      subst hs' ht
      simp only [store]
      have hne : q % c.depth ≠ s.nextIn % c.depth := by
        intro e
        unfold Slot at sl
        exact hq' (Or.inl (slot_inj (o := s.origin) hd e (by omega) (by omega) (by omega) (by omega)))
      rw [Function.update_of_ne hne, Function.update_of_ne hne]
      exact ⟨rfl, rfl⟩
    · simp only [if_neg c1]
      unfold getDl at hl
      rw [if_neg c1] at hl
      by_cases c2 : c.v0 - c.topPse ≤ q ∧ q < c.v0
      · rw [if_pos c2] at hl
        simp only [if_pos c2, if_pos c2.2]
        subst hs' ht
        simp only [store]
        refine ⟨if_neg ?_, if_neg ?_⟩ <;> (intro hh; have := of_decide_eq_true hh; omega)
      · rw [if_neg c2] at hl
        have c3 : c.v1 ≤ q ∧ q < c.v1 + c.botPse := by
          by_contra c3
          rw [if_neg c3] at hl
          omega
        rw [if_pos c3] at hl
        simp only [if_neg c2, if_pos c3, if_neg (show ¬ q < c.v0 by omega)]
        subst hs' ht
        simp only [store]
        refine ⟨if_neg ?_, if_neg ?_⟩ <;> (intro hh; have := of_decide_eq_true hh; omega)
  have live : ∀ q, 0 ≤ getDl c s' q → F q ∨ ¬ F q ∧ 0 ≤ getDl c s q := by
    intro q h
    by_cases hq : F q
    · exact Or.inl hq
    · rw [D2 q hq] at h
      exact Or.inr ⟨hq, h⟩
  have xF : ∀ q, F q → x q = v := by
    intro q hq
    rcases (hF q).1 hq with h | ⟨h, h'⟩
    · rw [h, hv]
    · rw [hv, ← h', hsym]
  -- a live row next to a row that gets filled is still at level 0
  have edge : ∀ r q, (q = r - 1 ∨ q = r + 1) → F q → ¬ F r → getDl c s r ≤ 0 := by
    intro r q hrq hq hr
    by_contra hcon
    rcases g.nbr r q hrq (by omega) with h | h
    · have := hFD q hq
      omega
    · rcases (hF q).1 hq with h' | ⟨h', h''⟩ <;> omega
  refine ⟨?_, ho, hi, hou, hlog, ?_⟩
  swap
  · intro q
    by_cases hq : F q
    · rw [D1 q hq, hFD q hq]; omega
    · rw [D2 q hq]
  constructor
  · rw [ho]; exact g.org
  · rw [ho, hou]; exact g.orgOut
  · rw [hi, hou]; omega
  · rw [hi]; omega
  · rw [hi, ho]; omega
  · intro q
    by_cases hq : F q
    · rw [D1 q hq]; omega
    · rw [D2 q hq]; exact g.lo q
  · intro q
    by_cases hq : F q
    · rw [D1 q hq]; omega
    · rw [D2 q hq]; exact g.hi q
  · intro q a b'
    rw [ho, hi]
    by_cases hq : F q
    · rw [D1 q hq]
      rcases (hF q).1 hq with h | ⟨h, h'⟩ <;> omega
    · rw [D2 q hq, g.real q a b']
      have := mt (hF q).2 hq
      omega
  · intro q a
    rw [hi]
    by_cases hq : F q
    · rw [D1 q hq]
      rcases (hF q).1 hq with h | ⟨h, h'⟩ <;> omega
    · rw [D2 q hq, g.pse q a]
      have h1 := mt (hF q).2 hq
      have : src c q ≠ s.nextIn := fun h => h1 (Or.inr ⟨a, h⟩)
      omega
  · intro r q hrq hr lr lq
    rcases live r lr with fr | ⟨fr, lr'⟩ <;> rcases live q lq with fq | ⟨fq, lq'⟩
    · rw [D1 r fr, D1 q fq]; omega
    · have := edge q r (by omega) fr fq
      rw [D1 r fr, D2 q fq]; omega
    · have := edge r q hrq fq fr
      rw [D2 r fr, D1 q fq]; omega
    · rw [D2 r fr, D2 q fq]
      exact g.cons r q hrq hr lr' lq'
  · intro r q hrq lr
    rw [ho]
    have fr : ¬ F r := fun h => by rw [D1 r h] at lr; omega
    rw [D2 r fr] at lr
    rcases g.nbr r q hrq lr with h | h
    · left
      by_cases fq : F q
      · rw [D1 q fq]
      · rw [D2 q fq]; exact h
    · exact Or.inr h
  · intro q lq
    rcases live q lq with fq | ⟨fq, lq'⟩
    · rw [R1 q fq, D1 q fq]
      simp [Y, xF q fq]
    · rw [(RZ2 q lq').1, D2 q fq]
      exact g.data q lq'
  · intro q lq hz
    rcases live q lq with fq | ⟨fq, lq'⟩
    · rw [Z1 q fq] at hz
      have := hb hz
      rw [R1 q fq]
      exact ⟨by rw [this.1], this.2⟩
    · rw [(RZ2 q lq').2] at hz
      rw [(RZ2 q lq').1]
      exact g.zero q lq' hz
  · intro q a b'
    rw [ho] at a
    rw [hou] at b'
    have := g.done q a b'
    rw [D2]
    · exact this
    · intro h
      have := hFD q h
      omega

/-- The lower end of the window is far enough behind. -/
def Slack (c : Cfg α) (s : St α) : Prop := s.origin = c.v0 ∨ s.origin + 2 * c.maxDl + 1 ≤ s.nextIn

theorem push_core {c : Cfg α} {x : Int → α} {z : α} {s : St α} (g : Good c x z s) (hw : c.v0 + 2 ≤ c.v1)
    (hset : Settled c s) (hsl : Slack c s)
    (hsym : ∀ r, x (src c r) = x r) (hin : s.nextIn < c.v1) (hroom : s.nextIn < s.origin + c.depth)
    {v : α} (hv : v = x s.nextIn) {b : Bool} (hb : b = true → v = z ∧ Neutral c z) (log : List Int) :
    ∃ s', (fillPse c { store c s v b with asked := log } s.nextIn).bind (cascade c) = some s' ∧ Good c x z s' ∧
      s'.origin = s.origin ∧ s'.nextIn = s.nextIn + 1 ∧ s'.nextOut = s.nextOut ∧ s'.asked = log ∧
      Settled c s' := by
  have hm := (consts c).1
  have hl := (consts c).2.1
  have hcs := (consts c).2.2.2
  have horg := g.org
  obtain ⟨s1, e1, g1, ho, hi, hou, hlog, hle⟩ := store_spec g hw hsym hin hroom hv hb log
  rw [e1, Option.bind_some]
  obtain ⟨s2, e2, ⟨g2, sm, hle2⟩, st⟩ := cascade_spec g1
  refine ⟨s2, e2, g2, sm.origin.trans ho, sm.nextIn.trans hi, sm.nextOut.trans hou, sm.asked.trans hlog, ?_⟩
  have ho2 := sm.origin.trans ho
  have hi2 := sm.nextIn.trans hi
  have keep : ∀ q, getDl c s q = c.maxDl → getDl c s2 q = c.maxDl := by
    intro q h
    have h1 := hle q
    have h2 := hle2 q
    have h3 := g2.hi q
    omega
  intro r hr0 hr1 hcase
  rw [ho2] at hr0
  rw [hi2] at hcase
  by_cases hold : r + 2 * c.maxDl < s.nextIn
  · exact keep r (hset r hr0 hr1 (Or.inl hold))
  -- rows between the window start and the last received row, and the extension rows below it
  have lreal : ∀ q, s.origin ≤ q → q < c.v1 → q ≤ s.nextIn → 0 ≤ getDl c s2 q := by
    intro q a b' d
    exact (g2.real q (by omega) b').2 (by omega)
  have lbot : ∀ q, c.v1 ≤ q → q < c.v1 + c.botPse → s.nextIn + 1 = c.v1 → 0 ≤ getDl c s2 q := by
    intro q a b' d
    have := src_range hw q
    exact (g2.pse q (Or.inr ⟨a, b'⟩)).2 (by omega)
  have up : ∀ q, s.origin ≤ q → q ≤ r + 2 * c.maxDl → q < c.v1 + c.botPse → 0 ≤ getDl c s2 q := by
    intro q a b' d
    by_cases hq : q < c.v1
    · exact lreal q a hq (by omega)
    · exact lbot q (by omega) d (by omega)
  have slo : scanLo c s2 ≤ r - 2 * c.maxDl + 1 := by
    unfold scanLo
    simp only [ho2]
    split_ifs <;> omega
  have shi : r + 2 * c.maxDl - 1 < scanHi c s2 := by
    unfold scanHi
    rw [hi2]
    split_ifs <;> omega
  by_cases hbig : s.origin + 2 * c.maxDl + 1 ≤ s.nextIn
  · apply climb (b := s.nextIn - 2 * c.maxDl - 1) g2.hi
    · intro q a b' d
      exact up q (by omega) (by omega) (by omega)
    · intro q a b' d e
      exact ⟨up (q - 1) (by omega) (by omega) (by omega), up (q + 1) (by omega) (by omega) (by omega)⟩
    · intro _
      exact keep _ (hset _ (by omega) (by omega) (Or.inl (by omega)))
    · intro q a b' d
      exact st q (by omega) (by omega)
    · omega
  · have hov : s.origin = c.v0 := by
      rcases hsl with h | h
      · exact h
      · omega
    have dn : ∀ q, r - 2 * c.maxDl ≤ q → c.v0 - c.topPse ≤ q → q ≤ r + 2 * c.maxDl → q < c.v1 + c.botPse →
        0 ≤ getDl c s2 q := by
      intro q a a' b' d
      by_cases hq : q < c.v0
      · refine (g2.pse q (Or.inl ⟨a', hq⟩)).2 ?_
        rcases hcase with h | h
        · have := src_top hw (i := c.v0 - q) (by omega) (by omega)
          rw [show c.v0 - (c.v0 - q) = q by ring] at this
          omega
        · have := src_range hw q
          omega
      · exact up q (by omega) b' d
    apply climb (b := r - 2 * c.maxDl) g2.hi
    · intro q a b' d
      exact dn q (by omega) (by omega) (by omega) (by omega)
    · intro q a b' d e
      exact ⟨dn (q - 1) (by omega) (by omega) (by omega) (by omega),
        dn (q + 1) (by omega) (by omega) (by omega) (by omega)⟩
    · intro _; omega
    · intro q a b' d
      exact st q (by omega) (by omega)
    · omega

/-! ## Giving up slots -/

theorem evict_spec {c : Cfg α} {x : Int → α} {z : α} {s : St α} (g : Good c x z s) (h : s.origin < s.nextOut)
    (hset : Settled c s) :
    Good c x z (evict c s) ∧ Settled c (evict c s) := by
  have hd := depth_pos c
  have horg := g.org
  have hoi := g.outIn
  have hiv := g.inV1
  have hfit := g.fit
  have hm := (consts c).1
  have D : ∀ q, getDl c (evict c s) q = if q = s.origin then -1 else getDl c s q := by
    intro q
    unfold getDl
    by_cases c1 : c.v0 ≤ q ∧ q < c.v1
    · rw [if_pos c1, if_pos c1, show (evict c s).origin = s.origin + 1 from rfl,
        show (evict c s).dLevel = Function.update s.dLevel (s.origin % c.depth) (-1) from rfl]
      by_cases e : q = s.origin
      · rw [if_pos e, if_pos (by omega)]
      · rw [if_neg e]
        by_cases c2 : q < s.origin + 1 ∨ s.origin + 1 + c.depth ≤ q
        · rw [if_pos c2, if_pos (by omega)]
        · rw [if_neg c2]
          by_cases c3 : q = s.origin + c.depth
          · rw [if_pos (by omega), c3, Int.add_emod_right]
            simp
          · rw [if_neg (by omega), Function.update_of_ne]
            exact fun e' => e (slot_inj (o := s.origin) hd e' (by omega) (by omega) (by omega) (by omega))
    · rw [if_neg c1, if_neg c1, if_neg (show ¬ q = s.origin by omega)]
      rfl
  have live : ∀ q, 0 ≤ getDl c (evict c s) q ↔ q ≠ s.origin ∧ 0 ≤ getDl c s q := by
    intro q
    rw [D]
    split_ifs with e
    · constructor
      · intro h; omega
      · intro h; exact absurd e h.1
    · exact ⟨fun h => ⟨e, h⟩, fun h => h.2⟩
  refine ⟨?_, ?_⟩
  · constructor
    · simp only [evict]; omega
    · simp only [evict]; omega
    · exact g.outIn
    · exact g.inV1
    · simp only [evict]; omega
    · intro q; rw [D]; have := g.lo q; split_ifs <;> omega
    · intro q; rw [D]; have := g.hi q; split_ifs <;> omega
    · intro q a b
      rw [live, g.real q a b]
      simp only [evict]
      omega
    · intro q a
      rw [live, g.pse q a]
      simp only [evict]
      have : q ≠ s.origin := by omega
      exact ⟨fun h => h.2, fun h => ⟨this, h⟩⟩
    · intro r q hrq hr lr lq
      have lr' := (live r).1 lr
      have lq' := (live q).1 lq
      rw [D, D, if_neg lr'.1, if_neg lq'.1]
      exact g.cons r q hrq hr lr'.2 lq'.2
    · intro r q hrq lr
      have lr' := (live r).1 (by omega)
      rw [D, if_neg lr'.1] at lr
      rw [live]
      simp only [evict]
      rcases g.nbr r q hrq lr with k | k
      · by_cases e : q = s.origin
        · right; omega
        · exact Or.inl ⟨e, k⟩
      · right; omega
    · intro q lq
      have lq' := (live q).1 lq
      rw [D, if_neg lq'.1]
      exact g.data q lq'.2
    · intro q lq hz
      have lq' := (live q).1 lq
      exact g.zero q lq'.2 hz
    · intro q a b
      simp only [evict] at a b
      rw [D, if_neg (by omega)]
      exact g.done q (by omega) b
  · intro r a b k
    simp only [evict] at a k
    rw [D, if_neg (by omega)]
    exact hset r (by omega) b k

theorem advance_out {c : Cfg α} {x : Int → α} {z : α} {s : St α} (g : Good c x z s) (h : s.nextOut < c.v1)
    (hd : getDl c s s.nextOut = c.maxDl) (hset : Settled c s) :
    rd c s s.nextOut = some (Y c x c.maxDl.toNat s.nextOut) ∧
      Good c x z { s with nextOut := s.nextOut + 1 } ∧ Settled c { s with nextOut := s.nextOut + 1 } := by
  have hm := (consts c).1
  have horg := g.org
  have hoo := g.orgOut
  have hr := (g.real s.nextOut (by omega) h).1 (by omega)
  refine ⟨?_, ?_, hset⟩
  · have := g.data s.nextOut (by omega)
    rwa [hd] at this
  · refine ⟨g.org, ?_, ?_, g.inV1, g.fit, g.lo, g.hi, g.real, g.pse, g.cons, g.nbr, g.data, g.zero, ?_⟩
    · simp only; omega
    · simp only; omega
    · intro r a b
      simp only at a b
      by_cases e : r = s.nextOut
      · subst e; exact hd
      · exact g.done r a (by omega)

/-! ## Forward direction -/

theorem reclaim_spec {c : Cfg α} {x : Int → α} {z : α} (fuel : Nat) : ∀ s : St α, Good c x z s → Settled c s →
    s.nextOut - s.origin < fuel →
    ∃ s', reclaim c fuel s = some s' ∧ Good c x z s' ∧ Settled c s' ∧ s'.nextOut = s.nextOut ∧
      s'.nextIn = s.nextIn ∧ s.nextOut - 4 ≤ s'.origin ∧ (s'.origin = s.origin ∨ s'.origin ≤ s.nextOut - 4) := by
  induction fuel with
  | zero =>
    intro s g _ h
    have := g.orgOut
    omega
  | succ fuel ih =>
    intro s g hset h
    rw [reclaim]
    have hoo := g.orgOut
    by_cases hc : s.origin < s.nextOut - 4
    · rw [if_pos ⟨hc, by rw [g.done s.origin (le_refl _) (by omega)]⟩]
      obtain ⟨g1, set1⟩ := evict_spec g (by omega) hset
      obtain ⟨s', e, g', set', h1, h2, h3, h4⟩ := ih (evict c s) g1 set1 (by simp only [evict]; push_cast at h; omega)
      refine ⟨s', e, g', set', h1, h2, h3, ?_⟩
      simp only [evict] at h4
      right
      rcases h4 with h4 | h4 <;> omega
    · rw [if_neg (fun h => hc h.1)]
      exact ⟨s, rfl, g, hset, rfl, rfl, by omega, Or.inl rfl⟩

/-- The finished rows from `a` on, `n` of them. -/
def finished (c : Cfg α) (x : Int → α) (a : Int) (n : Nat) : List (Int × α) :=
  (List.range n).map fun (i : Nat) => (a + i, Y c x c.maxDl.toNat (a + i))

theorem finished_append (c : Cfg α) (x : Int → α) (a : Int) (m n : Nat) :
    finished c x a (m + n) = finished c x a m ++ finished c x (a + m) n := by
  unfold finished
  rw [List.range_add, List.map_append, List.map_map]
  congr 1
  apply List.map_congr_left
  intro i _
  simp only [Function.comp_apply]
  push_cast
  rw [show a + (m + i : Int) = a + m + i by ring]

/-- Between two calls of the forward direction. -/
structure Fwd (c : Cfg α) (x : Int → α) (z : α) (s : St α) : Prop where
  good : Good c x z s
  settled : Settled c s
  near : s.nextOut - 4 ≤ s.origin
  far : s.origin = c.v0 ∨ s.origin ≤ s.nextOut - 4
  stop : s.nextOut = c.v1 ∨ getDl c s s.nextOut < c.maxDl

theorem emitReady_spec {c : Cfg α} {x : Int → α} {z : α} (fuel : Nat) : ∀ s : St α, Good c x z s →
    Settled c s → s.nextOut - 4 ≤ s.origin → (s.origin = c.v0 ∨ s.origin ≤ s.nextOut - 4) →
    c.v1 - s.nextOut < fuel →
    ∃ s', emitReady c fuel s = some (s', finished c x s.nextOut (s'.nextOut - s.nextOut).toNat) ∧
      Fwd c x z s' ∧ s'.nextIn = s.nextIn ∧ s.nextOut ≤ s'.nextOut := by
  induction fuel with
  | zero =>
    intro s g _ _ _ h
    have h1 := g.outIn
    have h2 := g.inV1
    omega
  | succ fuel ih =>
    intro s g hset hnear hfar h
    have h1 := g.outIn
    have h2 := g.inV1
    rw [emitReady]
    by_cases hc : s.nextOut < c.v1 ∧ getDl c s s.nextOut ≥ c.maxDl
    · rw [if_pos hc]
      have hhi := g.hi s.nextOut
      obtain ⟨e1, g1, set1⟩ := advance_out g hc.1 (by omega) hset
      obtain ⟨s2, e2, g2, set2, a1, a2, a3, a4⟩ := reclaim_spec (s.nextOut - s.origin + 2).toNat _ g1 set1
        (by simp only; omega)
      simp only at a1 a2 a3 a4
      obtain ⟨s3, e3, f3, b1, b2⟩ := ih s2 g2 set2 (by omega) (by omega) (by push_cast at h; omega)
      rw [e1, Option.bind_some, e2, Option.bind_some, e3, Option.map_some]
      refine ⟨s3, ?_, f3, by omega, by omega⟩
      rw [show (s3.nextOut - s.nextOut).toNat = 1 + (s3.nextOut - s2.nextOut).toNat by omega, finished_append, a1]
      simp [finished]
    · rw [if_neg hc]
      refine ⟨s, ?_, ⟨g, hset, hnear, hfar, ?_⟩, rfl, le_refl _⟩
      · simp [finished]
      · by_cases hv : s.nextOut < c.v1
        · right
          by_contra hcon
          exact hc ⟨hv, by omega⟩
        · left; omega

theorem pushRow_spec {c : Cfg α} {x : Int → α} {z : α} {s : St α} (f : Fwd c x z s) (hw : c.v0 + 2 ≤ c.v1)
    (hfw : c.forward = true) (hz : ∀ a, c.zeroTest a = false)
    (hsym : ∀ r, x (src c r) = x r) (hin : s.nextIn < c.v1) {v : α} (hv : v = x s.nextIn) :
    ∃ s', pushRow c s v = some (s', finished c x s.nextOut (s'.nextOut - s.nextOut).toNat) ∧ Fwd c x z s' ∧
      s'.nextIn = s.nextIn + 1 ∧ s.nextOut ≤ s'.nextOut := by
  have hm := (consts c).1
  have g := f.good
  have horg := g.org
  have hoo := g.orgOut
  have hnear := f.near
  have hfar := f.far
  have hdep : c.depth = 12 := by unfold Cfg.depth; rw [if_pos hfw]
  have h1 : s.nextIn ≤ s.nextOut + 2 * c.maxDl := by
    by_contra hcon
    have hin' := g.outIn
    have := f.settled s.nextOut (by omega) (by omega) (Or.inl (by omega))
    rcases f.stop with h | h <;> omega
  have hsl : Slack c s := by
    rcases hfar with h | h
    · exact Or.inl h
    · right
      have := reach g (r := s.nextOut - 1) (by omega) (by have := g.outIn; omega) (g.done _ (by omega) (by omega)) hin
      omega
  obtain ⟨s1, e1, g1, a1, a2, a3, _, set1⟩ := push_core g hw f.settled hsl hsym hin (by omega) hv
    (b := c.zeroTest v) (by rw [hz]; simp) s.asked
  obtain ⟨s2, e2, f2, b1, b2⟩ := emitReady_spec (c.v1 - s1.nextOut + 1).toNat s1 g1 set1 (by omega) (by omega)
    (by omega)
  unfold pushRow
  rw [if_neg (by omega), if_neg (by omega)]
  have hst : store c s v (c.zeroTest v) = { store c s v (c.zeroTest v) with asked := s.asked } := rfl
  rw [hst]
  cases hfp : fillPse c { store c s v (c.zeroTest v) with asked := s.asked } s.nextIn with
  | none => rw [hfp] at e1; exact absurd e1 (by simp)
  | some t =>
    rw [hfp, Option.bind_some] at e1
    rw [Option.bind_some, e1, Option.bind_some, e2]
    refine ⟨s2, by rw [a3], f2, by omega, by omega⟩

theorem pushAll_spec {c : Cfg α} {x : Int → α} {z : α} (hw : c.v0 + 2 ≤ c.v1)
    (hfw : c.forward = true) (hz : ∀ a, c.zeroTest a = false)
    (hsym : ∀ r, x (src c r) = x r) (l : List α) : ∀ s : St α, Fwd c x z s → s.nextIn + l.length ≤ c.v1 →
    (∀ i : Nat, i < l.length → l[i]? = some (x (s.nextIn + i))) →
    ∃ s', pushAll c s l = some (s', finished c x s.nextOut (s'.nextOut - s.nextOut).toNat) ∧ Fwd c x z s' ∧
      s'.nextIn = s.nextIn + l.length ∧ s.nextOut ≤ s'.nextOut := by
  induction l with
  | nil =>
    intro s f _ _
    exact ⟨s, by simp [pushAll, finished], f, by simp, le_refl _⟩
  | cons v l ih =>
    intro s f hlen hl
    have hv := hl 0 (by simp)
    simp at hv
    have hlen' : ((v :: l).length : Int) = l.length + 1 := by simp
    obtain ⟨s1, e1, f1, a1, a2⟩ := pushRow_spec f hw hfw hz hsym (by omega) hv
    obtain ⟨s2, e2, f2, b1, b2⟩ := ih s1 f1 (by omega) (by
      intro i hi
      have := hl (i + 1) (by simpa using hi)
      rw [a1]
      simp at this
      rw [show s.nextIn + 1 + (i : Int) = s.nextIn + (i + 1) by ring]
      exact this)
    rw [pushAll, e1, Option.bind_some, e2, Option.map_some]
    refine ⟨s2, ?_, f2, by omega, by omega⟩
    rw [show (s2.nextOut - s.nextOut).toNat = (s1.nextOut - s.nextOut).toNat + (s2.nextOut - s1.nextOut).toNat by
      omega, finished_append, show s.nextOut + ((s1.nextOut - s.nextOut).toNat : Int) = s1.nextOut by omega]

theorem fillLate_id {c : Cfg α} {s : St α} (n : Nat) : ∀ i : Int, (∀ j, i ≤ j → j < i + n → 0 ≤ s.botDl j) →
    fillLate c n i s = some s := by
  induction n with
  | zero => intro i _; rfl
  | succ n ih =>
    intro i h
    rw [fillLate, if_neg (by have := h i (le_refl _) (by push_cast; omega); omega)]
    exact ih (i + 1) (fun j a b => h j (by omega) (by push_cast; omega))

theorem flush_spec {c : Cfg α} {x : Int → α} {z : α} {s : St α} (f : Fwd c x z s) (hw : c.v0 + 2 ≤ c.v1)
    (hin : s.nextIn = c.v1) :
    ∃ s', flush c s = some (s', finished c x s.nextOut (c.v1 - s.nextOut).toNat) := by
  have hm := (consts c).1
  have g := f.good
  have horg := g.org
  have hoo := g.orgOut
  have hcs := (consts c).2.2.2
  unfold flush
  rw [if_neg (by omega), fillLate_id, Option.bind_some]
  · obtain ⟨s1, e1, ⟨g1, sm, hle⟩, _⟩ := cascade_spec g
    have set1 : Settled c s1 := by
      intro r a b k
      rw [sm.origin] at a
      rw [sm.nextIn] at k
      have h1 := f.settled r a b k
      have h2 := hle r
      have h3 := g1.hi r
      omega
    have hn := f.near
    have hf := f.far
    obtain ⟨s2, e2, f2, b1, b2⟩ := emitReady_spec (c.v1 - s1.nextOut + 1).toNat s1 g1 set1
      (by rw [sm.origin, sm.nextOut]; exact hn) (by rw [sm.origin, sm.nextOut]; exact hf) (by
        have := g.outIn; rw [sm.nextOut]; omega)
    rw [e1, Option.bind_some, e2]
    have : s2.nextOut = c.v1 := by
      rcases f2.stop with h | h
      · exact h
      · have k1 := f2.good.outIn
        have k2 := f2.good.inV1
        by_contra hne
        have := f2.settled s2.nextOut f2.good.orgOut (by omega) (Or.inr (by rw [b1, sm.nextIn, hin]))
        omega
    exact ⟨s2, by rw [this, sm.nextOut]⟩
  · intro j a b
    have h0 := (consts c).2.2.2
    have := (g.pse (c.v1 + j) (Or.inr ⟨by omega, by omega⟩)).2 (by rw [hin]; exact (src_range hw _).2)
    unfold getDl at this
    rw [if_neg (by omega), if_neg (by omega), if_pos ⟨by omega, by omega⟩] at this
    rwa [show c.v1 + j - c.v1 = j by ring] at this

/-- The initial state satisfies the invariant. -/
theorem start_good {c : Cfg α} (x : Int → α) (z : α) (hw : c.v0 + 2 ≤ c.v1) (R T B : Int → Option α) :
    Good c x z (start c R T B) ∧ Settled c (start c R T B) := by
  have hm := (consts c).1
  have hd := depth_pos c
  have D : ∀ q, getDl c (start c R T B) q = -1 := by
    intro q
    unfold getDl start
    simp
  refine ⟨?_, ?_⟩
  · constructor <;> (try intro q) <;> (try rw [D])
    · simp [start]
    · simp [start]
    · simp [start]
    · simp only [start]; omega
    · simp only [start]; omega
    · omega
    · intro a b; simp only [start]; omega
    · intro a
      have := src_range hw q
      simp only [start]; omega
    · intro r _ _ h; omega
    · intro r _ h; omega
    · intro h; omega
    · intro h; omega
    · intro a b; simp only [start] at a b; omega
  · intro r a b k
    simp only [start] at a k
    omega

/-! ## Inverse direction -/

/-- Coordinates from `a` on. -/
def coords (a : Int) (n : Nat) : List Int := (List.range n).map fun (i : Nat) => a + i

/-- Between two calls of the inverse direction. -/
structure Inv (c : Cfg α) (x : Int → α) (z : α) (s : St α) : Prop where
  good : Good c x z s
  settled : Settled c s
  far : s.origin = c.v0 ∨ s.origin + 7 ≤ s.nextIn
  log : s.asked = coords c.v0 (s.nextIn - c.v0).toNat

theorem makeRoom_spec {c : Cfg α} {x : Int → α} {z : α} (hfw : c.forward = false) (fuel : Nat) :
    ∀ s : St α, Inv c x z s → s.nextIn ≤ s.nextOut + 4 → s.nextOut - s.origin < fuel →
    ∃ s', makeRoom c fuel s = some s' ∧ Inv c x z s' ∧ s'.nextIn = s.nextIn ∧ s'.nextOut = s.nextOut ∧
      s'.nextIn < s'.origin + c.depth ∧ s'.asked = s.asked := by
  have hdep : c.depth = 8 := by unfold Cfg.depth; rw [hfw]; rfl
  induction fuel with
  | zero =>
    intro s f _ h
    have := f.good.orgOut
    omega
  | succ fuel ih =>
    intro s f hnear h
    have hoo := f.good.orgOut
    rw [makeRoom]
    by_cases hc : s.nextIn ≥ s.origin + c.depth ∧ s.origin < s.nextOut
    · rw [if_pos hc]
      obtain ⟨g1, set1⟩ := evict_spec f.good hc.2 f.settled
      exact ih (evict c s) ⟨g1, set1, Or.inr (by simp only [evict]; omega), f.log⟩ hnear
        (by simp only [evict]; push_cast at h; omega)
    · rw [if_neg hc]
      exact ⟨s, rfl, f, rfl, rfl, by omega, rfl⟩

theorem coords_succ (a : Int) (n : Nat) : coords a (n + 1) = coords a n ++ [a + n] := by
  simp [coords, List.range_succ]

/-- What is assumed about the rows taken for zero. -/
def ZeroSafe (c : Cfg α) (f : Int → α) (z : α) : Prop :=
  ∀ r, c.v0 ≤ r → r < c.v1 → (if r < c.rowLo then true else c.zeroTest (f r)) = true → f r = z ∧ Neutral c z

theorem pullLoop_spec {c : Cfg α} {x : Int → α} {z : α} (hw : c.v0 + 2 ≤ c.v1) (hfw : c.forward = false)
    (hsym : ∀ r, x (src c r) = x r) {f : Int → α} (hf : ∀ r, c.v0 ≤ r → r < c.v1 → f r = x r)
    (hz : ZeroSafe c f z) (fuel : Nat) : ∀ s : St α, Inv c x z s → s.nextOut < c.v1 →
    c.v1 - s.nextIn + 1 < fuel →
    ∃ s', pullLoop c f fuel s = some s' ∧ Inv c x z s' ∧ s'.nextOut = s.nextOut ∧
      getDl c s' s'.nextOut = c.maxDl ∧ (s'.nextIn = s.nextIn ∨ s'.nextIn ≤ s.nextOut + 2 * c.maxDl + 1) := by
  have hm := (consts c).1
  induction fuel with
  | zero =>
    intro s i _ h
    have := i.good.inV1
    omega
  | succ fuel ih =>
    intro s i hout h
    have g := i.good
    have hoo := g.orgOut
    have horg := g.org
    have hoi := g.outIn
    have hiv := g.inV1
    rw [pullLoop]
    by_cases hd : getDl c s s.nextOut < c.maxDl
    · have h1 : s.nextIn ≤ s.nextOut + 2 * c.maxDl ∧ s.nextIn < c.v1 := by
        by_contra hcon
        have := i.settled s.nextOut hoo hout (by omega)
        omega
      rw [if_pos hd, if_neg (by omega)]
      obtain ⟨s1, e1, i1, a1, a2, a3, a4⟩ := makeRoom_spec hfw (s.nextOut - s.origin + 1).toNat s i (by omega) (by omega)
      rw [e1, Option.bind_some]
      have hoo1 := i1.good.orgOut
      obtain ⟨s2, e2, i2, b1, b2, b3, b4⟩ := makeRoom_spec hfw (s1.nextOut - s1.origin + 1).toNat s1 i1 (by omega) (by omega)
      unfold fetchOne
      rw [if_neg (by omega), e2, Option.bind_some]
      simp only
      have horg2 := i2.good.org
      have hoo2 := i2.good.orgOut
      have hoi2 := i2.good.outIn
      have hsl : Slack c s2 := by
        rcases i2.far with k | k
        · exact Or.inl k
        · right; omega
      obtain ⟨s3, e3, g3, d1, d2, d3, d4, set3⟩ := push_core i2.good hw i2.settled hsl hsym (by omega) b3
        (v := f s2.nextIn) (hf _ (by omega) (by omega))
        (b := if s2.nextIn < c.rowLo then true else c.zeroTest (f s2.nextIn))
        (hz s2.nextIn (by omega) (by omega)) (s2.asked ++ [s2.nextIn])
      rw [e3, Option.bind_some]
      have i3 : Inv c x z s3 := by
        refine ⟨g3, set3, ?_, ?_⟩
        · rw [d1, d2]
          rcases i2.far with k | k
          · exact Or.inl k
          · right; omega
        · rw [d4, d2, i2.log, show (s2.nextIn + 1 - c.v0).toNat = (s2.nextIn - c.v0).toNat + 1 by omega, coords_succ,
            show c.v0 + ((s2.nextIn - c.v0).toNat : Int) = s2.nextIn by omega]
      obtain ⟨s4, e4, i4, k1, k2, k3⟩ := ih s3 i3 (by omega) (by push_cast at h; omega)
      exact ⟨s4, e4, i4, by omega, k2, by omega⟩
    · rw [if_neg hd]
      have := g.hi s.nextOut
      exact ⟨s, rfl, i, rfl, by omega, Or.inl rfl⟩

theorem pullRow_spec {c : Cfg α} {x : Int → α} {z : α} (hw : c.v0 + 2 ≤ c.v1) (hfw : c.forward = false)
    (hsym : ∀ r, x (src c r) = x r) {f : Int → α} (hf : ∀ r, c.v0 ≤ r → r < c.v1 → f r = x r)
    (hz : ZeroSafe c f z) {s : St α} (i : Inv c x z s) (hout : s.nextOut < c.v1) :
    ∃ s', pullRow c f s = some (s', some (Y c x c.maxDl.toNat s.nextOut)) ∧ Inv c x z s' ∧
      s'.nextOut = s.nextOut + 1 ∧ (s'.nextIn = s.nextIn ∨ s'.nextIn ≤ s'.nextOut + 2 * c.maxDl) := by
  obtain ⟨s1, e1, i1, a1, a2, a3⟩ := pullLoop_spec hw hfw hsym hf hz (c.v1 - s.nextIn + 2).toNat s i hout (by
    have := i.good.inV1; omega)
  unfold pullRow
  rw [if_neg (by omega), if_neg (by omega), if_neg (by omega), e1, Option.bind_some, if_neg (by omega)]
  obtain ⟨b1, b2, b3⟩ := advance_out i1.good (by omega) a2 i1.settled
  rw [b1, Option.map_some]
  refine ⟨_, by rw [a1], ⟨b2, b3, i1.far, i1.log⟩, by simp only; omega, by simp only; omega⟩

theorem pullMany_spec {c : Cfg α} {x : Int → α} {z : α} (hw : c.v0 + 2 ≤ c.v1) (hfw : c.forward = false)
    (hsym : ∀ r, x (src c r) = x r) {f : Int → α} (hf : ∀ r, c.v0 ≤ r → r < c.v1 → f r = x r)
    (hz : ZeroSafe c f z) (n : Nat) : ∀ s : St α, Inv c x z s → s.nextIn ≤ s.nextOut + 2 * c.maxDl →
    ∃ s', pullMany c f n s = some (s', (List.range n).map fun (i : Nat) =>
        if s.nextOut + i < c.v1 then some (Y c x c.maxDl.toNat (s.nextOut + i)) else none) ∧ Inv c x z s' ∧
      s'.nextIn ≤ s'.nextOut + 2 * c.maxDl ∧ s'.nextOut = min c.v1 (s.nextOut + n) := by
  have hm := (consts c).1
  induction n with
  | zero =>
    intro s i h
    have h1 := i.good.outIn
    have h2 := i.good.inV1
    exact ⟨s, rfl, i, h, by push_cast; omega⟩
  | succ n ih =>
    intro s i h
    have h1 := i.good.outIn
    have h2 := i.good.inV1
    rw [pullMany, List.range_succ_eq_map, List.map_cons, List.map_map]
    by_cases hout : s.nextOut < c.v1
    · obtain ⟨s1, e1, i1, a1, a2⟩ := pullRow_spec hw hfw hsym hf hz i hout
      obtain ⟨s2, e2, i2, b1, b2⟩ := ih s1 i1 (by omega)
      rw [e1, Option.bind_some, e2, Option.map_some]
      refine ⟨s2, ?_, i2, b1, by push_cast; omega⟩
      simp only [Nat.cast_zero, add_zero, if_pos hout]
      congr 3
      apply List.map_congr_left
      intro k _
      simp only [Function.comp_apply, a1]
      push_cast
      rw [show s.nextOut + 1 + (k : Int) = s.nextOut + (k + 1) by ring]
    · have e1 : pullRow c f s = some (s, none) := by unfold pullRow; rw [if_pos (by omega)]
      obtain ⟨s2, e2, i2, b1, b2⟩ := ih s i h
      rw [e1, Option.bind_some, e2, Option.map_some]
      refine ⟨s2, ?_, i2, b1, by push_cast; omega⟩
      simp only [Nat.cast_zero, add_zero, if_neg hout]
      congr 3
      apply List.map_congr_left
      intro k _
      simp only [Function.comp_apply]
      rw [if_neg (by omega), if_neg (by push_cast; omega)]

/-! ## Comparison with the batch transforms -/

theorem Y_forward {c : Cfg α} (hfw : c.forward = true) (h0 : 0 ≤ c.v0) (s : Int → α) :
    Y c (shift c.v0 s) c.maxDl.toNat = shift c.v0 (analyseAll c.flt (c.v0 % 2) s) := by
  rw [← analyseAll_shift (p := 0) s (by omega) (by omega)]
  cases hfl : c.flt with
  | two hp lp =>
    simp [Cfg.maxDl, hfl, Y, Cfg.lead, hfw, analyseAll, Cfg.step]
  | four fa fb fc fd =>
    simp [Cfg.maxDl, hfl, Y, Cfg.lead, hfw, analyseAll, Cfg.step]

theorem Y_inverse {c : Cfg α} (hfw : c.forward = false) (h0 : 0 ≤ c.v0) (s : Int → α) :
    Y c (shift c.v0 s) c.maxDl.toNat = shift c.v0 (synthesiseAll c.flt (c.v0 % 2) s) := by
  rw [← synthesiseAll_shift (p := 0) s (by omega) (by omega)]
  cases hfl : c.flt with
  | two hp lp =>
    simp [Cfg.maxDl, hfl, Y, Cfg.lead, hfw, synthesiseAll, Cfg.step]
  | four fa fb fc fd =>
    simp [Cfg.maxDl, hfl, Y, Cfg.lead, hfw, synthesiseAll, Cfg.step]

theorem ext_src {c : Cfg α} {rows : List α} {s : Int → α} (hs : Ext rows s) (hw : 2 ≤ rows.length)
    (hv : c.v1 = c.v0 + rows.length) (r : Int) : shift c.v0 s (src c r) = shift c.v0 s r := by
  unfold shift src
  rw [show c.v0 + mirror (c.v1 - c.v0) (r - c.v0) - c.v0 = mirror (rows.length) (r - c.v0) by
    rw [hv]; ring_nf]
  exact (hs.sym hw).at_mirror _

theorem start_fwd {c : Cfg α} (x : Int → α) (z : α) (hw : c.v0 + 2 ≤ c.v1) (R T B : Int → Option α) :
    Fwd c x z (start c R T B) := by
  obtain ⟨g, st⟩ := start_good x z hw R T B
  have hm := (consts c).1
  refine ⟨g, st, by simp only [start]; omega, Or.inl rfl, Or.inr ?_⟩
  have : getDl c (start c R T B) (start c R T B).nextOut = -1 := by
    unfold getDl start
    simp
  omega

theorem start_inv {c : Cfg α} (x : Int → α) (z : α) (hw : c.v0 + 2 ≤ c.v1) (R T B : Int → Option α) :
    Inv c x z (start c R T B) := by
  obtain ⟨g, st⟩ := start_good x z hw R T B
  exact ⟨g, st, Or.inl rfl, by simp [start, coords]⟩

theorem finished_mapIdx {c : Cfg α} {x : Int → α} {ys : List α} {a : Int} {u : Int → α} (n : Nat)
    (hn : n ≤ ys.length) (hl : ∀ k : Int, 0 ≤ k → k < ys.length → ys[k.toNat]? = some (u k))
    (hY : Y c x c.maxDl.toNat = shift a u) :
    finished c x a n = (ys.take n).mapIdx fun i y => (a + i, y) := by
  apply List.ext_getElem?
  intro i
  unfold finished
  rw [hY]
  by_cases hi : i < n
  · have := hl i (by omega) (by omega)
    simp only [Int.toNat_natCast] at this
    simp [hi, List.getElem?_take, this, shift]
  · simp [hi, List.getElem?_take]

end Verif.Dwt.Stream
