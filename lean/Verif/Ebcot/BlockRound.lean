import Verif.Ebcot.BlockPass
import Verif.Ebcot.BlockDec
import Verif.Ebcot.MqOps
/-
`j2k_decode` follows the encoder through the codeword segments.
-/
namespace Verif.Ebcot
open Std (Src St Modes)

/-! Decisions are binary and have labels below 19. -/

def DecOk (ds : List (Nat × Nat)) : Prop := ∀ x ∈ ds, x.1 < 19 ∧ x.2 ≤ 1

theorem DecOk.nil : DecOk [] := fun x hx => by simp at hx

theorem DecOk.cons {x : Nat × Nat} {ds : List (Nat × Nat)} (h1 : x.1 < 19 ∧ x.2 ≤ 1) (h2 : DecOk ds) : DecOk (x :: ds) := by
  intro y hy
  rcases List.mem_cons.1 hy with rfl | hy
  · exact h1
  · exact h2 y hy

theorem DecOk.append {a b : List (Nat × Nat)} (h1 : DecOk a) (h2 : DecOk b) : DecOk (a ++ b) := by
  intro y hy
  rcases List.mem_append.1 hy with hy | hy
  · exact h1 y hy
  · exact h2 y hy

theorem zc_lt (B : Src) (S : St) (r c : Nat) : Std.zc B S r c < 19 := by
  unfold Std.zc Std.zeroCtx
  split
  · split_ifs <;> omega
  · generalize (if B.o = 1 then (_ : Nat × Nat) else _) = q
    obtain ⟨a, b⟩ := q
    simp only
    split_ifs <;> omega

theorem sign_dec (raw : Bool) (B : Src) (S : St) (r c : Nat) : (Std.signBit raw B S r c).1 < 19 ∧ (Std.signBit raw B S r c).2 ≤ 1 := by
  have hb : ∀ b : Bool, b.toNat ≤ 1 ∧ (b.toNat ^^^ 0) ≤ 1 ∧ (b.toNat ^^^ 1) ≤ 1 := by decide
  have hn := hb (B.neg r c)
  unfold Std.signBit
  cases raw
  · simp only [Bool.false_eq_true, if_false]
    generalize Std.clamp _ = a
    generalize Std.clamp _ = b
    unfold Std.signCtx
    split_ifs <;> exact ⟨by norm_num, by first | exact hn.2.1 | exact hn.2.2⟩
  · exact ⟨by norm_num, hn.1⟩

theorem runs_dec {α : Type} (f : α → St → St × List (Nat × Nat)) (hf : ∀ x S, DecOk (f x S).2) (l : List α) (S : St) : DecOk (Std.runs f l S).2 := by
  induction l generalizing S with
  | nil => exact DecOk.nil
  | cons x l ih => exact DecOk.append (hf x S) (ih _)

theorem sigE_dec (raw : Bool) (B : Src) (p : Nat) (x : Nat × Nat) (S : St) : DecOk (Std.sigE raw B p x S).2 := by
  obtain ⟨r, c⟩ := x
  simp only [Std.sigE]
  have := zc_lt B S r c
  split_ifs
  · exact DecOk.cons ⟨this, by norm_num⟩ (DecOk.cons (sign_dec ..) DecOk.nil)
  · exact DecOk.cons ⟨this, by norm_num⟩ DecOk.nil
  · exact DecOk.nil

theorem magE_dec (B : Src) (p : Nat) (x : Nat × Nat) (S : St) : DecOk (Std.magE B p x S).2 := by
  obtain ⟨r, c⟩ := x
  simp only [Std.magE]
  have : Std.bitAt B p r c ≤ 1 := by unfold Std.bitAt; omega
  split_ifs <;> first | exact DecOk.nil | exact DecOk.cons ⟨by norm_num, this⟩ DecOk.nil

theorem cleanE_dec (B : Src) (p : Nat) (x : Nat × Nat) (S : St) : DecOk (Std.cleanE B p x S).2 := by
  obtain ⟨r, c⟩ := x
  simp only [Std.cleanE]
  have := zc_lt B S r c
  split_ifs
  · exact DecOk.cons ⟨this, by norm_num⟩ (DecOk.cons (sign_dec ..) DecOk.nil)
  · exact DecOk.cons ⟨this, by norm_num⟩ DecOk.nil
  · exact DecOk.nil

theorem cleanColE_dec (B : Src) (p : Nat) (x : Nat × Nat × Nat) (S : St) : DecOk (Std.cleanColE B p x S).2 := by
  have hi : Std.firstOne B p x.1 x.2.1 ≤ 4 := by unfold Std.firstOne; split_ifs <;> omega
  unfold Std.cleanColE
  simp only
  split_ifs with h1 h2
  · exact DecOk.cons ⟨by norm_num, by norm_num⟩ DecOk.nil
  · refine DecOk.cons ⟨by norm_num, by norm_num⟩ (DecOk.cons ⟨by norm_num, ?_⟩ (DecOk.cons ⟨by norm_num, ?_⟩ (DecOk.cons (sign_dec ..)
      (runs_dec _ (cleanE_dec B p) _ _))))
    · show Std.firstOne B p x.1 x.2.1 / 2 ≤ 1
      omega
    · show Std.firstOne B p x.1 x.2.1 % 2 ≤ 1
      omega
  · exact runs_dec _ (cleanE_dec B p) _ _

theorem decAt_ok (B : Src) (M : Modes) (top z : Nat) : DecOk (Std.decAt B M top z) := by
  unfold Std.decAt Std.passE
  split_ifs with h1 h2 h3
  · refine DecOk.append (runs_dec _ (cleanColE_dec B _) _ _) ?_
    exact DecOk.cons (by norm_num) (DecOk.cons (by norm_num) (DecOk.cons (by norm_num) (DecOk.cons (by norm_num) DecOk.nil)))
  · refine DecOk.append (runs_dec _ (cleanColE_dec B _) _ _) DecOk.nil
  · exact runs_dec _ (sigE_dec _ B _) _ _
  · exact runs_dec _ (magE_dec B _) _ _

theorem opsOf_ok (B : Src) (M : Modes) (top k z : Nat) : ∀ x, some x ∈ Std.opsOf B M top k z → x.1 < 19 ∧ x.2 ≤ 1 := by
  induction k generalizing z with
  | zero => intro x hx; simp [Std.opsOf] at hx
  | succ k ih =>
    intro x hx
    simp only [Std.opsOf, List.mem_append] at hx
    rcases hx with (hx | hx) | hx
    · split_ifs at hx <;> simp at hx
    · obtain ⟨y, hy, e⟩ := List.mem_map.1 hx
      cases e
      exact decAt_ok B M top z _ hy
    · exact ih _ _ hx

theorem bitsOf_ok (B : Src) (M : Modes) (top k z : Nat) : ∀ x ∈ Std.bitsOf B M top k z, x ≤ 1 := by
  induction k generalizing z with
  | zero => intro x hx; simp [Std.bitsOf] at hx
  | succ k ih =>
    intro x hx
    simp only [Std.bitsOf, List.mem_append] at hx
    rcases hx with hx | hx
    · obtain ⟨y, hy, e⟩ := List.mem_map.1 hx
      rw [← e]
      exact (decAt_ok B M top z _ hy).2
    · exact ih _ _ hx

/-! The decisions of a segment reach the decoder. -/

theorem feeds_append {raw : Bool} {buf : List Nat} (a b : List (Nat × Nat)) (m : Mq) (K : Mq → Prop)
    (h : Feeds raw buf m a fun m' => Feeds raw buf m' b K) : Feeds raw buf m (a ++ b) K := by
  induction a generalizing m with
  | nil => exact h
  | cons x a ih =>
    obtain ⟨l, v⟩ := x
    obtain ⟨m', e, q⟩ := h
    exact ⟨m', e, ih _ q⟩

theorem feeds_mq {buf : List Nat} (ds : List (Nat × Nat)) (ops : List (Option (Nat × Nat))) (m : Mq) (fin)
    (h : OReads buf m (ds.map some ++ ops) fin) : Feeds false buf m ds fun m' => OReads buf m' ops fin := by
  induction ds generalizing m with
  | nil => exact h
  | cons x ds ih =>
    obtain ⟨l, v⟩ := x
    obtain ⟨m', e, q⟩ := h.step
    refine ⟨m', fun l' hl => ?_, ih _ q⟩
    rcases hl with hl | rfl
    · simp at hl
    · simp [sym, e]

theorem feeds_raw {buf : List Nat} (ds : List (Nat × Nat)) (bits : List Nat) (m : Mq) (h : RawReads buf m (ds.map Prod.snd ++ bits)) :
    Feeds true buf m ds fun m' => RawReads buf m' bits ∧ m'.sigma = m.sigma ∧ m'.mps = m.mps := by
  suffices ∀ m0 : Mq, m.sigma = m0.sigma → m.mps = m0.mps → Feeds true buf m ds fun m' => RawReads buf m' bits ∧ m'.sigma = m0.sigma ∧ m'.mps = m0.mps
    from this m rfl rfl
  intro m0 h1 h2
  induction ds generalizing m with
  | nil => exact ⟨h, h1, h2⟩
  | cons x ds ih =>
    obtain ⟨l, v⟩ := x
    obtain ⟨m', e, q, s1, s2⟩ := RawReads.step h
    refine ⟨m', fun l' _ => ?_, ih _ q (s1.trans h1) (s2.trans h2)⟩
    simp [sym, e]

/-- The decoder before a pass. -/
def resetIf (M : Modes) (z : Nat) (m : Mq) : Mq := if z = 0 ∨ M.reset = true then initStates m else m

/-- The decoder will be given the decisions of `c` passes from pass `z` on. -/
def SegFeeds (B : Src) (M : Modes) (top : Nat) (raw : Bool) (buf : List Nat) : Nat → Nat → Mq → (Mq → Prop) → Prop
  | 0, _, m, K => K m
  | c + 1, z, m, K => Feeds raw buf (resetIf M z m) (Std.decAt B M top z) fun m' => SegFeeds B M top raw buf c (z + 1) m' K

theorem Feeds.mono {raw : Bool} {buf : List Nat} {ds : List (Nat × Nat)} {m : Mq} {K L : Mq → Prop} (h : Feeds raw buf m ds K) (hk : ∀ m, K m → L m) :
    Feeds raw buf m ds L := by
  induction ds generalizing m with
  | nil => exact hk _ h
  | cons x ds ih =>
    obtain ⟨m', e, q⟩ := h
    exact ⟨m', e, ih q⟩

theorem SegFeeds.mono {B : Src} {M : Modes} {top : Nat} {raw : Bool} {buf : List Nat} {c z : Nat} {m : Mq} {K L : Mq → Prop}
    (h : SegFeeds B M top raw buf c z m K) (hk : ∀ m, K m → L m) : SegFeeds B M top raw buf c z m L := by
  induction c generalizing z m with
  | zero => exact hk _ h
  | succ c ih => exact Feeds.mono h fun m' hm => ih hm

theorem seg_mq (B : Src) (M : Modes) (top : Nat) (buf : List Nat) (c z : Nat) (m : Mq) (fin) (h : OReads buf m (Std.opsOf B M top c z) fin) :
    SegFeeds B M top false buf c z m fun m' => (m'.sigma, m'.mps) = fin ∧ CtxOk fin.1 fin.2 := by
  induction c generalizing z m with
  | zero => exact h.done
  | succ c ih =>
    simp only [SegFeeds]
    refine (feeds_mq _ (Std.opsOf B M top c (z + 1)) _ fin ?_).mono fun m' hm => ih _ _ hm
    unfold resetIf
    simp only [Std.opsOf] at h
    split_ifs with hz
    · rw [if_pos (by simpa using hz)] at h
      exact OReads.reset (by simpa using h)
    · rw [if_neg (by simpa using hz)] at h
      simpa using h

theorem seg_raw (B : Src) (M : Modes) (top : Nat) (buf : List Nat) (c z : Nat) (m : Mq) (hz : 1 ≤ z) (cx : (Nat → Nat) × (Nat → Nat))
    (hcx : (m.sigma, m.mps) = cx ∨ M.reset = true ∧ 1 ≤ c) (hok : CtxOk m.sigma m.mps) (h : RawReads buf m (Std.bitsOf B M top c z)) (hc : 1 ≤ c ∨ M.reset = false ∨ cx = Std.ctx0) :
    SegFeeds B M top true buf c z m fun m' => (m'.sigma, m'.mps) = (if M.reset then Std.ctx0 else cx) ∧ CtxOk m'.sigma m'.mps := by
  induction c generalizing z m cx with
  | zero =>
    simp only [SegFeeds]
    rcases hcx with hcx | hcx
    · refine ⟨?_, hok⟩
      rcases hc with hc | hc | hc
      · omega
      · rw [hc]; exact hcx
      · rw [hcx, hc]; simp
    · omega
  | succ c ih =>
    simp only [SegFeeds]
    have hm : RawReads buf (resetIf M z m) ((Std.decAt B M top z).map Prod.snd ++ Std.bitsOf B M top c (z + 1)) := by
      unfold resetIf
      split_ifs
      · exact ⟨h.bin, h.cur, h.rest⟩
      · exact h
    refine (feeds_raw _ _ _ hm).mono fun m' hq => ?_
    obtain ⟨q, s1, s2⟩ := hq
    cases hr : M.reset
    · have hres : resetIf M z m = m := by
        unfold resetIf
        rw [if_neg (by simp only [hr]; simp; omega)]
      rw [hres] at s1 s2
      have hcx' : (m.sigma, m.mps) = cx := by
        rcases hcx with hcx | hcx
        · exact hcx
        · simp [hr] at hcx
      have := ih (z + 1) m' (by omega) cx (Or.inl (by rw [s1, s2]; exact hcx')) (by rw [s1, s2]; exact hok) q (Or.inr (Or.inl hr))
      simpa [hr] using this
    · have hres : resetIf M z m = initStates m := by
        unfold resetIf
        rw [if_pos (Or.inr hr)]
      rw [hres] at s1 s2
      have hcx' : (m'.sigma, m'.mps) = Std.ctx0 := by rw [s1, s2]; rfl
      have := ih (z + 1) m' (by omega) Std.ctx0 (Or.inl hcx') (by
        rw [s1, s2]
        intro k
        simp only [initStates]
        refine ⟨?_, by norm_num⟩
        split_ifs <;> norm_num) q (Or.inr (Or.inr rfl))
      simpa [hr] using this

end Verif.Ebcot
