import Verif.Ht.PackLemmas

/-! # Packed refinement passes: group order and MagRef, lemmas -/

namespace Verif.Ht

/-- Both undefined, or both defined and related. -/
def ORel {α β : Type} (R : α → β → Prop) (x : Option α) (y : Option β) : Prop :=
  (x = none ∧ y = none) ∨ ∃ a b, x = some a ∧ y = some b ∧ R a b

theorem ORel.some {α β : Type} {R : α → β → Prop} {a : α} {b : β} (h : R a b) : ORel R (some a) (some b) :=
  Or.inr ⟨a, b, rfl, rfl, h⟩

theorem ORel.bind {α β γ δ : Type} {R : α → β → Prop} {S : γ → δ → Prop} {x : Option α} {y : Option β} {f : α → Option γ}
    {g : β → Option δ} (h : ORel R x y) (hf : ∀ a b, R a b → ORel S (f a) (g b)) : ORel S (x.bind f) (y.bind g) := by
  rcases h with ⟨rfl, rfl⟩ | ⟨a, b, rfl, rfl, h⟩
  · exact Or.inl ⟨rfl, rfl⟩
  · exact hf a b h

theorem ORel.mono {α β : Type} {R S : α → β → Prop} {x : Option α} {y : Option β} (h : ORel R x y) (hs : ∀ a b, R a b → S a b) :
    ORel S x y := by
  rcases h with h | ⟨a, b, h1, h2, h⟩
  · exact Or.inl h
  · exact Or.inr ⟨a, b, h1, h2, hs a b h⟩

theorem ORel.foldlM {α β ι : Type} {R : α → β → Prop} {f : α → ι → Option α} {g : β → ι → Option β} :
    ∀ (xs : List ι) (a : α) (b : β), R a b → (∀ a b, ∀ x ∈ xs, R a b → ORel R (f a x) (g b x)) →
      ORel R (xs.foldlM f a) (xs.foldlM g b)
  | [], _, _, h, _ => ORel.some h
  | x :: xs, a, b, h, hs => by
    rw [List.foldlM_cons, List.foldlM_cons]
    exact ORel.bind (hs a b x (by simp) h) fun a' b' h' => ORel.foldlM xs a' b' h' fun a b y hy => hs a b y (by simp [hy])

/-- A fold over a range, with an invariant that counts. -/
theorem ORel.foldRange {α β : Type} {R : Nat → α → β → Prop} {f : α → Nat → Option α} {g : β → Nat → Option β} (n : Nat) (a : α) (b : β)
    (h : R 0 a b) (hs : ∀ a b i, i < n → R i a b → ORel (R (i + 1)) (f a i) (g b i)) :
    ORel (R n) ((List.range n).foldlM f a) ((List.range n).foldlM g b) := by
  induction n with
  | zero => exact ORel.some h
  | succ n ih =>
    rw [List.range_succ, List.foldlM_append, List.foldlM_append]
    refine ORel.bind (ih fun a b i hi => hs a b i (by omega)) fun a b hab => ?_
    rw [List.foldlM_cons, List.foldlM_cons]
    exact ORel.bind (hs a b n (by omega) hab) fun a' b' h' => ORel.some h'

theorem foldlM_flatMap' {σ α β : Type} (g : σ → β → Option σ) (f : α → List β) : ∀ (xs : List α) (s : σ),
    (xs.flatMap f).foldlM g s = xs.foldlM (fun s x => (f x).foldlM g s) s
  | [], _ => rfl
  | x :: xs, s => by
    rw [List.flatMap_cons, List.foldlM_append, List.foldlM_cons]
    congr 1
    funext t
    exact foldlM_flatMap' g f xs t

theorem foldlM_map' {σ α β : Type} (g : σ → β → Option σ) (f : α → β) : ∀ (xs : List α) (s : σ),
    (xs.map f).foldlM g s = xs.foldlM (fun s x => g s (f x)) s
  | [], _ => rfl
  | x :: xs, s => by
    rw [List.map_cons, List.foldlM_cons, List.foldlM_cons]
    congr 1
    funext t
    exact foldlM_map' g f xs t

theorem foldlM_id {σ α : Type} {g : σ → α → Option σ} : ∀ (xs : List α) (s : σ), (∀ x ∈ xs, ∀ s, g s x = some s) →
    xs.foldlM g s = some s
  | [], _, _ => rfl
  | x :: xs, s, h => by
    rw [List.foldlM_cons, h x (by simp)]
    exact foldlM_id xs s fun y hy => h y (by simp [hy])

theorem groupRow_quads (w i0 ht : Nat) : groupRow w i0 ht = (List.range (quads w)).map fun qx => (i0, qx * 4, part w qx, ht) := by
  unfold groupRow
  have e : (List.range (w / 4)).map (fun n2 => (i0, 4 * n2, 4, ht)) = (List.range (w / 4)).map fun qx => (i0, qx * 4, part w qx, ht) := by
    apply List.map_congr_left
    intro q hq
    rw [List.mem_range] at hq
    have : part w q = 4 := by unfold part; split_ifs <;> omega
    rw [this, Nat.mul_comm]
  rw [e]
  by_cases h : w % 4 = 0
  · rw [if_neg (by simpa using h), List.append_nil, show quads w = w / 4 by unfold quads; omega]
  · rw [if_pos (by simpa using h), show quads w = w / 4 + 1 by unfold quads; omega, List.range_succ, List.map_append]
    have : part w (w / 4) = w % 4 := by unfold part; split_ifs <;> omega
    simp [this, Nat.mul_comm]

theorem bind_some' {α : Type} (x : Option α) : (x >>= fun a => some a) = x := by cases x <;> rfl

theorem groupScan_zero (i j wd : Nat) : groupScan i j wd 0 = [] := by
  rw [List.eq_nil_iff_forall_not_mem]
  intro x hx
  rw [mem_groupScan] at hx
  omega

/-- The scalar build's walk over the groups, as the vector builds walk. -/
theorem foldlM_groups {σ : Type} (F : σ → Nat × Nat × Nat × Nat → Option σ) (h0 : ∀ s i j wd, F s (i, j, wd, 0) = some s) (w h : Nat) (s : σ) :
    (groups w h).foldlM F s = (List.range (quads h)).foldlM (fun s qy =>
      (List.range (quads w)).foldlM (fun s qx => F s (qy * 4, qx * 4, part w qx, part h qy)) s) s := by
  have e : ∀ n (hn : n ≤ h / 4) s, ((List.range n).flatMap (fun n1 => groupRow w (4 * n1) 4)).foldlM F s =
      (List.range n).foldlM (fun s qy => (List.range (quads w)).foldlM (fun s qx => F s (qy * 4, qx * 4, part w qx, part h qy)) s) s := by
    intro n hn s
    rw [foldlM_flatMap']
    apply foldlM_congr_mem
    intro q hq s
    rw [List.mem_range] at hq
    have : part h q = 4 := by unfold part; split_ifs <;> omega
    rw [groupRow_quads, foldlM_map', this, Nat.mul_comm 4 q]
  rw [groups_eq, List.foldlM_append, e _ (le_refl _)]
  by_cases h4 : h % 4 = 0
  · rw [show quads h = h / 4 by unfold quads; omega]
    have : ∀ s, (groupRow w (4 * (h / 4)) (h % 4)).foldlM F s = some s := by
      intro s
      rw [groupRow_quads, foldlM_map', h4]
      exact foldlM_id _ _ fun x _ s => h0 _ _ _ _
    simp only [this]
    exact bind_some' _
  · rw [show quads h = h / 4 + 1 by unfold quads; omega, List.range_succ, List.foldlM_append]
    congr 1
    funext s
    rw [groupRow_quads, foldlM_map', List.foldlM_cons]
    have : part h (h / 4) = h % 4 := by unfold part; split_ifs <;> omega
    rw [this, Nat.mul_comm 4 (h / 4)]
    exact (bind_some' _).symm

theorem and3 (k : Nat) : k &&& 3 = k % 4 := Nat.and_two_pow_sub_one_eq_mod k 2
theorem shr2 (k : Nat) : k >>> 2 = k / 4 := Nat.shiftRight_eq_div_pow k 2

/-- The two builds' blocks: only `block_states` may differ, outside the cleanup pass's bit. -/
structure SameRef (b0 b c : RBlk) : Prop where
  bw : b.w = b0.w
  bh : b.h = b0.h
  cw : c.w = b0.w
  ch : c.h = b0.h
  smp : c.smp = b.smp
  s0 : ∀ r q, (b.st r q).testBit 0 = (b0.st r q).testBit 0

theorem bit_testBit (v : Nat) (h : v &&& 1 ≠ 0) : v.testBit 0 = true := by
  rw [and1_toNat] at h
  cases hv : v.testBit 0 <;> simp_all

theorem magQuad_rel {b0 : RBlk} (hf : Fresh b0) {D : Nat → Option Nat} {p qy qx : Nat} {sg : Nat → Nat} (hp : Packs b0 sg) (hy : qy < quads b0.h)
    (hx : qx < quads b0.w) (hfit : quads b0.h * mstrOf b0.w + quads b0.w < sigmaLen) {s t : RBlk × MrDec} (h : SameRef b0 s.1 t.1)
    (hr : t.2 = s.2) :
    ORel (fun s t : RBlk × MrDec => SameRef b0 s.1 t.1 ∧ t.2 = s.2)
      ((groupScan (qy * 4) (qx * 4) (part b0.w qx) (part b0.h qy)).foldlM (mrStep D p) s) (magQuad D p sg qy t qx) := by
  have h4 := part_le b0.h qy
  have w4 := part_le b0.w qx
  have hsz : qy * mstrOf b0.w + qx < sigmaLen := by
    have := Nat.mul_le_mul_right (mstrOf b0.w) (Nat.le_of_lt hy)
    omega
  have hsg := hp qy qx (Nat.le_of_lt hy) (Nat.le_of_lt hx)
  unfold magQuad
  rw [h.cw, if_pos hsz, Option.bind_some]
  generalize sg (qy * mstrOf b0.w + qx) = sig at hsg
  have e : (if sig = 0 then some t else eachBit (refBit D p qy qx) 33 sig t) = eachBit (refBit D p qy qx) 33 sig t := by
    by_cases h0 : sig = 0
    · rw [if_pos h0, h0]; rfl
    · rw [if_neg h0]
  rw [e]
  rw [groupScan_eq_kScan h4, foldlM_map']
  have hin : ∀ k, sig.testBit k = true → k ∈ kScan (part b0.w qx) (part b0.h qy) := by
    intro k hk
    rw [hsg k, Bool.and_eq_true, decide_eq_true_eq] at hk
    rw [mem_kScan h4, lt_part (by omega), lt_part (by omega)]
    by_contra hc
    rw [hf.out _ _ (by omega)] at hk
    simp at hk
  rw [eachBit_eq (refBit D p qy qx) (kScan (part b0.w qx) (part b0.h qy)) 33 sig t (pairwise_kScan h4)
    (fun k hk => by have := kScan_lt h4 w4 hk; omega) hin (by
      rw [length_kScan]
      have := Nat.mul_le_mul w4 h4
      omega)]
  refine ORel.foldlM _ _ _ ⟨h, hr⟩ ?_
  intro s t k hk ⟨hs, hrd⟩
  have hk16 := kScan_lt h4 w4 hk
  rw [mem_kScan h4, lt_part (by omega), lt_part (by omega)] at hk
  have hin1 : s.1.inSt (qy * 4 + k % 4 + 1) (qx * 4 + k / 4 + 1) :=
    RBlk.inSt_pad (by rw [hs.bh]; exact hk.2) (by rw [hs.bw]; exact hk.1)
  have hin2 : s.1.inSmp (qy * 4 + k % 4) (qx * 4 + k / 4) := RBlk.inSmp_of (by rw [hs.bh]; exact hk.2) (by rw [hs.bw]; exact hk.1)
  have hin3 : t.1.inSmp (qy * 4 + k % 4) (qx * 4 + k / 4) := RBlk.inSmp_of (by rw [hs.ch]; exact hk.2) (by rw [hs.cw]; exact hk.1)
  have hbit : sig.testBit k = (s.1.st (qy * 4 + k % 4 + 1) (qx * 4 + k / 4 + 1)).testBit 0 := by
    rw [hsg k, hs.s0, decide_eq_true hk16, Bool.true_and]
  unfold mrStep
  rw [RBlk.getSt_of hin1]
  simp only [Option.bind_eq_bind, Option.bind_some, Nat.shiftRight_zero]
  rw [hbit, and1_toNat]
  by_cases hb : (s.1.st (qy * 4 + k % 4 + 1) (qx * 4 + k / 4 + 1)).testBit 0 = true
  · rw [hb, if_pos (show true.toNat ≠ 0 by decide), if_pos rfl, RBlk.orSt_of hin1, Option.bind_some]
    unfold refBit
    rw [hrd]
    refine ORel.bind (R := fun a b => a = b) ?_ ?_
    · cases s.2.bit D with
      | none => exact Or.inl ⟨rfl, rfl⟩
      | some r => exact ORel.some rfl
    · rintro r _ rfl
      simp only [Option.bind_eq_bind, and3, shr2]
      rw [RBlk.modSmp_of hin3, RBlk.modSmp_of (by exact hin2)]
      simp only [Option.bind_some]
      rw [RBlk.modSmp_of (by exact hin2), RBlk.modSmp_of (by exact hin3)]
      refine ORel.some ⟨⟨hs.bw, hs.bh, hs.cw, hs.ch, ?_, ?_⟩, rfl⟩
      · dsimp only
        rw [hs.smp]
      · intro r' c'
        dsimp only
        rw [testBit_upd2_or, hs.s0]
        simp
  · rw [if_neg hb]
    have hb' : (s.1.st (qy * 4 + k % 4 + 1) (qx * 4 + k / 4 + 1)).testBit 0 = false := by simpa using hb
    rw [hb', if_neg (by simp)]
    exact ORel.some ⟨hs, hrd⟩

theorem magrefPacked_rel {b0 : RBlk} (hf : Fresh b0) {D : Nat → Option Nat} {lref p : Nat} {sg : Nat → Nat} (hp : Packs b0 sg)
    (hfit : quads b0.h * mstrOf b0.w + quads b0.w < sigmaLen) {b c : RBlk} (h : SameRef b0 b c) :
    ORel (SameRef b0) (magrefDecode D lref p b) (magrefPacked D lref p sg c) := by
  unfold magrefDecode magrefPacked
  by_cases h0 : p = 0
  · rw [if_pos h0, if_pos h0]; exact ORel.some h
  · rw [if_neg h0, if_neg h0, ← groups_flat, foldlM_flatMap', h.bw, h.bh, h.cw, h.ch,
      foldlM_groups (fun s g => (gscan g).foldlM (mrStep D p) s) (fun s i j wd => by simp only [gscan, groupScan_zero]; rfl)]
    rw [Option.map_eq_bind, Option.map_eq_bind]
    refine ORel.bind (R := fun s t : RBlk × MrDec => SameRef b0 s.1 t.1 ∧ t.2 = s.2) ?_ fun s t hst => ORel.some hst.1
    refine ORel.foldlM _ _ _ ⟨h, rfl⟩ ?_
    intro s t qy hqy hst
    rw [List.mem_range] at hqy
    refine ORel.foldlM _ _ _ hst ?_
    intro s t qx hqx hst
    rw [List.mem_range] at hqx
    exact magQuad_rel hf hp hqy hqx hfit hst.1 hst.2

end Verif.Ht
