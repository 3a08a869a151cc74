import Verif.Simd.LiftPlanar
import Verif.Dwt.ImageLemmas
import Verif.Dwt.GainLevels

/-!
# The vector kernels of the 5/3 filter on rows

Lemmas behind `PropsLift`: words as whole numbers, interleaving, and the vertical steps.
-/

namespace Verif.Simd.Lift

open Verif.Dwt (Step Filter Ext Sym Agree Filled Lists toInt32 mirror pseo join split weave ceilHalf)

/-! ## Words and whole numbers -/

theorem toInt_add (a b : BitVec 32) : (a + b).toInt = toInt32 (a.toInt + b.toInt) := by
  rw [BitVec.toInt_add, toInt32, Int.bmod_def]
  split_ifs <;> omega

theorem toInt_sub (a b : BitVec 32) : (a - b).toInt = toInt32 (a.toInt - b.toInt) := by
  rw [BitVec.toInt_sub, toInt32, Int.bmod_def]
  split_ifs <;> omega

theorem toInt_sra (a : BitVec 32) (n : Nat) : (a.sshiftRight n).toInt = a.toInt / 2 ^ n := by
  rw [BitVec.toInt_sshiftRight, Int.shiftRight_eq_div_pow]
  push_cast; rfl

theorem toInt_hpInv (a b t : BitVec 32) :
    (t + (a + b).sshiftRight 1).toInt = toInt32 (t.toInt + toInt32 (a.toInt + b.toInt) / 2) := by
  rw [toInt_add, toInt_sra, toInt_add]; rfl

theorem toInt_lpInv (a b t : BitVec 32) :
    (t - (a + b + 2#32).sshiftRight 2).toInt = toInt32 (t.toInt - toInt32 (toInt32 (a.toInt + b.toInt) + 2) / 4) := by
  rw [toInt_sub, toInt_sra, toInt_add, toInt_add]; rfl

theorem toInt_hpFwd (a b t : BitVec 32) :
    (t - (a + b).sshiftRight 1).toInt = toInt32 (t.toInt - toInt32 (a.toInt + b.toInt) / 2) := by
  rw [toInt_sub, toInt_sra, toInt_add]; rfl

theorem toInt_lpFwd (a b t : BitVec 32) :
    (t + (a + b + 2#32).sshiftRight 2).toInt = toInt32 (t.toInt + toInt32 (toInt32 (a.toInt + b.toInt) + 2) / 4) := by
  rw [toInt_add, toInt_sra, toInt_add, toInt_add]; rfl

theorem liftAll_hom {α β : Type} {φ : α → β} {f : Step α} {g : Step β} (h : ∀ a b t, φ (f a b t) = g (φ a) (φ b) (φ t)) (p : Int) (s : Int → α) :
    (fun k => φ (Dwt.liftAll p f s k)) = Dwt.liftAll p g fun k => φ (s k) := by
  funext k
  unfold Dwt.liftAll
  split_ifs
  · rw [h]
  · rfl

theorem synthesiseAll_toInt (p : Int) (s : Int → BitVec 32) :
    (fun k => (Dwt.synthesiseAll wInv p s k).toInt) = Dwt.synthesiseAll (Dwt.rev53InvM toInt32) p fun k => (s k).toInt := by
  unfold Dwt.synthesiseAll wInv Dwt.rev53InvM
  simp only
  rw [liftAll_hom (φ := BitVec.toInt) (g := fun a b t => toInt32 (t + toInt32 (a + b) / 2)) (fun a b t => toInt_hpInv a b t),
    liftAll_hom (φ := BitVec.toInt) (g := fun a b t => toInt32 (t - toInt32 (toInt32 (a + b) + 2) / 4)) (fun a b t => toInt_lpInv a b t)]

theorem analyseAll_toInt (p : Int) (s : Int → BitVec 32) :
    (fun k => (Dwt.analyseAll wFwd p s k).toInt) = Dwt.analyseAll (Dwt.rev53M toInt32) p fun k => (s k).toInt := by
  unfold Dwt.analyseAll wFwd Dwt.rev53M
  simp only
  rw [liftAll_hom (φ := BitVec.toInt) (g := fun a b t => toInt32 (t + toInt32 (toInt32 (a + b) + 2) / 4)) (fun a b t => toInt_lpFwd a b t),
    liftAll_hom (φ := BitVec.toInt) (g := fun a b t => toInt32 (t - toInt32 (a + b) / 2)) (fun a b t => toInt_hpFwd a b t)]

theorem ext_map {α β : Type} (φ : α → β) {x : List α} {s : Int → α} (h : Ext x s) : Ext (x.map φ) fun k => φ (s k) := by
  intro k
  rw [List.length_map, List.getElem?_map, h k]; rfl

theorem lists_map {α β : Type} (φ : α → β) {x : List α} {w : Nat} {s : Int → α} (h : Lists x w s) : Lists (x.map φ) w fun k => φ (s k) := by
  refine ⟨by simpa using h.1, fun k k0 k1 => ?_⟩
  rw [List.getElem?_map, h.2 k k0 k1]; rfl

theorem join_map {α β : Type} (φ : α → β) (u0 : Int) (lp hp : List α) : join u0 (lp.map φ) (hp.map φ) = (join u0 lp hp).map φ := by
  have key : ∀ a b : List α, weave (a.map φ) (b.map φ) = (weave a b).map φ := by
    intro a b
    fun_induction weave a b with
    | case1 b => simp [weave]
    | case2 b x a ih => simp [weave, ih]
  unfold join
  split_ifs <;> exact key _ _

theorem readBack_of {X : Mem} {s : Int → BitVec 32} {w : Nat} (h : Agree X s 0 (w - 1)) : ∃ y, Dwt.readBack 0 w X = some y ∧ Lists y w s := by
  obtain ⟨y, e, l, g⟩ := Dwt.readBack_spec (left := 0) (w := w) (X := X) (s := s) (by simpa using h)
  exact ⟨y, e, l, fun k k0 k1 => by simpa using g k k0 k1⟩

/-! ## Interleaving -/

theorem weave_get {α : Type} (a b : List α) (h1 : b.length ≤ a.length) (h2 : a.length ≤ b.length + 1) (i : Nat) :
    (weave a b)[2 * i]? = a[i]? ∧ (weave a b)[2 * i + 1]? = b[i]? := by
  fun_induction weave a b generalizing i with
  | case1 b => simp at h1; subst h1; simp
  | case2 b x a ih =>
    simp only [List.length_cons] at h1 h2
    have ih := ih (by omega) (by omega)
    refine ⟨?_, by rw [List.getElem?_cons_succ]; exact (ih i).1⟩
    cases i with
    | zero => rfl
    | succ i =>
      rw [show 2 * (i + 1) = 2 * i + 1 + 1 by ring, List.getElem?_cons_succ, List.getElem?_cons_succ]
      exact (ih i).2

theorem join_length {α : Type} (u0 : Int) (lp hp : List α) : (join u0 lp hp).length = lp.length + hp.length := by
  unfold join
  split_ifs <;> rw [Dwt.length_weave]
  omega

theorem rowFromPlanar_spec {u0 : Int} {lp hp : List (BitVec 32)} (hshape : (lp.length : Int) = ceilHalf (u0 + (lp.length + hp.length)) - ceilHalf u0)
    (hw : 2 ≤ lp.length + hp.length) {slot : Mem} {hi : Int} (hF : Filled slot (-8) hi) (hhi : (lp.length + hp.length : Int) + 8 ≤ hi) {s : Int → BitVec 32}
    (hs : Ext (join u0 lp hp) s) :
    ∃ slot', rowFromPlanar u0 lp hp slot = some slot' ∧ Agree slot' (Dwt.synthesiseAll wInv (u0 % 2) s) 0 ((lp.length + hp.length : Nat) - 1) ∧ Filled slot' (-8) hi ∧
      ∀ k : Int, ¬ (-8 ≤ k ∧ k ≤ (lp.length + hp.length : Nat) + 8) → slot' k = slot k := by
  unfold rowFromPlanar
  simp only
  have hlen := join_length u0 lp hp
  have hsym := hs.sym (by omega)
  rw [hlen] at hsym
  split_ifs with hc
  · have hj : join u0 lp hp = weave lp hp := if_pos hc.1
    rw [hj] at hs hlen
    have hl1 : hp.length ≤ lp.length := by unfold ceilHalf at hshape; omega
    have hl2 : lp.length ≤ hp.length + 1 := by unfold ceilHalf at hshape; omega
    have hg := weave_get lp hp hl1 hl2
    obtain ⟨o, e, a, f, c⟩ := planarInverse_spec (u0 := u0) hc.1 hw (lp := Dwt.bufOf lp) (hp := Dwt.bufOf hp) (out := slot) hsym
      (fun i i0 i1 => by
        have h := hs.get (k := 2 * i) (by omega) (by rw [hlen]; omega)
        rw [show (2 * i).toNat = 2 * i.toNat by omega, (hg _).1] at h
        simp only [Dwt.bufOf, if_pos i0]
        exact h)
      (fun i i0 i1 => by
        have h := hs.get (k := 2 * i + 1) (by omega) (by rw [hlen]; omega)
        rw [show (2 * i + 1).toNat = 2 * i.toNat + 1 by omega, (hg _).2] at h
        simp only [Dwt.bufOf, if_pos i0]
        exact h)
      (lo := -8) (hi := hi) (by omega) (by push_cast; omega) hF
    exact ⟨o, e, a, f, fun k hk => c k (by omega)⟩
  · obtain ⟨b0, e0, a0, f0, c0⟩ := blit_spec hs hF (by omega) (by omega)
    rw [hlen] at a0 c0
    obtain ⟨b1, e1, a1, f1, c1⟩ := rowInverse_spec (u0 := u0) hw hsym a0 f0 (by push_cast; omega)
    exact ⟨b1, by rw [e0, Option.bind_some, e1], a1, f1, fun k hk => by rw [c1 k hk, c0 k (by omega)]⟩

theorem rowToPlanar_spec {u0 : Int} {x : List (BitVec 32)} (hw : 2 ≤ x.length) {tmp lpMem hpMem : Mem} (hF : Filled tmp (-(fwdLeft u0 : Nat)) (x.length + 8))
    (hL : Filled lpMem 0 (ceilHalf (u0 + x.length) - ceilHalf u0 - 1)) (hH : Filled hpMem 0 ((u0 + x.length) / 2 - u0 / 2 - 1)) {s : Int → BitVec 32} (hs : Ext x s) :
    ∃ y, rowToPlanar u0 x tmp lpMem hpMem = some (split u0 y) ∧ Lists y x.length (Dwt.analyseAll wFwd (u0 % 2) s) := by
  unfold rowToPlanar
  simp only
  split_ifs with hc
  · have hNL : (ceilHalf (u0 + x.length) - u0 / 2).toNat = (x.length + 1) / 2 := by unfold ceilHalf; omega
    have hNH : ((u0 + x.length) / 2 - u0 / 2).toNat = x.length / 2 := by omega
    have hLL : ((x.length : Int) + 1) / 2 ≤ ceilHalf (u0 + x.length) - ceilHalf u0 - 1 + 1 := by unfold ceilHalf; omega
    obtain ⟨l', h', e, gl, gh, -, -⟩ := planarForward_spec hc.1 (by omega) (hs.sym hw) (inp := Dwt.bufOf x)
      (fun k k0 k1 => by simp only [Dwt.bufOf, if_pos k0]; exact hs.get k0 k1) hLL (by omega) hL hH
    obtain ⟨yl, el, ll⟩ := readBack_of (X := l') (s := fun k => Dwt.analyseAll wFwd (u0 % 2) s (2 * k)) (w := (x.length + 1) / 2)
      (fun k k0 k1 => gl k k0 (by omega))
    obtain ⟨yh, eh, lh⟩ := readBack_of (X := h') (s := fun k => Dwt.analyseAll wFwd (u0 % 2) s (2 * k + 1)) (w := x.length / 2)
      (fun k k0 k1 => gh k k0 (by omega))
    rw [e, Option.bind_some, hNL, hNH, el, Option.bind_some, eh, Option.map_some]
    have hg := weave_get yl yh (by rw [ll.1, lh.1]; omega) (by rw [ll.1, lh.1]; omega)
    refine ⟨weave yl yh, ?_, by rw [Dwt.length_weave, ll.1, lh.1]; omega, fun k k0 k1 => ?_⟩
    · congr 1
      unfold split
      rw [if_pos hc.1]
      refine Prod.ext_iff.2 ⟨List.ext_getElem? fun i => ?_, List.ext_getElem? fun i => ?_⟩
      · rw [Dwt.Gain.everyOther_get, (hg i).1]
      · rw [Dwt.Gain.everyOther_get, List.getElem?_tail, (hg i).2]
    · by_cases hk : k % 2 = 0
      · have := ll.2 (k / 2) (by omega) (by omega)
        rw [show k.toNat = 2 * (k / 2).toNat by omega, (hg _).1, this]
        simp only [show 2 * (k / 2) = k by omega]
      · have := lh.2 (k / 2) (by omega) (by omega)
        rw [show k.toNat = 2 * (k / 2).toNat + 1 by omega, (hg _).2, this]
        simp only [show 2 * (k / 2) + 1 = k by omega]
  · obtain ⟨b, e, a, -, -⟩ := rowForward_spec (u0 := u0) hw hs hF (le_refl _)
    obtain ⟨y, ey, ly⟩ := readBack_of a
    exact ⟨y, by rw [e, Option.bind_some, ey]; rfl, ly⟩

/-! ## Vertical steps -/

theorem vertical_spec {g : V 8 → V 8 → V 8 → V 8} {f : BitVec 32 → BitVec 32 → BitVec 32 → BitVec 32} (hgf : ∀ a b t : V 8, ∀ i, g a b t i = f (a i) (b i) (t i))
    {n : Nat} {prev next : Mem} {p q t : Int → BitVec 32} (hp : Agree prev p 0 (n - 1)) (hq : Agree next q 0 (n - 1)) :
    ∀ (c : Nat) {i : Int} {tgt : Mem}, n - i = c → 0 ≤ i → Agree tgt t i (n - 1) →
      ∃ tgt', vertical g f n i prev next tgt = some tgt' ∧ Agree tgt' (fun k => f (p k) (q k) (t k)) i (n - 1) ∧ ∀ k : Int, ¬ (i ≤ k ∧ k < n) → tgt' k = tgt k := by
  intro c
  induction c using Nat.strong_induction_on with
  | _ c ih =>
    intro i tgt hc hi ht
    rw [vertical]
    split_ifs with h8 h1
    · have hlp : load prev i = some (fun l : Fin 8 => p (i + (l.val : Int))) := load_some fun l => hp _ (by omega) (by omega)
      have hlq : load next i = some (fun l : Fin 8 => q (i + (l.val : Int))) := load_some fun l => hq _ (by omega) (by omega)
      have hlt : load tgt i = some (fun l : Fin 8 => t (i + (l.val : Int))) := load_some fun l => ht _ (by omega) (by omega)
      obtain ⟨t1, e1, a1, c1⟩ := store_filled (b := tgt) (m := i) (fun k k0 k1 => by rw [ht k (by omega) (by omega)]; rfl)
        (g (fun l : Fin 8 => p (i + (l.val : Int))) (fun l : Fin 8 => q (i + (l.val : Int))) (fun l : Fin 8 => t (i + (l.val : Int))))
      obtain ⟨t2, e2, a2, c2⟩ := ih (c - 8) (by omega) (i := i + 8) (tgt := t1) (by omega) (by omega) fun k k0 k1 => by
        rw [c1 k (by omega), ht k (by omega) k1]
      refine ⟨t2, by rw [hlp, hlq, hlt]; simp only [Option.bind_some]; rw [e1, Option.bind_some, e2], fun k k0 k1 => ?_, fun k hk => by
        rw [c2 k (by omega), c1 k (by omega)]⟩
      by_cases hk : i + 8 ≤ k
      · exact a2 k hk k1
      · have := a1 ⟨(k - i).toNat, by omega⟩
        rw [hgf] at this
        simp only [show i + (((k - i).toNat : Nat) : Int) = k by omega] at this
        rw [c2 k (by omega), this]
    · have e0 := put_filled (b := tgt) (k := i) (by rw [ht i (le_refl _) (by omega)]; rfl) (f (p i) (q i) (t i))
      obtain ⟨t2, e2, a2, c2⟩ := ih (c - 1) (by omega) (i := i + 1) (tgt := Function.update tgt i (some (f (p i) (q i) (t i)))) (by omega) (by omega)
        fun k k0 k1 => by rw [Function.update_of_ne (by omega), ht k (by omega) k1]
      refine ⟨t2, by rw [hp i hi (by omega), hq i hi (by omega), ht i (le_refl _) (by omega)]; simp only [Option.bind_some]; rw [e0, Option.bind_some, e2],
        fun k k0 k1 => ?_, fun k hk => by rw [c2 k (by omega), Function.update_of_ne (by omega)]⟩
      by_cases hk : k = i
      · subst hk
        rw [c2 k (by omega), Function.update_self]
      · exact a2 k (by omega) k1
    · exact ⟨tgt, rfl, fun k k0 k1 => by omega, fun _ _ => rfl⟩

/-- A vertical step on rows of equal length. -/
theorem vertical_rows {g : V 8 → V 8 → V 8 → V 8} {f : BitVec 32 → BitVec 32 → BitVec 32 → BitVec 32} (hgf : ∀ a b t : V 8, ∀ i, g a b t i = f (a i) (b i) (t i))
    {fm : Step Int} (hf : ∀ a b t, (f a b t).toInt = fm a.toInt b.toInt t.toInt) {p q t : List (BitVec 32)} (hp : p.length = t.length) (hq : q.length = t.length)
    {prev next tgt : Mem} (mp : ∀ i (h : i < p.length), prev (i : Int) = some p[i]) (mq : ∀ i (h : i < q.length), next (i : Int) = some q[i])
    (mt : ∀ i (h : i < t.length), tgt (i : Int) = some t[i]) :
    ∃ tgt' y, vertical g f t.length 0 prev next tgt = some tgt' ∧ Dwt.readBack 0 t.length tgt' = some y ∧
      y.map BitVec.toInt = Dwt.rowStep fm (p.map BitVec.toInt) (q.map BitVec.toInt) (t.map BitVec.toInt) ∧ ∀ k : Int, ¬ (0 ≤ k ∧ k < t.length) → tgt' k = tgt k := by
  have ag : ∀ (x : List (BitVec 32)) (m : Mem), x.length = t.length → (∀ i (h : i < x.length), m (i : Int) = some x[i]) →
      Agree m (fun k => (x[k.toNat]?).getD 0) 0 (t.length - 1) := by
    intro x m hx hm k k0 k1
    have := hm k.toNat (by omega)
    rw [show ((k.toNat : Nat) : Int) = k by omega] at this
    rw [this]
    simp only [List.getElem?_eq_getElem (show k.toNat < x.length by omega), Option.getD_some]
  obtain ⟨tgt', e, a, c⟩ := vertical_spec hgf (n := t.length) (ag p prev hp mp) (ag q next hq mq) t.length (i := 0) (tgt := tgt) (by simp) (le_refl _) (ag t tgt rfl mt)
  obtain ⟨y, ey, ly⟩ := readBack_of a
  refine ⟨tgt', y, e, ey, ?_, fun k hk => c k hk⟩
  apply List.ext_getElem
  · simp [Dwt.rowStep, ly.1, hp, hq]
  · intro i h1 h2
    have hi : i < t.length := by simpa [ly.1] using h1
    have := ly.2 i (by omega) (by omega)
    simp only [Int.toNat_natCast] at this
    simp only [List.getElem?_eq_getElem (show i < y.length by rw [ly.1]; omega), List.getElem?_eq_getElem (show i < p.length by omega),
      List.getElem?_eq_getElem (show i < q.length by omega), List.getElem?_eq_getElem hi, Option.getD_some, Option.some.injEq] at this
    simp [Dwt.rowStep, this, hf]

end Verif.Simd.Lift
