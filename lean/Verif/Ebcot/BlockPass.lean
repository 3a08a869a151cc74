import Verif.Ebcot.BlockStep
/-
Stripe columns and whole coding passes: the decoder follows the encoder.
-/
namespace Verif.Ebcot
open Std (Src St zc seen hSum vSum dSum put bitAt coded signif sigE magE cleanE cleanColE runs rowsOf runOk firstOne skip columns scan)

/-! Putting simulations together. -/

theorem Sim.nil (raw : Bool) (buf : List Nat) (B : Src) {α : Type} (g : α → St → St × List (Nat × Nat)) : Sim raw buf B (fun s => .ok s) (runs g []) :=
  fun _ b m _ _ R I hf => ⟨b, m, rfl, R, I, hf⟩

theorem Sim.seq {raw : Bool} {buf : List Nat} {B : Src} {f1 f2 : Blk × Mq → Except DErr (Blk × Mq)} {g1 g2 : St → St × List (Nat × Nat)}
    (h1 : Sim raw buf B f1 g1) (h2 : Sim raw buf B f2 g2) :
    Sim raw buf B (fun s => (f1 s).bind f2) (fun S => ((g2 (g1 S).1).1, (g1 S).2 ++ (g2 (g1 S).1).2)) := by
  intro S b m ds fin R I hf
  simp only [List.append_assoc] at hf
  obtain ⟨b1, m1, e1, R1, I1, hf1⟩ := h1 S b m _ fin R I hf
  obtain ⟨b2, m2, e2, R2, I2, hf2⟩ := h2 _ b1 m1 ds fin R1 I1 hf1
  exact ⟨b2, m2, by simp only [e1, Except.bind, e2], R2, I2, hf2⟩

theorem runs_cons {α : Type} (g : α → St → St × List (Nat × Nat)) (x : α) (xs : List α) :
    runs g (x :: xs) = fun S => ((runs g xs (g x S).1).1, (g x S).2 ++ (runs g xs (g x S).1).2) := rfl

theorem runs_append {α : Type} (g : α → St → St × List (Nat × Nat)) : ∀ xs ys : List α,
    runs g (xs ++ ys) = fun S => ((runs g ys (runs g xs S).1).1, (runs g xs S).2 ++ (runs g ys (runs g xs S).1).2)
  | [], ys => rfl
  | x :: xs, ys => by
    funext S
    rw [List.cons_append, runs_cons, runs_cons, runs_append g xs ys]
    simp only [List.append_assoc]

theorem runs_flatMap {α β : Type} (g : α → St → St × List (Nat × Nat)) (φ : β → List α) : ∀ xs : List β,
    runs g (xs.flatMap φ) = runs (fun x => runs g (φ x)) xs
  | [] => rfl
  | x :: xs => by
    rw [List.flatMap_cons, runs_append, runs_flatMap g φ xs, runs_cons]

theorem Sim.cons {raw : Bool} {buf : List Nat} {B : Src} {f1 f2 : Blk × Mq → Except DErr (Blk × Mq)} {α : Type} {g : α → St → St × List (Nat × Nat)} {x : α}
    {xs : List α} (h1 : Sim raw buf B f1 (g x)) (h2 : Sim raw buf B f2 (runs g xs)) : Sim raw buf B (fun s => (f1 s).bind f2) (runs g (x :: xs)) :=
  Sim.seq h1 h2

theorem Sim.each {raw : Bool} {buf : List Nat} {B : Src} {α β : Type} {f : α → Blk × Mq → Except DErr (Blk × Mq)} {g : β → St → St × List (Nat × Nat)}
    (φ : α → β) : ∀ xs : List α, (∀ x ∈ xs, Sim raw buf B (f x) (g (φ x))) → Sim raw buf B (each f xs) (runs g (xs.map φ))
  | [], _ => Sim.nil raw buf B g
  | x :: xs, h => Sim.cons (f1 := f x) (h x (List.mem_cons_self ..)) (Sim.each φ xs fun y hy => h y (List.mem_cons_of_mem _ hy))

/-! The condition of the run-length mode. -/

theorem zc_zero {B : Src} {S : St} {r c : Nat} : zc B S r c = 0 ↔
    (seen B S r (r - 1) (c - 1) = false ∧ seen B S r (r - 1) c = false ∧ seen B S r (r - 1) (c + 1) = false) ∧
    (seen B S r r (c - 1) = false ∧ seen B S r r (c + 1) = false) ∧
    (seen B S r (r + 1) (c - 1) = false ∧ seen B S r (r + 1) c = false ∧ seen B S r (r + 1) (c + 1) = false) := by
  have h : zc B S r c = 0 ↔ ¬ 0 < zc B S r c := by omega
  rw [h, zc_pos]
  unfold hSum vSum dSum
  simp only [← toNat_zero]
  omega

theorem mask_zero (word n : Nat) : word &&& (2 ^ n - 1) = 0 ↔ ∀ k, k < n → word.testBit k = false := by
  rw [Nat.and_two_pow_sub_one_eq_mod]
  constructor
  · intro h k hk
    have := Nat.testBit_mod_two_pow word n k
    rw [h] at this
    simpa [hk] using this.symm
  · intro h
    apply Nat.eq_of_testBit_eq
    intro k
    rw [Nat.testBit_mod_two_pow, Nat.zero_testBit]
    by_cases hk : k < n
    · rw [h k hk]; simp
    · simp [hk]

theorem run_mask {B : Src} {S : St} {b : Blk} (R : BRel B S b) (I : SInv B S) {j1 j2 : Nat} (h0 : j1 % 4 = 0) (h2 : j2 < B.w) :
    b.ctx (j1 / 4 + 1) (j2 + 1) &&& (if b.causal then 0x7FFF else 0x3FFFF) = 0 ↔ runOk B S (j1 + 1, j2 + 1, 4) := by
  have hm : (if b.causal then 0x7FFF else 0x3FFFF) = 2 ^ (3 * (if B.causal then 5 else 6)) - 1 := by
    rw [R.causal]; cases B.causal <;> rfl
  rw [hm, mask_zero]
  set N := if B.causal then 5 else 6 with hN
  have hN6 : N ≤ 6 := by rw [hN]; split_ifs <;> omega
  have hN5 : 5 ≤ N := by rw [hN]; split_ifs <;> omega
  have wb : ∀ i d, i < 6 → d < 3 → (b.ctx (j1 / 4 + 1) (j2 + 1)).testBit (3 * i + d) = S.sig (j1 + i) (j2 + d) := by
    intro i d hi hd
    rw [R.ctx (j1 / 4) j2 i d h2 hi hd]
    congr 1
    omega
  have hA : (∀ k, k < 3 * N → (b.ctx (j1 / 4 + 1) (j2 + 1)).testBit k = false) ↔ ∀ i d, i < N → d < 3 → S.sig (j1 + i) (j2 + d) = false := by
    constructor
    · intro h i d hi hd
      rw [← wb i d (by omega) hd]
      exact h _ (by omega)
    · intro h k hk
      have := h (k / 3) (k % 3) (by omega) (by omega)
      rw [← wb (k / 3) (k % 3) (by omega) (by omega)] at this
      rw [← this]
      congr 1
      omega
  rw [hA]
  unfold runOk rowsOf
  simp only [true_and, List.mem_map, List.mem_range, forall_exists_index, and_imp]
  constructor
  · intro h y i hi hy
    subst hy
    have hs : ∀ k d, k ≤ 2 → d < 3 → seen B S (j1 + 1 + i) (j1 + i + k) (j2 + d) = false := by
      intro k d hk hd
      unfold seen
      by_cases q : i + k < N
      · have := h (i + k) d q hd
        rw [show j1 + i + k = j1 + (i + k) by ring, this]; rfl
      · have hc : B.causal = true := by
          cases hcc : B.causal with
          | true => rfl
          | false => rw [hcc] at hN; simp at hN; omega
        rw [hc] at hN; simp at hN
        have e1 : ((j1 + 1 + i) % 4 == 0) = true := by rw [beq_iff_eq]; omega
        have e2 : (j1 + i + k == j1 + 1 + i + 1) = true := by rw [beq_iff_eq]; omega
        rw [hc, e1, e2]; simp
    have hz : zc B S (j1 + 1 + i) (j2 + 1) = 0 := by
      rw [zc_zero]
      rw [show j1 + 1 + i - 1 = j1 + i + 0 by omega, show j1 + 1 + i + 1 = j1 + i + 2 by omega, show j2 + 1 - 1 = j2 + 0 by omega, show j2 + 1 + 1 = j2 + 2 by omega]
      have e : j1 + 1 + i = j1 + i + 1 := by omega
      refine ⟨⟨hs 0 0 (by omega) (by omega), hs 0 1 (by omega) (by omega), hs 0 2 (by omega) (by omega)⟩, ⟨?_, ?_⟩,
        ⟨hs 2 0 (by omega) (by omega), hs 2 1 (by omega) (by omega), hs 2 2 (by omega) (by omega)⟩⟩
      · have := hs 1 0 (by omega) (by omega); rwa [← e] at this
      · have := hs 1 2 (by omega) (by omega); rwa [← e] at this
    have hsg : S.sig (j1 + 1 + i) (j2 + 1) = false := by
      have := h (i + 1) 1 (by omega) (by omega)
      rwa [show j1 + (i + 1) = j1 + 1 + i by omega] at this
    refine ⟨hsg, ?_, hz⟩
    cases hv : S.vis (j1 + 1 + i) (j2 + 1) with
    | false => rfl
    | true =>
      rcases I.vis _ _ hv with q | q
      · rw [hsg] at q; exact absurd q (by simp)
      · omega
  · intro h i d hi hd
    have row := fun k (hk : k < 4) => h _ k hk rfl
    simp only at row
    have un : ∀ r r' c', (¬(B.causal = true ∧ r % 4 = 0 ∧ r' = r + 1)) → seen B S r r' c' = false → S.sig r' c' = false := by
      intro r r' c' hn hs
      unfold seen at hs
      have : (B.causal && r % 4 == 0 && r' == r + 1) = false := by
        by_contra hne
        rw [Bool.not_eq_false, Bool.and_eq_true, Bool.and_eq_true, beq_iff_eq, beq_iff_eq] at hne
        exact hn ⟨hne.1.1, hne.1.2, hne.2⟩
      rw [this] at hs
      simpa using hs
    have hd3 : d = 0 ∨ d = 1 ∨ d = 2 := by omega
    rcases Nat.lt_or_ge 0 i with hi0 | hi0
    · rcases Nat.lt_or_ge i 5 with hi5 | hi5
      · have r1 := row (i - 1) (by omega)
        rw [show j1 + 1 + (i - 1) = j1 + i by omega] at r1
        have z1 := (zc_zero.1 r1.2.2).2.1
        rcases hd3 with rfl | rfl | rfl
        · exact un _ _ _ (by omega) z1.1
        · exact r1.1
        · exact un _ _ _ (by omega) z1.2
      · have hcf : B.causal = false := by
          cases hcc : B.causal with
          | false => rfl
          | true => rw [hcc] at hN; simp at hN; omega
        have r1 := row 3 (by omega)
        have z1 := (zc_zero.1 r1.2.2).2.2
        have hi5' : i = 5 := by omega
        subst hi5'
        rcases hd3 with rfl | rfl | rfl
        · exact un _ _ _ (by rw [hcf]; simp) z1.1
        · exact un _ _ _ (by rw [hcf]; simp) z1.2.1
        · exact un _ _ _ (by rw [hcf]; simp) z1.2.2
    · have hi0' : i = 0 := by omega
      subst hi0'
      have r1 := row 0 (by omega)
      have z1 := (zc_zero.1 r1.2.2).1
      rcases hd3 with rfl | rfl | rfl
      · exact un _ _ _ (by omega) z1.1
      · exact un _ _ _ (by omega) z1.2.1
      · exact un _ _ _ (by omega) z1.2.2

/-! Coefficients that are skipped. -/

theorem firstOne_spec (B : Src) (p r c : Nat) : firstOne B p r c ≤ 4 ∧ (∀ j, j < firstOne B p r c → bitAt B p (r + j) c = 0) ∧
    (firstOne B p r c < 4 → bitAt B p (r + firstOne B p r c) c = 1) := by
  have le := fun k => bitAt_le B p (r + k) c
  unfold firstOne
  split_ifs with a1 a2 a3 a4
  · exact ⟨by omega, fun j hj => absurd hj (by omega), fun _ => a1⟩
  · refine ⟨by omega, fun j hj => ?_, fun _ => a2⟩
    have : j = 0 := by omega
    subst this
    have := le 0
    simp only [Nat.add_zero] at this ⊢; omega
  · refine ⟨by omega, fun j hj => ?_, fun _ => a3⟩
    have l0 := le 0; have l1 := le 1
    interval_cases j
    · simp only [Nat.add_zero] at l0 ⊢; omega
    · omega
  · refine ⟨by omega, fun j hj => ?_, fun _ => a4⟩
    have l0 := le 0; have l1 := le 1; have l2 := le 2
    interval_cases j
    · simp only [Nat.add_zero] at l0 ⊢; omega
    · omega
    · omega
  · refine ⟨by omega, fun j hj => ?_, fun h => absurd h (by omega)⟩
    have l0 := le 0; have l1 := le 1; have l2 := le 2; have l3 := le 3
    interval_cases j
    · simp only [Nat.add_zero] at l0 ⊢; omega
    · omega
    · omega
    · omega

theorem skip_ok {B : Src} {S : St} {p r c : Nat} : ∀ n, (∀ j, j < n → S.sig (r + j) c = false ∧ bitAt B p (r + j) c = 0) →
    (skip B p r c n S).sig = S.sig ∧ (skip B p r c n S).ref = S.ref ∧ (skip B p r c n S).vis = S.vis ∧ (skip B p r c n S).val = S.val ∧
      ∀ r' c', S.sig r' c' = true → (skip B p r c n S).last r' c' = S.last r' c'
  | 0, _ => ⟨rfl, rfl, rfl, rfl, fun _ _ _ => rfl⟩
  | n + 1, h => by
    obtain ⟨a, b, d, e, f⟩ := skip_ok n fun j hj => h j (by omega)
    have hn := h n (by omega)
    unfold skip coded
    refine ⟨a, b, d, ?_, fun r' c' hs => ?_⟩
    · simp only
      rw [hn.2, e, Nat.zero_mul, Nat.or_zero]
      funext r' c'
      unfold put
      split_ifs with q
      · rw [q.1, q.2]
      · rfl
    · simp only
      rw [put_ne, f r' c' hs]
      intro q
      rw [q.1, q.2, hn.1] at hs
      exact absurd hs (by simp)

theorem BRel.same {B : Src} {S S' : St} {b : Blk} (R : BRel B S b) (h : S'.sig = S.sig ∧ S'.ref = S.ref ∧ S'.vis = S.vis ∧ S'.val = S.val ∧
    ∀ r' c', S.sig r' c' = true → S'.last r' c' = S.last r' c') : BRel B S' b := by
  obtain ⟨h1, h2, h3, h4, h5⟩ := h
  refine ⟨R.w, R.h, R.o, R.causal, ?_, ?_, ?_, ?_⟩
  · rw [h1, h2, h3]; exact R.st
  · rw [h1]; intro r c hs; rw [h5 r c hs]; exact R.plane r c hs
  · intro r c hr hc; rw [R.smp r c hr hc]; unfold smpOf; rw [h1, h4]
  · rw [h1]; exact R.ctx

theorem zc_congr {B : Src} {S S' : St} (h : S'.sig = S.sig) : zc B S' = zc B S := by
  funext r c
  unfold zc hSum vSum dSum seen
  rw [h]

theorem SInv.same {B : Src} {S S' : St} (I : SInv B S) (h : S'.sig = S.sig ∧ S'.ref = S.ref ∧ S'.vis = S.vis ∧ S'.val = S.val ∧
    ∀ r' c', S.sig r' c' = true → S'.last r' c' = S.last r' c') : SInv B S' := by
  obtain ⟨h1, h2, h3, h4, h5⟩ := h
  refine ⟨?_, ?_, ?_, ?_⟩
  · rw [h1]; exact I.inside
  · rw [h1, h4]; exact I.zero
  · rw [h4]; exact I.small
  · rw [h1, h3, zc_congr h1]; exact I.vis

theorem BRel.reset {B : Src} {S : St} {b : Blk} (R : BRel B S b) {p j1 j2 : Nat} (hp : p ≤ 30) (h1 : j1 < B.h) (h2 : j2 < B.w)
    (hs : S.sig (j1 + 1) (j2 + 1) = false) :
    BRel B S { b with st := upd b.st (j1 + 1) (j2 + 1) ((b.st (j1 + 1) (j2 + 1) &&& 7) ||| p * 8 % 256) } := by
  have := R.at (S' := S) (j1 := j1) (j2 := j2) (y := (b.st (j1 + 1) (j2 + 1) &&& 7) ||| p * 8 % 256) (z := b.smp j1 j2) (ctx' := b.ctx)
    (fun _ _ _ => ⟨rfl, rfl, rfl, rfl, rfl⟩) ((R.st _ _).plane hp).1 (fun h => by rw [hs] at h; exact absurd h (by simp)) (R.smp j1 j2 h1 h2) R.ctx
  rwa [upd_id] at this

/-! A column of a full stripe in the cleanup pass. -/

theorem cleanLoop_step (buf : List Nat) (p j0 j2 f k : Nat) (s : Blk × Mq) (h0 : j0 % 4 = 0) (hk : 1 ≤ k ∧ k ≤ 3) :
    cleanLoop buf p j0 j2 (f + 1) k s = (cleanCoef buf p (j0 + 4 - k) j2 false s).bind (cleanLoop buf p j0 j2 f (k - 1)) := by
  have h1 : ¬ k = 0 := by omega
  have h2 : ¬ ((j0 + 4 - k) % 4 = 0 ∧ j0 + 4 - k ≤ s.1.h - 4) := by omega
  conv => lhs; unfold cleanLoop
  rw [if_neg h1]
  simp only [if_neg h2, Except.bind, Option.getD_none, Nat.sub_zero, ne_eq, h1, not_false_eq_true, if_true, Option.isSome_none]

theorem cleanLoop_end (buf : List Nat) (p j0 j2 f : Nat) (s : Blk × Mq) : cleanLoop buf p j0 j2 (f + 1) 0 s = .ok s := by
  conv => lhs; unfold cleanLoop
  rw [if_pos rfl]

theorem rowsOf4 (r c : Nat) : rowsOf (r, c, 4) = [(r, c), (r + 1, c), (r + 2, c), (r + 3, c)] := rfl

theorem cleanLoop_sim (buf : List Nat) (B : Src) (h4 : B.o < 4) {p j0 j2 : Nat} (hp : p ≤ 30) (h0 : j0 % 4 = 0) (h1 : j0 + 4 ≤ B.h) (h2 : j2 < B.w) :
    ∀ k f, k ≤ 3 → k ≤ f → Sim false buf B (cleanLoop buf p j0 j2 (f + 1) k) (runs (cleanE B p) ((rowsOf (j0 + 1, j2 + 1, 4)).drop (4 - k)))
  | 0, f, _, _ => by
    have e : cleanLoop buf p j0 j2 (f + 1) 0 = fun s => .ok s := funext fun s => cleanLoop_end ..
    rw [e]
    exact Sim.nil false buf B _
  | k + 1, 0, _, hf => absurd hf (by omega)
  | k + 1, f + 1, hk, hf => by
    have e : cleanLoop buf p j0 j2 (f + 1 + 1) (k + 1) = fun s => (cleanCoef buf p (j0 + 4 - (k + 1)) j2 false s).bind (cleanLoop buf p j0 j2 (f + 1) k) :=
      funext fun s => cleanLoop_step _ _ _ _ _ _ _ h0 ⟨by omega, hk⟩
    rw [e]
    have hc := cleanCoef_sim buf B h4 (p := p) (j1 := j0 + 4 - (k + 1)) (j2 := j2) hp (by omega) h2
    have ih := cleanLoop_sim buf B h4 hp h0 h1 h2 k f (by omega) (by omega)
    have el : (rowsOf (j0 + 1, j2 + 1, 4)).drop (4 - (k + 1)) = (j0 + 4 - (k + 1) + 1, j2 + 1) :: (rowsOf (j0 + 1, j2 + 1, 4)).drop (4 - k) := by
      rw [rowsOf4]
      have hk3 : k = 0 ∨ k = 1 ∨ k = 2 := by omega
      rcases hk3 with rfl | rfl | rfl <;> rfl
    rw [el]
    exact Sim.cons hc ih

theorem cleanCol_sim (buf : List Nat) (B : Src) (h4 : B.o < 4) {p j0 j2 : Nat} (hp : p ≤ 30) (h0 : j0 % 4 = 0) (h1 : j0 + 4 ≤ B.h) (h2 : j2 < B.w) :
    Sim false buf B (cleanLoop buf p j0 j2 5 4) (cleanColE B p (j0 + 1, j2 + 1, 4)) := by
  intro S b m ds fin R I hf
  have eh := R.h
  have ew := R.w
  have hmask := run_mask R I h0 h2
  have hin : b.inCtx (j0 / 4 + 1) (j2 + 1) := by
    unfold Blk.inCtx
    have := rup8_div b.h
    have := le_rup8 b.w
    omega
  have hgc : b.getCtx (j0 / 4 + 1) (j2 + 1) = .ok (b.ctx (j0 / 4 + 1) (j2 + 1)) := by unfold Blk.getCtx; rw [if_pos hin]
  have hent : j0 % 4 = 0 ∧ j0 ≤ b.h - 4 := by omega
  unfold cleanLoop
  rw [if_neg (by norm_num)]
  simp only [Nat.add_sub_cancel, if_pos hent]
  unfold runMode
  simp only [hgc, Except.bind]
  by_cases hr : runOk B S (j0 + 1, j2 + 1, 4)
  · simp only [if_pos (hmask.2 hr)]
    unfold cleanColE at hf ⊢
    rw [if_pos hr] at hf ⊢
    simp only at hf ⊢
    have row : ∀ k, k < 4 → S.sig (j0 + 1 + k) (j2 + 1) = false ∧ S.vis (j0 + 1 + k) (j2 + 1) = false := fun k hk => by
      have := hr.2 (j0 + 1 + k, j2 + 1) (by unfold rowsOf; exact List.mem_map.2 ⟨k, List.mem_range.2 hk, rfl⟩)
      exact ⟨this.1, this.2.1⟩
    obtain ⟨fl, fz, fo⟩ := firstOne_spec B p (j0 + 1) (j2 + 1)
    set i := firstOne B p (j0 + 1) (j2 + 1) with hi
    have hsk := skip_ok (B := B) (S := S) (p := p) (r := j0 + 1) (c := j2 + 1) i fun j hj => ⟨(row j (by omega)).1, fz j hj⟩
    have R0 := R.same hsk
    have I0 := I.same hsk
    have hpp : ¬ (0 = 1 * 2 ^ p) := by have := Nat.two_pow_pos p; omega
    by_cases hi4 : i = 4
    · rw [if_pos hi4] at hf ⊢
      obtain ⟨m1, e1, hf1⟩ := Feeds.sym hf
      simp only [e1, if_true, Option.getD_some, Nat.sub_self, ne_eq, not_true_eq_false, if_false, Option.isSome_some]
      have s0 : S.sig (j0 + 1) (j2 + 1) = false := (row 0 (by omega)).1
      have v0 : S.vis (j0 + 1) (j2 + 1) = false := (row 0 (by omega)).2
      have hby := R.st (j0 + 1) (j2 + 1)
      have gst : b.getSt (j0 + 1) (j2 + 1) = .ok (b.st (j0 + 1) (j2 + 1)) := getSt_ok (by omega) (by omega)
      have mst : ∀ f, b.modSt (j0 + 1) (j2 + 1) f = .ok { b with st := upd b.st (j0 + 1) (j2 + 1) (f (b.st (j0 + 1) (j2 + 1))) } := fun f => modSt_ok f (by omega) (by omega)
      have gsm' : ∀ st smp ctx, ({ b with st := st, smp := smp, ctx := ctx } : Blk).getSmp j0 j2 = .ok (smp j0 j2) :=
        fun st smp ctx => getSmp_ok (by simp only; omega) (by simp only; omega)
      have hx : b.st (j0 + 1) (j2 + 1) &&& 1 = 0 ∧ b.st (j0 + 1) (j2 + 1) &&& 4 = 0 := by rw [hby.and1, hby.and4, toNat_zero]; exact ⟨s0, v0⟩
      have hz : b.smp j0 j2 = 0 := by
        rw [R.smp j0 j2 (by omega) h2]; unfold smpOf; rw [s0, I.zero _ _ s0]; simp
      unfold cleanCoef
      simp only [gst, Except.bind, if_pos hx, mst, if_true, gsm', shl_ok hp (le_refl 1), hz, if_neg hpp, cleanLoop_end, Nat.zero_sub]
      exact ⟨_, _, rfl, (R0.reset hp (by omega) h2 (by rw [hsk.1]; exact s0)), I0, hf1⟩
    · rw [if_neg hi4] at hf ⊢
      have hi3 : i < 4 := by omega
      simp only [List.cons_append] at hf
      obtain ⟨m1, e1, hf1⟩ := Feeds.sym hf
      obtain ⟨m2, e2, hf2⟩ := Feeds.sym hf1
      obtain ⟨m3, e3, hf3⟩ := Feeds.sym hf2
      have hir : i / 2 * 2 + i % 2 = i := by omega
      have osm : ∀ v, b.orSmp (j0 + i) j2 v = .ok { b with smp := upd b.smp (j0 + i) j2 (b.smp (j0 + i) j2 ||| v) } := fun v => orSmp_ok v (by omega) (by omega)
      simp only [e1, one_ne_zero, if_false, e2, e3, hir, shl_ok hp (le_refl 1), osm, Except.map, Option.getD_some, Option.isSome_some]
      have hk' : ¬ (4 - i = 0) := by omega
      simp only [ne_eq, hk', not_false_eq_true, if_true]
      rw [show j0 + 4 - (4 - i) = j0 + i by omega, show 4 - i - 1 = 3 - i by omega]
      have s0 : S.sig (j0 + i + 1) (j2 + 1) = false := by have := (row i hi3).1; rwa [show j0 + 1 + i = j0 + i + 1 by omega] at this
      have v0 : S.vis (j0 + i + 1) (j2 + 1) = false := by have := (row i hi3).2; rwa [show j0 + 1 + i = j0 + i + 1 by omega] at this
      have hb1 : bitAt B p (j0 + i + 1) (j2 + 1) = 1 := by have := fo hi3; rwa [show j0 + 1 + i = j0 + i + 1 by omega] at this
      have hby := R.st (j0 + i + 1) (j2 + 1)
      have hx : b.st (j0 + i + 1) (j2 + 1) &&& 1 = 0 ∧ b.st (j0 + i + 1) (j2 + 1) &&& 4 = 0 := by rw [hby.and1, hby.and4, toNat_zero]; exact ⟨s0, v0⟩
      have hz : b.smp (j0 + i) j2 = 0 := by
        rw [R.smp (j0 + i) j2 (by omega) h2]; unfold smpOf; rw [s0, I.zero _ _ s0]; simp
      have gst' : ∀ st smp ctx, ({ b with st := st, smp := smp, ctx := ctx } : Blk).getSt (j0 + i + 1) (j2 + 1) = .ok (st (j0 + i + 1) (j2 + 1)) :=
        fun st smp ctx => getSt_ok (by simp only; omega) (by simp only; omega)
      have mst' : ∀ st smp ctx f, ({ b with st := st, smp := smp, ctx := ctx } : Blk).modSt (j0 + i + 1) (j2 + 1) f =
          .ok { b with st := upd st (j0 + i + 1) (j2 + 1) (f (st (j0 + i + 1) (j2 + 1))), smp := smp, ctx := ctx } :=
        fun st smp ctx f => modSt_ok f (by simp only; omega) (by simp only; omega)
      have gsm' : ∀ st smp ctx, ({ b with st := st, smp := smp, ctx := ctx } : Blk).getSmp (j0 + i) j2 = .ok (smp (j0 + i) j2) :=
        fun st smp ctx => getSmp_ok (by simp only; omega) (by simp only; omega)
      unfold cleanCoef
      simp only [gst', Except.bind, if_pos hx, mst', if_true, gsm', shl_ok hp (le_refl 1), hz, Nat.zero_or, upd_same, upd_upd]
      rw [show j0 + 1 + i = j0 + i + 1 by omega] at hf3 ⊢
      obtain ⟨ctx', m4, e4, hc4, hf4⟩ := sig_tail (y := ((b.st (j0 + i + 1) (j2 + 1) &&& 7) ||| p * 8 % 256) ||| 1) (z := 1 * 2 ^ p) R0 I0 (by omega) h2 hf3
      simp only [Except.bind] at e4
      rw [e4]
      obtain ⟨R', I'⟩ := cleanE_one R0 I0 hp (by omega) h2 (by rw [hsk.1]; exact s0) hb1 hc4
      have hrest := cleanLoop_sim buf B h4 hp h0 h1 h2 (3 - i) 3 (by omega) (by omega)
      rw [show 4 - (3 - i) = i + 1 by omega] at hrest
      exact hrest _ _ m4 ds fin R' I' hf4
  · have hn := fun q => hr (hmask.1 q)
    simp only [if_neg hn, Option.getD_none, Nat.sub_zero, ne_eq, Option.isSome_none]
    rw [if_pos (by norm_num)]
    unfold cleanColE at hf ⊢
    rw [if_neg hr] at hf ⊢
    have hc := cleanCoef_sim buf B h4 (p := p) (j1 := j0) (j2 := j2) hp (by omega) h2
    have hrest := cleanLoop_sim buf B h4 hp h0 h1 h2 3 3 (by omega) (by omega)
    exact (Sim.cons (g := cleanE B p) (x := (j0 + 1, j2 + 1)) hc hrest) S b m ds fin R I hf

/-! Whole passes. -/

theorem columns_split (w h : Nat) : columns w h =
    ((List.range (h / 4)).flatMap fun s => (List.range w).map fun c => (4 * s + 1, c + 1, 4)) ++
      (if h % 4 ≠ 0 then (List.range w).map fun c => (4 * (h / 4) + 1, c + 1, h % 4) else []) := by
  have full : ∀ xs : List Nat, (∀ s ∈ xs, s < h / 4) →
      (xs.flatMap fun s => (List.range w).map fun c => (4 * s + 1, c + 1, min 4 (h - 4 * s))) = xs.flatMap fun s => (List.range w).map fun c => (4 * s + 1, c + 1, 4) := by
    intro xs
    induction xs with
    | nil => intro _; rfl
    | cons x xs ih =>
      intro hx
      rw [List.flatMap_cons, List.flatMap_cons, ih fun s hs => hx s (List.mem_cons_of_mem _ hs)]
      have := hx x (List.mem_cons_self ..)
      rw [show min 4 (h - 4 * x) = 4 by omega]
  unfold columns
  by_cases q : h % 4 = 0
  · rw [if_neg (by omega), List.append_nil, show (h + 3) / 4 = h / 4 by omega]
    exact full _ fun s hs => List.mem_range.1 hs
  · rw [if_pos q, show (h + 3) / 4 = h / 4 + 1 by omega, List.range_succ, List.flatMap_append, full _ fun s hs => List.mem_range.1 hs]
    congr 1
    rw [List.flatMap_cons, List.flatMap_nil, List.append_nil, show min 4 (h - 4 * (h / 4)) = h % 4 by omega]

theorem cols_sim {raw : Bool} {buf : List Nat} {B : Src} {F : Nat → Nat → Blk × Mq → Except DErr (Blk × Mq)} {Fr : Nat → Blk × Mq → Except DErr (Blk × Mq)}
    {G : Nat × Nat × Nat → St → St × List (Nat × Nat)}
    (hF : ∀ n j2, 4 * n + 4 ≤ B.h → j2 < B.w → Sim raw buf B (F n j2) (G (4 * n + 1, j2 + 1, 4)))
    (hFr : ∀ j2, j2 < B.w → Sim raw buf B (Fr j2) (G (4 * (B.h / 4) + 1, j2 + 1, B.h % 4))) :
    Sim raw buf B (fun s => (each (fun n s => each (fun j2 s => F n j2 s) (List.range B.w) s) (List.range (B.h / 4)) s).bind fun s =>
      if B.h % 4 ≠ 0 then each Fr (List.range B.w) s else .ok s) (runs G (columns B.w B.h)) := by
  rw [columns_split, runs_append]
  refine Sim.seq ?_ ?_
  · rw [runs_flatMap]
    have := Sim.each (raw := raw) (buf := buf) (B := B) (f := fun n s => each (fun j2 s => F n j2 s) (List.range B.w) s)
      (g := fun s => runs G ((List.range B.w).map fun c => (4 * s + 1, c + 1, 4))) id (List.range (B.h / 4)) (fun n hn => by
        have hn' := List.mem_range.1 hn
        exact Sim.each (f := fun j2 s => F n j2 s) (g := G) (fun c => (4 * n + 1, c + 1, 4)) (List.range B.w)
          fun j2 hj => hF n j2 (by omega) (List.mem_range.1 hj))
    rwa [List.map_id] at this
  · by_cases q : B.h % 4 ≠ 0
    · simp only [if_pos q]
      exact Sim.each (g := G) (fun c => (4 * (B.h / 4) + 1, c + 1, B.h % 4)) (List.range B.w) fun j2 hj => hFr j2 (List.mem_range.1 hj)
    · simp only [if_neg q]
      exact Sim.nil raw buf B G

theorem stripes_sim {raw : Bool} {buf : List Nat} {B : Src} {f : Nat → Nat → Blk × Mq → Except DErr (Blk × Mq)} {g : Nat × Nat → St → St × List (Nat × Nat)}
    (hh : B.h < 2 ^ 18) (hs : ∀ j1 j2, j1 < B.h → j2 < B.w → Sim raw buf B (f j1 j2) (g (j1 + 1, j2 + 1))) :
    Sim raw buf B (stripes f B.w B.h) (runs g (scan B.w B.h)) := by
  unfold scan
  rw [runs_flatMap]
  unfold stripes
  simp only
  rw [Nat.mod_eq_of_lt (show B.h / 4 < 65536 by omega)]
  have col : ∀ j0 n j2, j0 + n ≤ B.h → j2 < B.w → Sim raw buf B (each (fun ri s => f (j0 + ri) j2 s) (List.range n)) (runs g (rowsOf (j0 + 1, j2 + 1, n))) := by
    intro j0 n j2 h1 h2
    unfold rowsOf
    refine Sim.each (g := g) (fun i => (j0 + 1 + i, j2 + 1)) (List.range n) fun i hi => ?_
    have := List.mem_range.1 hi
    have := hs (j0 + i) j2 (by omega) h2
    rwa [show j0 + i + 1 = j0 + 1 + i by omega] at this
  exact cols_sim (F := fun n j2 s => each (fun ri s => f (4 * n + ri) j2 s) [0, 1, 2, 3] s)
    (Fr := fun j2 s => each (fun i s => f (4 * (B.h / 4) + i) j2 s) (List.range (B.h % 4)) s) (G := fun x => runs g (rowsOf x))
    (fun n j2 h1 h2 => col (4 * n) 4 j2 h1 h2) (fun j2 h2 => col (4 * (B.h / 4)) (B.h % 4) j2 (by omega) h2)

/-- Simulations need only agree on blocks of the right size. -/
theorem Sim.congr {raw : Bool} {buf : List Nat} {B : Src} {f f' : Blk × Mq → Except DErr (Blk × Mq)} {g : St → St × List (Nat × Nat)} (h : Sim raw buf B f g)
    (e : ∀ b m, b.w = B.w → b.h = B.h → f' (b, m) = f (b, m)) : Sim raw buf B f' g := by
  intro S b m ds fin R I hf
  rw [e b m R.w R.h]
  exact h S b m ds fin R I hf

theorem sigPass_sim (raw : Bool) (buf : List Nat) (B : Src) (h4 : B.o < 4) (hh : B.h < 2 ^ 18) {p : Nat} (hp : p ≤ 30) :
    Sim raw buf B (sigPass raw buf p) (Std.sigPassE raw B p) :=
  (stripes_sim hh fun _ _ h1 h2 => sigStep_sim raw buf B h4 hp h1 h2).congr fun b m hw hh => by unfold sigPass; simp only [hw, hh]

theorem magPass_sim (raw : Bool) (buf : List Nat) (B : Src) (h4 : B.o < 4) (hh : B.h < 2 ^ 18) {p : Nat} (hp : p ≤ 30) :
    Sim raw buf B (magPass raw buf p) (Std.magPassE B p) :=
  (stripes_sim hh fun _ _ h1 h2 => magStep_sim raw buf B h4 hp h1 h2).congr fun b m hw hh => by unfold magPass; simp only [hw, hh]

theorem cleanColE_short {B : Src} {p r c n : Nat} (hn : n ≠ 4) : cleanColE B p (r, c, n) = runs (cleanE B p) (rowsOf (r, c, n)) := by
  funext S
  unfold cleanColE
  rw [if_neg (fun h => hn h.1)]

theorem cleanPass_sim (buf : List Nat) (B : Src) (h4 : B.o < 4) (hh : B.h < 2 ^ 18) {p : Nat} (hp : p ≤ 30) :
    Sim false buf B (cleanPass buf p) (Std.cleanPassE B p) := by
  have key : Sim false buf B (cleanCols buf p B.w B.h) (Std.cleanPassE B p) := by
    unfold cleanCols
    simp only
    rw [Nat.mod_eq_of_lt (show B.h / 4 < 65536 by omega)]
    refine cols_sim (F := fun n j2 s => cleanLoop buf p (4 * n) j2 5 4 s)
      (Fr := fun j2 s => each (fun i s => cleanRest buf p (4 * (B.h / 4) + i) j2 s) (List.range (B.h % 4)) s) (G := cleanColE B p)
      (fun n j2 h1 h2 => cleanCol_sim buf B h4 hp (by omega) h1 h2) (fun j2 h2 => ?_)
    rw [cleanColE_short (by omega)]
    unfold rowsOf
    refine Sim.each (g := cleanE B p) (fun i => (4 * (B.h / 4) + 1 + i, j2 + 1)) (List.range (B.h % 4)) fun i hi => ?_
    have := List.mem_range.1 hi
    have := cleanRest_sim buf B h4 (p := p) (j1 := 4 * (B.h / 4) + i) (j2 := j2) hp (by omega) h2
    rwa [show 4 * (B.h / 4) + i + 1 = 4 * (B.h / 4) + 1 + i by omega] at this
  exact key.congr fun b m hw hh => by unfold cleanPass; simp only [hw, hh]

/-! The first state. -/

theorem fresh_rel (B : Src) (top : Nat) : BRel B (Std.initSt top) (freshBlk B.w B.h B.o B.causal) := by
  refine ⟨rfl, rfl, rfl, rfl, fun r c => ⟨by norm_num [freshBlk], by simp [freshBlk, Std.initSt], by simp [freshBlk, Std.initSt], by simp [freshBlk, Std.initSt]⟩, fun r c h => ?_, fun r c _ _ => ?_, fun s c i d _ _ _ => ?_⟩
  · simp [Std.initSt] at h
  · simp [freshBlk, smpOf, Std.initSt]
  · simp [Std.initSt, freshBlk]

theorem fresh_inv (B : Src) (top : Nat) : SInv B (Std.initSt top) := by
  refine ⟨fun r c h => ?_, fun r c _ => rfl, fun r c => by norm_num [Std.initSt], fun r c h => ?_⟩ <;> simp [Std.initSt] at h

end Verif.Ebcot
