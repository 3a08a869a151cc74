import Verif.Simd.HtLaneLemmas
/-
From lanes to rows.
-/
namespace Verif.Simd
open Verif.Ebcot

theorem map_ok {ε α β : Type} {x : Except ε α} {f : α → β} {b : β} (h : x.map f = .ok b) : ∃ a, x = .ok a ∧ f a = b := by
  cases x with
  | error e => cases h
  | ok a => exact ⟨a, rfl, by simpa [Except.map] using h⟩

theorem lanes_pos (a : Arch) : 0 < a.lanes := by cases a <;> decide

/-- A group of samples, one after the other. -/
theorem dequantRow_split (x : CbIn) (b : Blk) (y : Nat) (n : Nat) : ∀ (c : Nat) (rest : List Nat) (r : List Int),
    dequantRow x b y (List.range' c n ++ rest) = .ok r →
    ∃ v st q r', loadN (b.getSmp y) c n = .ok v ∧ loadN (fun c => b.getSt (y + 1) (c + 1)) c n = .ok st ∧ q.length = n ∧
      (∀ i (hi : i < q.length), dequantRev x.mb x.roi (v.getD i 0) (st.getD i 0) = .ok q[i]) ∧ dequantRow x b y rest = .ok r' ∧ r = q ++ r' := by
  induction n with
  | zero =>
    intro c rest r h
    exact ⟨[], [], [], r, rfl, rfl, rfl, (by intro i hi; cases hi), h, rfl⟩
  | succ n ih =>
    intro c rest r h
    rw [List.range'_succ, List.cons_append, dequantRow] at h
    obtain ⟨v0, hv, h⟩ := bind_ok h
    obtain ⟨s0, hs, h⟩ := bind_ok h
    obtain ⟨q0, hq, h⟩ := bind_ok h
    obtain ⟨r1, hr, h⟩ := map_ok h
    obtain ⟨v, st, q, r', l1, l2, l3, l4, l5, l6⟩ := ih (c + 1) rest r1 hr
    refine ⟨v0 :: v, s0 :: st, q0 :: q, r', ?_, ?_, by simp [l3], ?_, l5, by rw [← h, l6]; rfl⟩
    · rw [loadN, hv, l1]; rfl
    · rw [loadN, hs, l2]; rfl
    · intro i hi
      cases i with
      | zero => simpa using hq
      | succ i =>
        simp only [List.length_cons] at hi
        simpa using l4 i (by omega)

theorem dequantIrrRow_split (x : CbIn) (scale : Int) (b : Blk) (y : Nat) (n : Nat) : ∀ (c : Nat) (rest : List Nat) (r : List Int),
    dequantIrrRow x scale b y (List.range' c n ++ rest) = .ok r →
    ∃ v st q r', loadN (b.getSmp y) c n = .ok v ∧ loadN (fun c => b.getSt (y + 1) (c + 1)) c n = .ok st ∧ q.length = n ∧
      (∀ i (hi : i < q.length), dequantIrr x.mb x.roi scale (v.getD i 0) (st.getD i 0) = .ok q[i]) ∧ dequantIrrRow x scale b y rest = .ok r' ∧ r = q ++ r' := by
  induction n with
  | zero =>
    intro c rest r h
    exact ⟨[], [], [], r, rfl, rfl, rfl, (by intro i hi; cases hi), h, rfl⟩
  | succ n ih =>
    intro c rest r h
    rw [List.range'_succ, List.cons_append, dequantIrrRow] at h
    obtain ⟨v0, hv, h⟩ := bind_ok h
    obtain ⟨s0, hs, h⟩ := bind_ok h
    obtain ⟨q0, hq, h⟩ := bind_ok h
    obtain ⟨r1, hr, h⟩ := map_ok h
    replace hv := mapError_ok hv
    replace hs := mapError_ok hs
    obtain ⟨v, st, q, r', l1, l2, l3, l4, l5, l6⟩ := ih (c + 1) rest r1 hr
    refine ⟨v0 :: v, s0 :: st, q0 :: q, r', ?_, ?_, by simp [l3], ?_, l5, by rw [← h, l6]; rfl⟩
    · rw [loadN, hv, l1]; rfl
    · rw [loadN, hs, l2]; rfl
    · intro i hi
      cases i with
      | zero => simpa using hq
      | succ i =>
        simp only [List.length_cons] at hi
        simpa using l4 i (by omega)

/-- Every lane of a build gives what the scalar code gives. -/
theorem rev_lane (a : Arch) {mb roi : Nat} (v st : List Nat) (i : Fin a.lanes) {q : Int} (h : dequantRev mb roi (v.getD i 0) (st.getD i 0) = .ok q) :
    (a.rev mb roi (fun i => BitVec.ofNat 32 (v.getD i 0)) (fun i => BitVec.ofNat 8 (st.getD i 0)) i).toInt = q := by
  have hm : mb < 31 := by
    unfold dequantRev at h
    split at h
    · cases h
    · omega
  cases a with
  | avx2 => exact (congrArg BitVec.toInt (revAvx2_lane mb roi _ _ i)).trans (revL_ok h)
  | avx512 => exact (congrArg BitVec.toInt (revAvx512_lane mb roi _ _ i)).trans (revL_ok h)
  | neon => exact (congrArg BitVec.toInt (revNeon_lane mb roi hm _ (fun i => st.getD i 0) i)).trans (revL_ok h)

theorem irr_lane (a : Arch) {mb roi : Nat} {scale : Int} (hs1 : -2 ^ 31 ≤ scale) (hs2 : scale < 2 ^ 31) (v st : List Nat) (i : Fin a.lanes) {q : Int}
    (h : dequantIrr mb roi scale (v.getD i 0) (st.getD i 0) = .ok q) :
    (a.irr mb roi scale (fun i => BitVec.ofNat 32 (v.getD i 0)) (fun i => BitVec.ofNat 8 (st.getD i 0)) i).toInt = q := by
  have hm : mb < 31 := by
    unfold dequantIrr at h
    split at h
    · cases h
    · omega
  cases a with
  | avx2 => exact (congrArg BitVec.toInt (irrAvx2_lane mb roi scale _ _ i)).trans (irrL_ok hs1 hs2 h)
  | avx512 => exact (congrArg BitVec.toInt (irrAvx512_lane mb roi scale _ _ i)).trans (irrL_ok hs1 hs2 h)
  | neon => exact (congrArg BitVec.toInt (irrNeon_lane mb roi hm scale _ (fun i => st.getD i 0) i)).trans (irrL_ok hs1 hs2 h)

theorem ofFn_group {k : Nat} (f : Fin k → Int) (q : List Int) (hl : q.length = k) (h : ∀ i : Fin k, f i = q[i.val]'(by omega)) : List.ofFn f = q := by
  apply List.ext_getElem
  · simp [hl]
  · intro i h1 h2
    simp only [List.getElem_ofFn]
    exact h ⟨i, by omega⟩

theorem range'_split (c n w : Nat) (h : c + n ≤ w) : List.range' c (w - c) = List.range' c n ++ List.range' (c + n) (w - (c + n)) := by
  rw [show w - c = n + (w - (c + n)) by omega, ← List.range'_append]
  simp

theorem revRow_ok (a : Arch) (x : CbIn) (b : Blk) (y : Nat) : ∀ (m c : Nat) (r : List Int), x.w - c ≤ m →
    dequantRow x b y (List.range' c (x.w - c)) = .ok r → revRow a x b y c = .ok r := by
  intro m
  induction m with
  | zero =>
    intro c r hm h
    rw [revRow, if_neg (by have := lanes_pos a; omega)]
    exact h
  | succ m ih =>
    intro c r hm h
    rw [revRow]
    by_cases hc : c + a.lanes ≤ x.w
    · rw [if_pos ⟨lanes_pos a, hc⟩]
      rw [range'_split c a.lanes x.w hc] at h
      obtain ⟨v, st, q, r', l1, l2, l3, l4, l5, rfl⟩ := dequantRow_split x b y a.lanes c _ r h
      have hmb : ¬ 31 ≤ x.mb := by
        have := lanes_pos a
        have h0 := l4 0 (by omega)
        unfold dequantRev at h0
        split at h0
        · cases h0
        · assumption
      rw [if_neg hmb, l1, l2]
      simp only [Except.bind]
      rw [ih (c + a.lanes) r' (by have := lanes_pos a; omega) l5]
      simp only [Except.map]
      rw [ofFn_group _ q l3 (fun i => rev_lane a v st i (l4 i.val (by omega)))]
    · rw [if_neg (fun g => hc g.2)]
      exact h

theorem irrRow_ok (a : Arch) (x : CbIn) {scale : Int} (hs1 : -2 ^ 31 ≤ scale) (hs2 : scale < 2 ^ 31) (b : Blk) (y : Nat) : ∀ (m c : Nat) (r : List Int), x.w - c ≤ m →
    dequantIrrRow x scale b y (List.range' c (x.w - c)) = .ok r → irrRow a x scale b y c = .ok r := by
  intro m
  induction m with
  | zero =>
    intro c r hm h
    rw [irrRow, if_neg (by have := lanes_pos a; omega)]
    exact h
  | succ m ih =>
    intro c r hm h
    rw [irrRow]
    by_cases hc : c + a.lanes ≤ x.w
    · rw [if_pos ⟨lanes_pos a, hc⟩]
      rw [range'_split c a.lanes x.w hc] at h
      obtain ⟨v, st, q, r', l1, l2, l3, l4, l5, rfl⟩ := dequantIrrRow_split x scale b y a.lanes c _ r h
      have hmb : ¬ 31 ≤ x.mb := by
        have := lanes_pos a
        have h0 := l4 0 (by omega)
        unfold dequantIrr at h0
        split at h0
        · cases h0
        · assumption
      rw [if_neg hmb, l1, l2]
      simp only [Except.bind, Except.mapError]
      rw [ih (c + a.lanes) r' (by have := lanes_pos a; omega) l5]
      simp only [Except.map]
      rw [ofFn_group _ q l3 (fun i => irr_lane a hs1 hs2 v st i (l4 i.val (by omega)))]
    · rw [if_neg (fun g => hc g.2)]
      exact h

theorem revRows_ok (a : Arch) (x : CbIn) (b : Blk) : ∀ (l : List Nat) (r : List (List Int)), dequantRows x b l = .ok r → revRows a x b l = .ok r := by
  intro l
  induction l with
  | nil => intro r h; exact h
  | cons y l ih =>
    intro r h
    rw [dequantRows] at h
    obtain ⟨r0, h0, h⟩ := bind_ok h
    obtain ⟨rs, h1, h⟩ := map_ok h
    rw [revRows, revRow_ok a x b y x.w 0 r0 (by omega) (by rw [← List.range_eq_range']; exact h0)]
    simp only [Except.bind]
    rw [ih rs h1, ← h]
    rfl

theorem irrRows_ok (a : Arch) (x : CbIn) {scale : Int} (hs1 : -2 ^ 31 ≤ scale) (hs2 : scale < 2 ^ 31) (b : Blk) :
    ∀ (l : List Nat) (r : List (List Int)), dequantIrrRows x scale b l = .ok r → irrRows a x scale b l = .ok r := by
  intro l
  induction l with
  | nil => intro r h; exact h
  | cons y l ih =>
    intro r h
    rw [dequantIrrRows] at h
    obtain ⟨r0, h0, h⟩ := bind_ok h
    obtain ⟨rs, h1, h⟩ := map_ok h
    rw [irrRows, irrRow_ok a x hs1 hs2 b y x.w 0 r0 (by omega) (by rw [← List.range_eq_range']; exact h0)]
    simp only [Except.bind]
    rw [ih rs h1, ← h]
    rfl

theorem htRow_split {ε : Type} (f : Nat → Except ε Int) (smp : Nat → Nat) (n : Nat) : ∀ (c : Nat) (rest : List Nat) (r : List Int),
    htRow f smp (List.range' c n ++ rest) = .ok r →
    ∃ q r', q.length = n ∧ (∀ i (hi : i < q.length), f (smp (c + i)) = .ok q[i]) ∧ htRow f smp rest = .ok r' ∧ r = q ++ r' := by
  induction n with
  | zero =>
    intro c rest r h
    exact ⟨[], r, rfl, (by intro i hi; cases hi), h, rfl⟩
  | succ n ih =>
    intro c rest r h
    rw [List.range'_succ, List.cons_append, htRow] at h
    obtain ⟨q0, hq, h⟩ := bind_ok h
    obtain ⟨r1, hr, h⟩ := map_ok h
    obtain ⟨q, r', l3, l4, l5, l6⟩ := ih (c + 1) rest r1 hr
    refine ⟨q0 :: q, r', by simp [l3], ?_, l5, by rw [← h, l6]; rfl⟩
    intro i hi
    cases i with
    | zero => simpa using hq
    | succ i =>
      simp only [List.length_cons] at hi
      have := l4 i (by omega)
      rw [show c + 1 + i = c + (i + 1) by omega] at this
      simpa using this

theorem htRowSimd_ok {ε : Type} {k : Nat} (g : V k → V k) (f : Nat → Except ε Int)
    (hg : ∀ (val : Fin k → Nat) (i : Fin k) (q : Int), f (val i) = .ok q → (g (fun i => BitVec.ofNat 32 (val i)) i).toInt = q) (w : Nat) (smp : Nat → Nat) :
    ∀ (m c : Nat) (r : List Int), w - c ≤ m → htRow f smp (List.range' c (w - c)) = .ok r → htRowSimd k g f w smp c = .ok r := by
  intro m
  induction m with
  | zero =>
    intro c r hm h
    rw [htRowSimd, if_neg (by omega)]
    exact h
  | succ m ih =>
    intro c r hm h
    rw [htRowSimd]
    by_cases hc : 0 < k ∧ c + 2 * k ≤ w
    · rw [if_pos hc]
      rw [range'_split c k w (by omega), range'_split (c + k) k w (by omega)] at h
      obtain ⟨q1, r1, l1, l2, l3, rfl⟩ := htRow_split f smp k c _ r h
      obtain ⟨q2, r2, m1, m2, m3, rfl⟩ := htRow_split f smp k (c + k) _ r1 l3
      rw [show c + k + k = c + 2 * k by omega] at m3
      simp only
      rw [ih (c + 2 * k) r2 (by omega) m3]
      simp only [Except.map]
      rw [ofFn_group _ q1 l1 (fun i => hg (fun i => smp (c + i)) i _ (l2 i.val (by omega))),
        ofFn_group _ q2 m1 (fun i => hg (fun i => smp (c + k + i)) i _ (m2 i.val (by omega)))]
    · rw [if_neg hc]
      exact h

end Verif.Simd
