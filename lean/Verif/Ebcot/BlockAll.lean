import Verif.Ebcot.BlockRound
/-
`j2k_decode` recovers the encoder's state.
-/
namespace Verif.Ebcot
open Std (Src St Modes)

theorem and_pow (a k : Nat) : a &&& 2 ^ k ≠ 0 ↔ a.testBit k = true := by
  constructor
  · intro h
    by_contra c
    refine h (Nat.eq_of_testBit_eq fun i => ?_)
    rw [Nat.testBit_and, Nat.testBit_two_pow, Nat.zero_testBit]
    by_cases e : k = i
    · subst e; simpa using c
    · simp [e]
  · intro h c
    have := congrArg (fun v => v.testBit k) c
    simp [h] at this

/-! The passes of a segment. -/

/-- The input is that of the code-block `B` with style `M`, bit-planes from `top` on. -/
structure Fits' (x : CbIn) (B : Src) (M : Modes) (top n : Nat) : Prop where
  w : x.w = B.w
  h : x.h = B.h
  o : x.orient = B.o
  o4 : B.o < 4
  h18 : B.h < 2 ^ 18
  causal : B.causal = x.cmodes.testBit 3
  modes : M = Std.modesOf x.cmodes
  top : top + x.zbp = 30
  num : x.num = n
  passes : (n : Int) ≤ x.maxPasses
  room : x.mb + x.roi ≤ 31

theorem Fits'.le {x : CbIn} {B : Src} {M : Modes} {top n : Nat} (h : Fits' x B M top n) : n ≤ 3 * top + 1 ∧ top ≤ 30 := by
  have h1 := h.passes; have h2 := h.room; have h3 := h.top
  unfold CbIn.maxPasses at h1
  omega

/-- Before a pass. -/
structure Mid (x : CbIn) (B : Src) (M : Modes) (top z c : Nat) (raw : Bool) (s : DecSt) (K : Mq → Prop) : Prop where
  iz : s.z = z
  ik : s.k = (z + 2) % 3
  ip : s.p = Std.planeOf top z
  icsp : s.csp = c
  ibyp : s.byp = raw
  iraw : Std.isRaw M z = raw
  rel : BRel B (Std.stAt B M top z) s.b
  inv : SInv B (Std.stAt B M top z)
  feed : SegFeeds B M top raw x.buf c z s.m K

theorem segMark_ok {buf : List Nat} {m : Mq} {K : Mq → Prop} (h : Feeds false buf m [(18, 1), (18, 0), (18, 1), (18, 0)] K) :
    ∃ m', segMark buf m = .ok m' ∧ K m' := by
  obtain ⟨m1, e1, h⟩ := h.sym
  obtain ⟨m2, e2, h⟩ := h.sym
  obtain ⟨m3, e3, h⟩ := h.sym
  obtain ⟨m4, e4, h⟩ := h.sym
  refine ⟨m4, ?_, h⟩
  simp [segMark, e1, e2, e3, e4, Except.bind]

theorem pass_run {x : CbIn} {B : Src} {M : Modes} {top n : Nat} (hx : Fits' x B M top n) {z c : Nat} {raw : Bool} {s : DecSt} {K : Mq → Prop}
    (hz : z < n) (hc : c < 255) (h : Mid x B M top z (c + 1) raw s K) :
    ∃ s', x.pass s = .ok s' ∧ s'.z = z + 1 ∧ s'.k = (z + 2) % 3 + 1 ∧ s'.p = Std.planeOf top z ∧ s'.csp = c ∧ s'.byp = raw ∧ s'.pos = s.pos ∧
      BRel B (Std.stAt B M top (z + 1)) s'.b ∧ SInv B (Std.stAt B M top (z + 1)) ∧ SegFeeds B M top raw x.buf c (z + 1) s'.m K := by
  obtain ⟨hn, ht⟩ := hx.le
  have hp : Std.planeOf top z ≤ 30 := by unfold Std.planeOf; omega
  have hres : (if s.z = 0 ∨ x.cmodes &&& 2 ≠ 0 then initStates s.m else s.m) = resetIf M z s.m := by
    refine if_congr ?_ rfl rfl
    rw [h.iz, hx.modes]
    exact or_congr Iff.rfl (and_pow x.cmodes 1)
  have hfeed := h.feed
  simp only [SegFeeds] at hfeed
  have hst : Std.stAt B M top (z + 1) = (Std.passE B M top z (Std.stAt B M top z)).1 := rfl
  have key : ∃ b' m', (if s.k = 0 then sigPass s.byp x.buf s.p (s.b, resetIf M z s.m)
      else if s.k = 1 then magPass s.byp x.buf s.p (s.b, resetIf M z s.m)
      else (cleanPass x.buf s.p (s.b, resetIf M z s.m)).bind fun q => if x.cmodes &&& 32 ≠ 0 then (segMark x.buf q.2).map fun m => (q.1, m) else .ok q) =
        .ok (b', m') ∧ BRel B (Std.stAt B M top (z + 1)) b' ∧ SInv B (Std.stAt B M top (z + 1)) ∧ SegFeeds B M top raw x.buf c (z + 1) m' K := by
    rw [h.ibyp, h.ip, h.ik, hst]
    unfold Std.decAt at hfeed
    unfold Std.passE at hfeed ⊢
    rcases (show z % 3 = 0 ∨ z % 3 = 1 ∨ z % 3 = 2 by omega) with h3 | h3 | h3
    · have hraw : raw = false := by rw [← h.iraw]; unfold Std.isRaw; simp [h3]
      subst hraw
      rw [if_neg (by omega), if_neg (by omega)]
      simp only [if_pos h3] at hfeed ⊢
      have h5 : (x.cmodes &&& 32 ≠ 0) ↔ M.segMark = true := by
        rw [hx.modes]
        simp only [Std.modesOf]
        exact and_pow x.cmodes 5
      obtain ⟨b', m', e, r1, r2, r3⟩ := cleanPass_sim x.buf B hx.o4 hx.h18 hp _ _ _ _ _ h.rel h.inv hfeed
      simp only [e, Except.bind]
      by_cases hm : M.segMark = true
      · rw [if_pos hm] at r3
        obtain ⟨m2, e2, r4⟩ := segMark_ok r3
        rw [if_pos (h5.2 hm), e2]
        exact ⟨b', m2, rfl, r1, r2, r4⟩
      · rw [if_neg hm] at r3
        rw [if_neg (fun q => hm (h5.1 q))]
        exact ⟨b', m', rfl, r1, r2, r3⟩
    · rw [if_pos (by omega)]
      simp only [if_neg (show ¬z % 3 = 0 by omega), if_pos h3] at hfeed ⊢
      rw [h.iraw] at hfeed ⊢
      exact sigPass_sim raw x.buf B hx.o4 hx.h18 hp _ _ _ [] _ h.rel h.inv (by rw [List.append_nil]; exact hfeed)
    · rw [if_neg (by omega), if_pos (by omega)]
      simp only [if_neg (show ¬z % 3 = 0 by omega), if_neg (show ¬z % 3 = 1 by omega)] at hfeed ⊢
      exact magPass_sim raw x.buf B hx.o4 hx.h18 hp _ _ _ [] _ h.rel h.inv (by rw [List.append_nil]; exact hfeed)
  obtain ⟨b', m', e, r1, r2, r3⟩ := key
  refine ⟨{ s with b := b', m := m', csp := (s.csp + 255) % 256, z := s.z + 1, k := s.k + 1 }, ?_, ?_, ?_, h.ip, ?_, h.ibyp, rfl, r1, r2, r3⟩
  · unfold CbIn.pass
    simp only [hres]
    rw [e]
    rfl
  · simp only [h.iz]
  · simp only [h.ik]
  · simp only [h.icsp]; omega

/-- Between two passes; the next one is pass `z`. -/
structure Gap (x : CbIn) (B : Src) (M : Modes) (top n z : Nat) (s : DecSt) : Prop where
  iz : s.z = z
  ikp : z < n → (turn s).k = (z + 2) % 3 ∧ (turn s).p = Std.planeOf top z
  rel : BRel B (Std.stAt B M top z) s.b
  inv : SInv B (Std.stAt B M top z)

theorem turn_keeps (s : DecSt) : (turn s).z = s.z ∧ (turn s).csp = s.csp ∧ (turn s).pos = s.pos ∧ (turn s).byp = s.byp ∧ (turn s).b = s.b ∧ (turn s).m = s.m := by
  unfold turn
  split_ifs <;> simp

theorem turn_next {top n z : Nat} (hn : n ≤ 3 * top + 1) (ht : top ≤ 30) {s : DecSt} (hk : s.k = (z + 2) % 3 + 1) (hp : s.p = Std.planeOf top z) (hz : z + 1 < n) :
    (turn s).k = (z + 1 + 2) % 3 ∧ (turn s).p = Std.planeOf top (z + 1) := by
  unfold turn
  unfold Std.planeOf at *
  by_cases h3 : s.k = 3
  · rw [if_pos h3]
    simp only
    constructor <;> omega
  · rw [if_neg h3]
    constructor <;> omega

/-- A pass that does not end the segment is followed by one of the same kind. -/
theorem raw_next {M : Modes} {n z : Nat} (h : Std.ends M n z = false) : Std.isRaw M (z + 1) = Std.isRaw M z := by
  unfold Std.ends at h
  unfold Std.isRaw
  simp only [Bool.or_eq_false_iff, Bool.and_eq_false_iff, decide_eq_false_iff_not, Bool.not_eq_false'] at h
  rcases h with ⟨-, (h | h) | h⟩
  · simp [h]
  · rw [show decide (10 ≤ z + 1) = false by simpa using h, show decide (10 ≤ z) = false by simp; omega]
    simp
  · rw [decide_eq_true_eq] at h
    rw [show decide (z % 3 = 0) = false by simp [h], show decide ((z + 1) % 3 = 0) = false by simp; omega]
    congr 2
    rw [decide_eq_decide]
    omega

/-! Where segments end. -/

theorem segCount_spec (M : Modes) (n : Nat) : ∀ f z, f = n - z → z < n →
    1 ≤ Std.segCount M n f z ∧ z + Std.segCount M n f z ≤ n ∧ Std.ends M n (z + Std.segCount M n f z - 1) = true ∧
      ∀ j, j + 1 < Std.segCount M n f z → Std.ends M n (z + j) = false := by
  intro f
  induction f with
  | zero => intro z h1 h2; omega
  | succ f ih =>
    intro z h1 h2
    simp only [Std.segCount]
    by_cases he : Std.ends M n z = true
    · rw [if_pos he]
      exact ⟨by omega, by omega, he, fun j hj => by omega⟩
    · rw [if_neg he]
      have he' : Std.ends M n z = false := by simpa using he
      have hlt : z + 1 < n := by
        by_contra c
        have : z + 1 = n := by omega
        unfold Std.ends at he'
        simp [this] at he'
      obtain ⟨i1, i2, i3, i4⟩ := ih (z + 1) (by omega) hlt
      refine ⟨by omega, by omega, ?_, fun j hj => ?_⟩
      · rw [show z + (1 + Std.segCount M n f (z + 1)) - 1 = z + 1 + Std.segCount M n f (z + 1) - 1 by omega]
        exact i3
      · cases j with
        | zero => exact he'
        | succ j =>
          have := i4 j (by omega)
          rwa [show z + 1 + j = z + (j + 1) by omega] at this

theorem segCount_unique {M : Modes} {n z c : Nat} (hz : z < n) (hc : 1 ≤ c) (h1 : Std.ends M n (z + c - 1) = true)
    (h2 : ∀ j, j + 1 < c → Std.ends M n (z + j) = false) : Std.segCount M n (n - z) z = c := by
  obtain ⟨i1, i2, i3, i4⟩ := segCount_spec M n (n - z) z rfl hz
  set k := Std.segCount M n (n - z) z
  rcases Nat.lt_trichotomy k c with h | h | h
  · have := h2 (k - 1) (by omega)
    rw [show z + (k - 1) = z + k - 1 by omega, i3] at this
    simp at this
  · exact h
  · have := i4 (c - 1) (by omega)
    rw [show z + (c - 1) = z + c - 1 by omega, h1] at this
    simp at this

/-- A segment can begin with pass `z`. -/
def StartOk (M : Modes) (z : Nat) : Prop := z = 0 ∨ M.termAll = true ∨ M.bypass = true ∧ 10 ≤ z ∧ z % 3 ≠ 2

theorem start_next {M : Modes} {n z : Nat} (h : Std.ends M n z = true) (hz : z + 1 < n) : StartOk M (z + 1) := by
  unfold Std.ends at h
  unfold StartOk
  simp only [Bool.or_eq_true, Bool.and_eq_true, decide_eq_true_eq, Bool.not_eq_true', decide_eq_false_iff_not] at h
  rcases h with (h | h) | ⟨⟨h1, h2⟩, h3⟩
  · exact Or.inr (Or.inl h)
  · omega
  · exact Or.inr (Or.inr ⟨h1, by omega, by omega⟩)

/-- block_decoding.cpp:520-546 agrees with Tables D.8 and D.9. -/
theorem segPasses_ok {x : CbIn} {B : Src} {M : Modes} {top n : Nat} (hx : Fits' x B M top n) {s : DecSt} {z : Nat} (hz : z < n) (h1 : s.z = z)
    (h2 : s.k = (z + 2) % 3) (hb : s.byp = true → M.bypass = true ∧ 10 ≤ z) (hs : StartOk M z) :
    x.segPasses s = (Std.segCount M n (n - z) z, Std.isRaw M z) := by
  have b0 : (x.cmodes &&& 1 ≠ 0) ↔ M.bypass = true := by
    rw [hx.modes]; exact and_pow x.cmodes 0
  have b2 : (x.cmodes &&& 4 ≠ 0) ↔ M.termAll = true := by
    rw [hx.modes]; exact and_pow x.cmodes 2
  have hp := hx.passes
  have hm : x.maxPasses ≤ 91 := by have := hx.room; unfold CbIn.maxPasses; omega
  unfold CbIn.segPasses
  simp only [b0, b2, h1, h2, hx.num]
  have ends_iff : ∀ j, Std.ends M n j = true ↔ (M.termAll = true ∨ j + 1 = n) ∨ (M.bypass = true ∧ 9 ≤ j) ∧ ¬j % 3 = 1 := by
    intro j
    unfold Std.ends
    simp only [Bool.or_eq_true, Bool.and_eq_true, decide_eq_true_eq, Bool.not_eq_true', decide_eq_false_iff_not]
  have ends_not : ∀ j, ¬((M.termAll = true ∨ j + 1 = n) ∨ (M.bypass = true ∧ 9 ≤ j) ∧ ¬j % 3 = 1) → Std.ends M n j = false := by
    intro j hj
    rw [← ends_iff] at hj
    simpa using hj
  have raw_iff : ∀ b : Bool, (b = true ↔ (M.bypass = true ∧ 10 ≤ z) ∧ ¬z % 3 = 0) → b = Std.isRaw M z := by
    intro b hb
    rw [Bool.eq_iff_iff, hb]
    unfold Std.isRaw
    simp only [Bool.and_eq_true, decide_eq_true_eq, Bool.not_eq_true', decide_eq_false_iff_not]
  by_cases hby : M.bypass = true
  · rw [if_pos hby]
    have hbyp : z < 10 → s.byp = Std.isRaw M z := by
      intro hlt
      refine raw_iff _ ⟨fun h => ?_, fun h => ?_⟩
      · have := hb h; omega
      · omega
    by_cases hta : M.termAll = true
    · simp only [if_pos hta]
      rw [if_neg (by omega), segCount_unique hz le_rfl ((ends_iff _).2 (Or.inl (Or.inl hta))) (fun j hj => by omega)]
      congr 1
      split_ifs with q1 q2
      · exact hbyp q1
      · refine raw_iff _ ⟨fun h => by simp at h, fun h => by omega⟩
      · refine raw_iff _ ⟨fun h => ⟨⟨hby, by omega⟩, by omega⟩, fun h => rfl⟩
    · simp only [if_neg hta]
      have hs' : z = 0 ∨ 10 ≤ z ∧ z % 3 ≠ 2 := by
        rcases hs with hs | hs | hs
        · exact Or.inl hs
        · exact absurd hs hta
        · exact Or.inr hs.2
      by_cases q1 : z < 10
      · simp only [if_pos q1]
        rw [hbyp q1]
        congr 1
        symm
        refine segCount_unique hz (by split_ifs <;> omega) ((ends_iff _).2 ?_) fun j hj => ends_not _ ?_
        · split_ifs with q2
          · exact Or.inl (Or.inr (by omega))
          · exact Or.inr ⟨⟨hby, by omega⟩, by omega⟩
        · have : j + 1 < n - z ∧ j + 1 < 10 - z := by split_ifs at hj <;> omega
          rintro ((h | h) | h)
          · exact hta h
          · omega
          · omega
      · simp only [if_neg q1]
        by_cases q2 : (z + 2) % 3 = 2
        · simp only [if_pos q2]
          rw [if_neg (by omega), segCount_unique hz le_rfl ((ends_iff _).2 (Or.inr ⟨⟨hby, by omega⟩, by omega⟩)) (fun j hj => by omega)]
          congr 1
          exact raw_iff _ ⟨fun h => by simp at h, fun h => by omega⟩
        · simp only [if_neg q2]
          have q3 : z % 3 = 1 := by omega
          congr 1
          · symm
            refine segCount_unique hz (by split_ifs <;> omega) ((ends_iff _).2 ?_) fun j hj => ends_not _ ?_
            · split_ifs with q4
              · exact Or.inl (Or.inr (by omega))
              · exact Or.inr ⟨⟨hby, by omega⟩, by omega⟩
            · have : j = 0 ∧ 1 < n - z := by split_ifs at hj <;> omega
              rintro ((h | h) | h)
              · exact hta h
              · omega
              · omega
          · exact raw_iff _ ⟨fun h => ⟨⟨hby, by omega⟩, by omega⟩, fun h => rfl⟩
  · rw [if_neg hby]
    have hbyp : s.byp = Std.isRaw M z := raw_iff _ ⟨fun h => absurd (hb h).1 hby, fun h => absurd h.1.1 hby⟩
    rw [hbyp]
    by_cases hta : M.termAll = true
    · simp only [if_pos hta]
      rw [if_neg (by omega), segCount_unique hz le_rfl ((ends_iff _).2 (Or.inl (Or.inl hta))) (fun j hj => by omega)]
    · simp only [if_neg hta]
      have hz0 : z = 0 := by
        rcases hs with hs | hs | hs
        · exact hs
        · exact absurd hs hta
        · exact absurd hs.1 hby
      congr 1
      symm
      refine segCount_unique hz (by split_ifs <;> omega) ((ends_iff _).2 (Or.inl (Or.inr ?_))) fun j hj => ends_not _ ?_
      · split_ifs <;> omega
      · have : j + 1 < n := by split_ifs at hj <;> omega
        rintro ((h | h) | h)
        · exact hta h
        · omega
        · exact hby h.1.1

/-! One segment. -/

theorem passes_run {x : CbIn} {B : Src} {M : Modes} {top n : Nat} (hx : Fits' x B M top n) (K : Mq → Prop) (raw : Bool) : ∀ (c z : Nat) (s : DecSt),
    z + c < n → c < 255 → Mid x B M top z (c + 1) raw s K → (∀ j, j < c → Std.ends M n (z + j) = false) →
    ∃ s', (x.pass s).bind (x.rounds c) = .ok s' ∧ Gap x B M top n (z + c + 1) s' ∧ s'.csp = 0 ∧ s'.byp = raw ∧ s'.pos = s.pos ∧ K s'.m := by
  intro c
  obtain ⟨hn, ht⟩ := hx.le
  induction c with
  | zero =>
    intro z s h1 h2 h _
    obtain ⟨s', e, a1, a2, a3, a4, a5, a6, a7, a8, a9⟩ := pass_run hx h1 h2 h
    exact ⟨s', by rw [e]; rfl, ⟨a1, fun hz => turn_next hn ht a2 a3 hz, a7, a8⟩, a4, a5, a6, a9⟩
  | succ c ih =>
    intro z s h1 h2 h he
    obtain ⟨s1, e, a1, a2, a3, a4, a5, a6, a7, a8, a9⟩ := pass_run hx (by omega) h2 h
    obtain ⟨t1, t2⟩ := turn_next hn ht a2 a3 (show z + 1 < n by omega)
    obtain ⟨k1, k2, k3, k4, k5, k6⟩ := turn_keeps s1
    have hmid : Mid x B M top (z + 1) (c + 1) raw (turn s1) K :=
      ⟨k1.trans a1, t1, t2, k2.trans a4, k4.trans a5, (raw_next (he 0 (by omega))).trans h.iraw, by rw [k5]; exact a7, a8, by rw [k6]; exact a9⟩
    obtain ⟨s', e', g, c1, c2, c3, c4⟩ := ih (z + 1) (turn s1) (by omega) (by omega) hmid
      (fun j hj => by rw [show z + 1 + j = z + (j + 1) by omega]; exact he (j + 1) (by omega))
    refine ⟨s', ?_, by rw [show z + (c + 1) + 1 = z + 1 + c + 1 by omega]; exact g, c1, c2, by rw [c3, k3, a6], c4⟩
    rw [e]
    simp only [Except.bind, CbIn.rounds, CbIn.round]
    rw [show x.opening (turn s1) = .ok (turn s1) by
      unfold CbIn.opening
      rw [if_neg (by rw [k2, a4]; omega)]]
    exact e'

theorem rounds_add (x : CbIn) (a b : Nat) (s : DecSt) : x.rounds (a + b) s = (x.rounds a s).bind (x.rounds b) := by
  induction a generalizing s with
  | zero => rw [Nat.zero_add]; rfl
  | succ a ih =>
    rw [show a + 1 + b = (a + b) + 1 by omega]
    simp only [CbIn.rounds]
    cases x.round s with
    | error e => rfl
    | ok t => exact ih t

theorem sumLen_ok (passLen : List Nat) (z : Nat) : ∀ k, z + k ≤ passLen.length → ((passLen.drop z).take k).sum < 2 ^ 32 →
    sumLen passLen z k = .ok ((passLen.drop z).take k).sum := by
  intro k
  induction k with
  | zero => intro _ _; simp [sumLen]
  | succ k ih =>
    intro h1 h2
    have hg : z + k < passLen.length := by omega
    have e : ((passLen.drop z).take (k + 1)).sum = ((passLen.drop z).take k).sum + passLen[z + k] := by
      rw [List.take_add_one, List.sum_append, List.getElem?_drop, List.getElem?_eq_getElem hg]
      simp
    rw [e] at h2 ⊢
    simp only [sumLen]
    rw [ih (by omega) (by omega), List.getElem?_eq_getElem hg]
    simp only [Except.bind]
    rw [Nat.mod_eq_of_lt h2]

/-- The state in which a segment begins. -/
structure Ready' (x : CbIn) (B : Src) (M : Modes) (top n z : Nat) (s : DecSt) (cx : (Nat → Nat) × (Nat → Nat)) : Prop where
  gap : Gap x B M top n z s
  csp : s.csp = 0
  byp : s.byp = true → M.bypass = true ∧ 10 ≤ z
  start : z < n → StartOk M z
  ctx : (s.m.sigma, s.m.mps) = cx
  ok : CtxOk cx.1 cx.2

theorem segment_run {x : CbIn} {B : Src} {M : Modes} {top n : Nat} (hx : Fits' x B M top n) {z : Nat} {s : DecSt} {cx : (Nat → Nat) × (Nat → Nat)}
    (h : Ready' x B M top n z s cx) (hz : z < n) {k : Nat} (hk : k = Std.segCount M n (n - z) z) {pre post : List Nat}
    (hbuf : x.buf = pre ++ Std.segBytes B M top k z cx ++ post) (hpos : pre.length = s.pos)
    (hlen : pre.length + (Std.segBytes B M top k z cx).length ≤ x.length) (h32 : x.length < 2 ^ 32)
    (hl : z + k ≤ x.passLen.length) (hsum : ((x.passLen.drop z).take k).sum = (Std.segBytes B M top k z cx).length) :
    ∃ s', x.rounds k s = .ok s' ∧ Ready' x B M top n (z + k) s' (Std.segCtx B M top k z cx) ∧ s'.pos = s.pos + (Std.segBytes B M top k z cx).length := by
  obtain ⟨hn, ht⟩ := hx.le
  obtain ⟨i1, i2, i3, i4⟩ := segCount_spec M n (n - z) z rfl hz
  rw [← hk] at i1 i2 i3 i4
  obtain ⟨k1, k2, k3, k4, k5, k6⟩ := turn_keeps s
  obtain ⟨t1, t2⟩ := h.gap.ikp hz
  have hseg := segPasses_ok hx hz (k1.trans h.gap.iz) t1 (by rw [k4]; exact h.byp) (h.start hz)
  rw [← hk] at hseg
  set bytes := Std.segBytes B M top k z cx with hbytes
  obtain ⟨c, rfl⟩ : ∃ c, k = c + 1 := ⟨k - 1, by omega⟩
  have hctx' : CtxOk s.m.sigma s.m.mps := by
    have := h.ok
    rw [← h.ctx] at this
    exact this
  have hs1 : s.m.sigma = cx.1 := by rw [← h.ctx]
  have hs2 : s.m.mps = cx.2 := by rw [← h.ctx]
  -- the segment is opened
  have hopen : ∃ m, mqInit x.buf s.m s.pos bytes.length (Std.isRaw M z) = .ok m ∧
      SegFeeds B M top (Std.isRaw M z) x.buf (c + 1) z m
        fun m' => (m'.sigma, m'.mps) = Std.segCtx B M top (c + 1) z cx ∧ CtxOk m'.sigma m'.mps := by
    rw [hbuf, ← hpos]
    unfold Std.segBytes at hbytes
    unfold Std.segCtx
    cases hr : Std.isRaw M z
    · rw [hr] at hbytes
      simp only [Bool.false_eq_true, if_false] at hbytes ⊢
      rw [← hs1, ← hs2] at hbytes ⊢
      rw [hbytes]
      obtain ⟨s0, e0, r0⟩ := OReads.init pre post s.m hctx' (Std.opsOf B M top (c + 1) z) (opsOf_ok B M top (c + 1) z)
      refine ⟨s0, e0, ?_⟩
      exact (seg_mq B M top _ (c + 1) z s0 _ r0).mono fun m' hm => ⟨hm.1, by
        have := hm.2
        rw [← hm.1] at this
        exact this⟩
    · rw [hr] at hbytes
      simp only [if_true] at hbytes ⊢
      rw [hbytes]
      obtain ⟨s0, e0, r0, q1, q2⟩ := RawReads.init pre post s.m (Std.bitsOf B M top (c + 1) z) (bitsOf_ok B M top (c + 1) z)
      refine ⟨s0, e0, ?_⟩
      have hz1 : 1 ≤ z := by
        unfold Std.isRaw at hr
        simp at hr
        omega
      exact seg_raw B M top _ (c + 1) z s0 hz1 cx (Or.inl (by rw [q1, q2]; exact h.ctx)) (by rw [q1, q2]; exact hctx') r0 (Or.inl (by omega))
  obtain ⟨m0, e0, hfeed⟩ := hopen
  have hop : x.opening (turn s) = .ok { turn s with csp := c + 1, byp := Std.isRaw M z, m := m0, pos := s.pos + bytes.length } := by
    unfold CbIn.opening
    rw [if_pos (by rw [k2]; exact h.csp)]
    simp only [hseg]
    rw [k1, h.gap.iz, sumLen_ok _ _ _ hl (by rw [hsum]; omega), hsum]
    simp only [Except.bind]
    rw [k3, k6, if_neg (by omega), e0]
    simp only
    rw [Nat.mod_eq_of_lt (by omega)]
  have hmid : Mid x B M top z (c + 1) (Std.isRaw M z) { turn s with csp := c + 1, byp := Std.isRaw M z, m := m0, pos := s.pos + bytes.length }
      (fun m' => (m'.sigma, m'.mps) = Std.segCtx B M top (c + 1) z cx ∧ CtxOk m'.sigma m'.mps) :=
    ⟨k1.trans h.gap.iz, t1, t2, rfl, rfl, rfl, by rw [show (turn s).b = s.b from k5]; exact h.gap.rel, h.gap.inv, hfeed⟩
  obtain ⟨s', e', g, c1, c2, c3, c4, c5⟩ := passes_run hx _ _ c z _ (by omega) (by omega) hmid (fun j hj => i4 j (by omega))
  refine ⟨s', ?_, ⟨g, c1, fun hb => ?_, fun hlt => ?_, c4, by rw [← c4]; exact c5⟩, c3⟩
  · simp only [CbIn.rounds, CbIn.round]
    rw [hop]
    exact e'
  · rw [c2] at hb
    unfold Std.isRaw at hb
    simp at hb
    exact ⟨hb.1.1, by omega⟩
  · rw [show z + (c + 1) = (z + (c + 1) - 1) + 1 by omega]
    exact start_next i3 (by omega)

/-! All segments. -/

theorem segments_run {x : CbIn} {B : Src} {M : Modes} {top n : Nat} (hx : Fits' x B M top n) (h32 : x.length < 2 ^ 32) : ∀ (f z : Nat) (s : DecSt)
    (cx : (Nat → Nat) × (Nat → Nat)) (pre post : List Nat), n - z ≤ f → z ≤ n → Ready' x B M top n z s cx →
    x.buf = pre ++ (Std.segments B M top n f z cx).flatMap Prod.snd ++ post → pre.length = s.pos →
    pre.length + ((Std.segments B M top n f z cx).flatMap Prod.snd).length ≤ x.length → Std.lensOk x.passLen z (Std.segments B M top n f z cx) →
    ∃ s', x.rounds (n - z) s = .ok s' ∧ BRel B (Std.stAt B M top n) s'.b ∧ SInv B (Std.stAt B M top n) := by
  intro f
  induction f with
  | zero =>
    intro z s cx pre post hf hzn h _ _ _ _
    have : z = n := by omega
    subst this
    exact ⟨s, by rw [Nat.sub_self]; rfl, h.gap.rel, h.gap.inv⟩
  | succ f ih =>
    intro z s cx pre post hf hzn h hbuf hpos hlen hl
    by_cases hz : n ≤ z
    · have : z = n := by omega
      subst this
      exact ⟨s, by rw [Nat.sub_self]; rfl, h.gap.rel, h.gap.inv⟩
    · obtain ⟨i1, i2, -, -⟩ := segCount_spec M n (n - z) z rfl (by omega)
      simp only [Std.segments, if_neg hz, List.flatMap_cons, List.length_append, Std.lensOk] at hbuf hlen hl
      set k := Std.segCount M n (n - z) z with hk
      obtain ⟨l1, l2, l3⟩ := hl
      obtain ⟨s1, e1, r1, p1⟩ := segment_run hx h (by omega) hk (pre := pre)
        (post := (Std.segments B M top n f (z + k) (Std.segCtx B M top k z cx)).flatMap Prod.snd ++ post)
        (by rw [hbuf]; simp only [List.append_assoc]) hpos (by omega) h32 l1 l2
      obtain ⟨s', e', q⟩ := ih (z + k) s1 _ (pre ++ Std.segBytes B M top k z cx) post (by omega) i2 r1
        (by rw [hbuf]; simp only [List.append_assoc]) (by rw [List.length_append, hpos, p1]) (by rw [List.length_append]; omega) l3
      refine ⟨s', ?_, q⟩
      rw [show n - z = k + (n - (z + k)) by omega, rounds_add, e1]
      exact e'

theorem num_sum (l : List Nat) (a : Nat) (ha : a < 256) : l.foldl (fun n l => (n + l) % 256) a = (a + l.sum) % 256 := by
  induction l generalizing a with
  | nil => simp [Nat.mod_eq_of_lt ha]
  | cons x l ih =>
    rw [List.foldl_cons, ih _ (Nat.mod_lt _ (by norm_num)), List.sum_cons]
    omega

theorem num_eq {x : CbIn} (h : x.layerPasses.sum < 256) : x.num = x.layerPasses.sum := by
  unfold CbIn.num
  rw [num_sum _ _ (by norm_num), Nat.zero_add, Nat.mod_eq_of_lt h]

/-- The contexts before pass 0 do not matter. -/
theorem segments_ctx (B : Src) (M : Modes) (top n f : Nat) (cx cy : (Nat → Nat) × (Nat → Nat)) :
    Std.segments B M top n f 0 cx = Std.segments B M top n f 0 cy := by
  cases f with
  | zero => rfl
  | succ f =>
    simp only [Std.segments]
    by_cases hn : n ≤ 0
    · rw [if_pos hn, if_pos hn]
    · rw [if_neg hn, if_neg hn]
      obtain ⟨i1, -⟩ := segCount_spec M n (n - 0) 0 rfl (by omega)
      obtain ⟨k, hk⟩ : ∃ k, Std.segCount M n (n - 0) 0 = k + 1 := ⟨_, (Nat.sub_add_cancel i1).symm⟩
      rw [hk]
      have e : ∀ q : (Nat → Nat) × (Nat → Nat), Std.encodeOps (Std.initEnc q.1 q.2) (Std.opsOf B M top (k + 1) 0) =
          Std.encodeOps (Std.initEnc cy.1 cy.2) (Std.opsOf B M top (k + 1) 0) := fun q => rfl
      have hr : Std.isRaw M 0 = false := by unfold Std.isRaw; simp
      have e1 : Std.segBytes B M top (k + 1) 0 cx = Std.segBytes B M top (k + 1) 0 cy := by
        unfold Std.segBytes; rw [hr, e cx]
      have e2 : Std.segCtx B M top (k + 1) 0 cx = Std.segCtx B M top (k + 1) 0 cy := by
        unfold Std.segCtx; rw [hr, e cx]; rfl
      rw [e1, e2]

theorem decode_state {x : CbIn} {B : Src} {M : Modes} {top n : Nat} (hx : Fits' x B M top n) (h32 : x.length < 2 ^ 32) (post : List Nat)
    (hbuf : x.buf = (Std.blockCode B M top n).flatMap Prod.snd ++ post) (hlen : ((Std.blockCode B M top n).flatMap Prod.snd).length ≤ x.length)
    (hl : Std.lensOk x.passLen 0 (Std.blockCode B M top n)) :
    ∃ b, j2kDecode x = .ok b ∧ BRel B (Std.stAt B M top n) b ∧ SInv B (Std.stAt B M top n) := by
  obtain ⟨hn, ht⟩ := hx.le
  have hc : Std.blockCode B M top n = Std.segments B M top n n 0 (mqNew.sigma, mqNew.mps) := segments_ctx ..
  rw [hc] at hbuf hlen hl
  have hp : ((30 - (x.zbp : Int)) % 256).toNat = top := by have := hx.top; omega
  have hcau : decide (x.cmodes &&& 8 ≠ 0) = B.causal := by
    rw [hx.causal, Bool.eq_iff_iff, decide_eq_true_eq]
    exact and_pow x.cmodes 3
  have hready : Ready' x B M top n 0 x.start (mqNew.sigma, mqNew.mps) := by
    refine ⟨⟨rfl, fun _ => ⟨rfl, ?_⟩, ?_, fresh_inv B top⟩, rfl, fun hb => by simp [CbIn.start] at hb, fun _ => Or.inl rfl, rfl, fun k => ⟨by simp [mqNew], by simp [mqNew]⟩⟩
    · show ((30 - (x.zbp : Int)) % 256).toNat = _
      rw [hp]
      unfold Std.planeOf
      omega
    · show BRel B (Std.initSt top) (freshBlk x.w x.h x.orient (decide (x.cmodes &&& 8 ≠ 0)))
      rw [hcau, hx.w, hx.h, hx.o]
      exact fresh_rel B top
  obtain ⟨s', e', q⟩ := segments_run hx h32 n 0 x.start _ [] post (by omega) (by omega) hready (by simpa using hbuf) rfl (by simpa using hlen) hl
  refine ⟨s'.b, ?_, q⟩
  unfold j2kDecode
  rw [hx.num]
  rw [Nat.sub_zero] at e'
  rw [e']
  rfl

end Verif.Ebcot
