import Verif.Dwt.Filter

/-!
# Lemmas about lifting loops and symmetric extension

Everything is compared with infinite signals `Int → α`: the periodic symmetric extension of the data, and
lifting applied to all samples of one parity.
-/

namespace Verif.Dwt

variable {α : Type}

/-- Lifting applied to every position of parity `p`. -/
def liftAll (p : Int) (f : Step α) (s : Int → α) : Int → α :=
  fun k => if k % 2 = p then f (s (k - 1)) (s (k + 1)) (s k) else s k

/-- The buffer holds the signal `s` at the offsets `lo … hi`. -/
def Agree (b : Buf α) (s : Int → α) (lo hi : Int) : Prop := ∀ k, lo ≤ k → k ≤ hi → b k = some (s k)

/-- The buffer is filled at the offsets `lo … hi`. -/
def Filled (b : Buf α) (lo hi : Int) : Prop := ∀ k, lo ≤ k → k ≤ hi → (b k).isSome

theorem Agree.filled {b : Buf α} {s : Int → α} {lo hi : Int} (h : Agree b s lo hi) : Filled b lo hi := by
  intro k h1 h2
  rw [h k h1 h2]; rfl

theorem Agree.mono {b : Buf α} {s : Int → α} {lo hi lo' hi' : Int} (h : Agree b s lo hi) (h1 : lo ≤ lo')
    (h2 : hi' ≤ hi) : Agree b s lo' hi' := fun k a c => h k (by omega) (by omega)

theorem liftLoop_spec (f : Step α) (c : Nat) : ∀ (n : Int) (b : Buf α) (lo hi : Int), Filled b lo hi →
    (c = 0 ∨ lo ≤ n - 1 ∧ n + 2 * c - 1 ≤ hi) →
    ∃ b', liftLoop f c n b = some b' ∧ Filled b' lo hi ∧
      (∀ k, ¬ (n ≤ k ∧ k < n + 2 * c ∧ (k - n) % 2 = 0) → b' k = b k) ∧
      (∀ k p q t, n ≤ k → k < n + 2 * c → (k - n) % 2 = 0 → b (k - 1) = some p → b (k + 1) = some q →
        b k = some t → b' k = some (f p q t)) := by
  induction c with
  | zero =>
    intro n b lo hi hf _
    refine ⟨b, rfl, hf, fun k _ => rfl, fun k p q t h1 h2 => ?_⟩
    simp at h2; omega
  | succ c ih =>
    intro n b lo hi hf hr
    have hr' : lo ≤ n - 1 ∧ n + 2 * ((c + 1 : Nat) : Int) - 1 ≤ hi := by
      rcases hr with h | h
      · omega
      · exact h
    push_cast at hr'
    obtain ⟨p, hp⟩ := Option.isSome_iff_exists.1 (hf (n - 1) (by omega) (by omega))
    obtain ⟨q, hq⟩ := Option.isSome_iff_exists.1 (hf (n + 1) (by omega) (by omega))
    obtain ⟨t, ht⟩ := Option.isSome_iff_exists.1 (hf n (by omega) (by omega))
    have hstep : liftStep f n b = some (Function.update b n (some (f p q t))) := by
      simp [liftStep, hp, hq, ht]
    have hf1 : Filled (Function.update b n (some (f p q t))) lo hi := by
      intro k h1 h2
      by_cases hk : k = n
      · subst hk; simp
      · rw [Function.update_of_ne hk]; exact hf k h1 h2
    obtain ⟨b', e, g1, g2, g3⟩ := ih (n + 2) _ lo hi hf1 (by
      by_cases hc : c = 0
      · exact Or.inl hc
      · right; omega)
    refine ⟨b', by simp [liftLoop, hstep, e], g1, ?_, ?_⟩
    · intro k hk
      rw [g2 k (by push_cast at hk ⊢; omega), Function.update_of_ne (by rintro rfl; push_cast at hk; omega)]
    · intro k p' q' t' h1 h2 h3 e1 e2 e3
      push_cast at h2
      by_cases hk : k = n
      · subst hk
        rw [g2 k (by omega), Function.update_self]
        rw [e1] at hp; rw [e2] at hq; rw [e3] at ht
        simp_all
      · apply g3 k p' q' t' (by omega) (by omega) (by omega)
        · rw [Function.update_of_ne (by omega)]; exact e1
        · rw [Function.update_of_ne (by omega)]; exact e2
        · rw [Function.update_of_ne hk]; exact e3

/-- One lifting loop advances the region of agreement with the infinite signal. -/
theorem lift_agree {f : Step α} {c : Nat} {n : Int} {b : Buf α} {s : Int → α} {lo hi a z a' z' p : Int}
    (hf : Filled b lo hi) (hb : Agree b s a z) (hn : n % 2 = p) (hr : c = 0 ∨ lo ≤ n - 1 ∧ n + 2 * c - 1 ≤ hi)
    (ha : a ≤ a') (hz : z' ≤ z)
    (hin : ∀ k, a' ≤ k → k ≤ z' → k % 2 = p → n ≤ k ∧ k < n + 2 * c ∧ a ≤ k - 1 ∧ k + 1 ≤ z) :
    ∃ b', liftLoop f c n b = some b' ∧ Filled b' lo hi ∧ Agree b' (liftAll p f s) a' z' := by
  obtain ⟨b', e, h1, h2, h3⟩ := liftLoop_spec f c n b lo hi hf hr
  refine ⟨b', e, h1, fun k k1 k2 => ?_⟩
  unfold liftAll
  split_ifs with hk
  · obtain ⟨i1, i2, i3, i4⟩ := hin k k1 k2 hk
    exact h3 k _ _ _ i1 i2 (by omega) (hb _ (by omega) (by omega)) (hb _ (by omega) (by omega))
      (hb _ (by omega) (by omega))
  · rw [h2 k (by omega)]
    exact hb k (by omega) (by omega)

theorem liftAll_inverse {p : Int} {f g : Step α} {P : α → Prop}
    (h : ∀ a b t, P a → P b → P t → g a b (f a b t) = t) {s : Int → α} (hs : ∀ k, P (s k)) :
    liftAll p g (liftAll p f s) = s := by
  funext k
  unfold liftAll
  by_cases hk : k % 2 = p
  · rw [if_pos hk, if_neg (by omega), if_neg (by omega), if_pos hk]
    exact h _ _ _ (hs _) (hs _) (hs _)
  · rw [if_neg hk, if_neg hk]

theorem liftAll_pred {p : Int} {f : Step α} {P : α → Prop} (h : ∀ a b t, P a → P b → P t → P (f a b t))
    {s : Int → α} (hs : ∀ k, P (s k)) : ∀ k, P (liftAll p f s k) := by
  intro k
  unfold liftAll
  split_ifs
  · exact h _ _ _ (hs _) (hs _) (hs _)
  · exact hs _

/-! ## Symmetric extension -/

/-- Index in `[0, w)` of the mirror image of position `k` under reflection at `0` and at `w - 1`. -/
def mirror (w k : Int) : Int :=
  if k % (2 * (w - 1)) < 2 * (w - 1) - k % (2 * (w - 1)) then k % (2 * (w - 1))
  else 2 * (w - 1) - k % (2 * (w - 1))

theorem mirror_range {w : Int} (hw : 2 ≤ w) (k : Int) : 0 ≤ mirror w k ∧ mirror w k < w := by
  unfold mirror
  have h1 := Int.emod_nonneg k (show 2 * (w - 1) ≠ 0 by omega)
  have h2 := Int.emod_lt_of_pos k (show 0 < 2 * (w - 1) by omega)
  split_ifs <;> omega

theorem mirror_self {w k : Int} (h0 : 0 ≤ k) (h1 : k < w) : mirror w k = k := by
  unfold mirror
  rcases lt_or_ge w 2 with hw | hw
  · have : w = 1 := by omega
    have : k = 0 := by omega
    subst_vars; simp
  · rw [Int.emod_eq_of_lt h0 (by omega)]
    split_ifs <;> omega

/-- A signal symmetric about positions `0` and `w - 1`. -/
def Sym (w : Int) (s : Int → α) : Prop := (∀ k, s (-k) = s k) ∧ ∀ k, s (2 * (w - 1) - k) = s k

theorem Sym.period {w : Int} {s : Int → α} (h : Sym w s) (k m : Int) : s (k + m * (2 * (w - 1))) = s k := by
  have h1 : ∀ k, s (k + 2 * (w - 1)) = s k := by
    intro k
    rw [show k + 2 * (w - 1) = 2 * (w - 1) - (-k) by ring, h.2, h.1]
  have h2 : ∀ (n : Nat) k, s (k + n * (2 * (w - 1))) = s k := by
    intro n
    induction n with
    | zero => intro k; simp
    | succ n ih =>
      intro k
      rw [show k + ((n + 1 : Nat) : Int) * (2 * (w - 1)) = (k + n * (2 * (w - 1))) + 2 * (w - 1) by
        push_cast; ring, h1, ih]
  rcases Int.le_total 0 m with hm | hm
  · obtain ⟨n, rfl⟩ := Int.eq_ofNat_of_zero_le hm
    exact h2 n k
  · obtain ⟨n, hn⟩ := Int.eq_ofNat_of_zero_le (show 0 ≤ -m by omega)
    have := h2 n (k + m * (2 * (w - 1)))
    rw [← this, show m = -(n : Int) by omega]
    congr 1; ring

theorem Sym.at_mirror {w : Int} {s : Int → α} (h : Sym w s) (k : Int) : s (mirror w k) = s k := by
  have he : k % (2 * (w - 1)) = k + (-(k / (2 * (w - 1)))) * (2 * (w - 1)) := by
    have := Int.emod_add_mul_ediv k (2 * (w - 1))
    linarith
  unfold mirror
  split_ifs
  · rw [he, h.period]
  · rw [h.2, he, h.period]

theorem mirror_neg {w : Int} (hw : 2 ≤ w) (k : Int) : mirror w (-k) = mirror w k := by
  have h0 : (0 : Int) < 2 * (w - 1) := by omega
  unfold mirror
  have h1 := Int.emod_nonneg k (show 2 * (w - 1) ≠ 0 by omega)
  have h2 := Int.emod_lt_of_pos k h0
  have h3 : (-k) % (2 * (w - 1)) = if k % (2 * (w - 1)) = 0 then 0 else 2 * (w - 1) - k % (2 * (w - 1)) := by
    have hk := Int.emod_add_mul_ediv k (2 * (w - 1))
    split_ifs with hz
    · apply Int.emod_eq_zero_of_dvd
      exact Int.dvd_neg.2 (Int.dvd_of_emod_eq_zero hz)
    · rw [show -k = (2 * (w - 1) - k % (2 * (w - 1))) + (2 * (w - 1)) * (-(k / (2 * (w - 1))) - 1) by
        linarith [hk]]
      rw [Int.add_mul_emod_self_left]
      exact Int.emod_eq_of_lt (by omega) (by omega)
  rw [h3]
  split_ifs <;> omega

theorem mirror_flip {w : Int} (hw : 2 ≤ w) (k : Int) : mirror w (2 * (w - 1) - k) = mirror w k := by
  rw [← mirror_neg hw k]
  unfold mirror
  rw [show 2 * (w - 1) - k = -k + (2 * (w - 1)) * 1 by ring, Int.add_mul_emod_self_left]

theorem pseo_eq {i i0 i1 : Int} (h : i0 + 2 ≤ i1) : pseo i i0 i1 = some (mirror (i1 - i0) (i - i0)) := by
  have key : ∀ m : Int, 0 ≤ m → (if m.tmod (2 * (i1 - i0 - 1)) < 2 * (i1 - i0 - 1) - m.tmod (2 * (i1 - i0 - 1))
      then m.tmod (2 * (i1 - i0 - 1)) else 2 * (i1 - i0 - 1) - m.tmod (2 * (i1 - i0 - 1))) =
      mirror (i1 - i0) m := by
    intro m hm
    rw [Int.tmod_eq_emod_of_nonneg hm]; rfl
  unfold pseo
  simp only
  rw [if_neg (by omega)]
  split_ifs with hneg h2 h2
  · have := key (i0 - i) (by omega)
    rw [if_pos h2] at this
    rw [this, show i0 - i = -(i - i0) by ring, mirror_neg (by omega)]
  · have := key (i0 - i) (by omega)
    rw [if_neg h2] at this
    rw [this, show i0 - i = -(i - i0) by ring, mirror_neg (by omega)]
  · have := key (i - i0) (by omega)
    rw [if_pos h2] at this
    rw [this]
  · have := key (i - i0) (by omega)
    rw [if_neg h2] at this
    rw [this]

/-- `s` is the periodic symmetric extension of the list `x`. -/
def Ext (x : List α) (s : Int → α) : Prop := ∀ k : Int, x[(mirror x.length k).toNat]? = some (s k)

theorem ext_exists {x : List α} (hw : 2 ≤ x.length) : ∃ s, Ext x s := by
  refine ⟨fun k => x[(mirror x.length k).toNat]'?_, fun k => ?_⟩
  · have := mirror_range (w := (x.length : Int)) (by omega) k
    omega
  · simp

theorem Ext.sym {x : List α} {s : Int → α} (h : Ext x s) (hw : 2 ≤ x.length) : Sym x.length s := by
  constructor
  · intro k
    have h1 := h (-k)
    rw [mirror_neg (by omega), h k] at h1
    exact (Option.some.inj h1).symm
  · intro k
    have h1 := h (2 * (x.length - 1) - k)
    rw [mirror_flip (by omega), h k] at h1
    exact (Option.some.inj h1).symm

theorem Ext.get {x : List α} {s : Int → α} (h : Ext x s) {k : Int} (h0 : 0 ≤ k) (h1 : k < x.length) :
    x[k.toNat]? = some (s k) := by
  have := h k
  rwa [mirror_self h0 h1] at this

theorem Ext.pred {x : List α} {s : Int → α} (h : Ext x s) {P : α → Prop} (hx : ∀ a ∈ x, P a) (k : Int) :
    P (s k) := hx _ (List.mem_of_getElem? (h k))

/-- A symmetric signal is the extension of its restriction to `[0, w)`. -/
theorem Sym.ext {x : List α} {s : Int → α} (h : Sym x.length s) (hw : 2 ≤ x.length)
    (hx : ∀ k : Int, 0 ≤ k → k < x.length → x[k.toNat]? = some (s k)) : Ext x s := by
  intro k
  have := mirror_range (w := (x.length : Int)) (by omega) k
  rw [hx _ this.1 this.2, h.at_mirror]

theorem Sym.lift {w : Int} {s : Int → α} (h : Sym w s) {p : Int} {f : Step α}
    {P : α → Prop} (hs : ∀ k, P (s k)) (hf : ∀ a b t, P a → P b → P t → f a b t = f b a t) :
    Sym w (liftAll p f s) := by
  constructor
  · intro k
    unfold liftAll
    by_cases hk : k % 2 = p
    · rw [if_pos (by omega), if_pos hk, show -k - 1 = -(k + 1) by ring, show -k + 1 = -(k - 1) by ring,
        h.1, h.1, h.1]
      exact hf _ _ _ (hs _) (hs _) (hs _)
    · rw [if_neg (by omega), if_neg hk, h.1]
  · intro k
    unfold liftAll
    by_cases hk : k % 2 = p
    · rw [if_pos (by omega), if_pos hk, show 2 * (w - 1) - k - 1 = 2 * (w - 1) - (k + 1) by ring,
        show 2 * (w - 1) - k + 1 = 2 * (w - 1) - (k - 1) by ring, h.2, h.2, h.2]
      exact hf _ _ _ (hs _) (hs _) (hs _)
    · rw [if_neg (by omega), if_neg hk, h.2]

theorem bufOf_agree {x : List α} {s : Int → α} (h : Ext x s) : Agree (bufOf x) s 0 (x.length - 1) := by
  intro k h0 h1
  unfold bufOf
  rw [if_pos h0, h.get h0 (by omega)]

/-- A loop of copies fills a run of places from places already filled. -/
theorem copyLoop {s : Int → α} {lo hi : Int} (n : Nat) (dst src : Nat → Option Int) (d : Nat → Int)
    (hd : ∀ i < n, dst i = some (d i) ∧ ∃ j, src i = some j ∧ lo ≤ j ∧ j ≤ hi ∧ s j = s (d i) ∧
      ¬ (lo ≤ d i ∧ d i ≤ hi))
    {b : Buf α} (hb : Agree b s lo hi) :
    ∃ b', loopM n (fun i b => (dst i).bind fun t => (src i).bind fun j => copyTo t j b) b = some b' ∧
      Agree b' s lo hi ∧ (∀ i < n, b' (d i) = some (s (d i))) ∧
      ∀ k, (∀ i < n, k ≠ d i) → b' k = b k := by
  induction n with
  | zero => exact ⟨b, rfl, hb, fun i hi => by omega, fun k _ => rfl⟩
  | succ n ih =>
    obtain ⟨b1, e1, a1, a2, a3⟩ := ih (fun i hi => hd i (by omega))
    obtain ⟨ed, j, ej, j1, j2, j3, j4⟩ := hd n (by omega)
    refine ⟨Function.update b1 (d n) (some (s (d n))), ?_, ?_, ?_, ?_⟩
    · rw [loopM, e1]
      simp only [Option.bind_some, ed, ej, copyTo, a1 j j1 j2, j3, Option.map_some]
    · intro k k1 k2
      rw [Function.update_of_ne (by rintro rfl; exact j4 ⟨k1, k2⟩)]
      exact a1 k k1 k2
    · intro i hi'
      by_cases h : d i = d n
      · rw [h, Function.update_self]
      · rw [Function.update_of_ne h]
        rcases Nat.lt_succ_iff_lt_or_eq.1 hi' with h' | rfl
        · exact a2 i h'
        · exact absurd rfl h
    · intro k hk
      rw [Function.update_of_ne (hk n (by omega))]
      exact a3 k fun i hi' => hk i (by omega)

theorem extend_spec {x : List α} {s : Int → α} (hs : Ext x s) (hw : 2 ≤ x.length) (left right : Nat)
    (i0 : Int) : ∃ b, extend left right i0 x = some b ∧ Agree b s (-left) (x.length - 1 + right) := by
  have hsym := hs.sym hw
  have hb0 := bufOf_agree hs
  obtain ⟨b1, e1, a1, a2, a3⟩ := copyLoop (s := s) left (fun i => some (-((i : Int) + 1)))
    (fun i => pseo (i0 - (i + 1)) i0 (i0 + x.length)) (fun i => -((i : Int) + 1)) (by
      intro i hi
      refine ⟨rfl, _, pseo_eq (by omega), ?_⟩
      rw [show i0 + (x.length : Int) - i0 = x.length by ring, show i0 - ((i : Int) + 1) - i0 = -((i : Int) + 1) by ring]
      have := mirror_range (w := (x.length : Int)) (by omega) (-((i : Int) + 1))
      refine ⟨this.1, by omega, hsym.at_mirror _, by omega⟩) hb0
  obtain ⟨b2, e2, c1, c2, c3⟩ := copyLoop (s := s) right (fun i => some ((x.length : Int) + (i + 1) - 1))
    (fun i => pseo (i0 + x.length - i0 + (i + 1) - 1 + i0) i0 (i0 + x.length))
    (fun i => (x.length : Int) + (i + 1) - 1) (by
      intro i hi
      refine ⟨rfl, _, pseo_eq (by omega), ?_⟩
      rw [show i0 + (x.length : Int) - i0 = x.length by ring,
        show (x.length : Int) + (i + 1) - 1 + i0 - i0 = x.length + (i + 1) - 1 by ring]
      have := mirror_range (w := (x.length : Int)) (by omega) ((x.length : Int) + (i + 1) - 1)
      refine ⟨this.1, by omega, hsym.at_mirror _, by omega⟩) a1
  refine ⟨b2, ?_, ?_⟩
  · simp only [Option.bind_some] at e1 e2
    simp only [extend, e1, Option.bind_some, e2]
  · intro k k1 k2
    by_cases h0 : k < 0
    · rw [c3 k (by intro i hi; omega)]
      have := a2 (-k - 1).toNat (by omega)
      rw [show -(((-k - 1).toNat : Int) + 1) = k by omega] at this
      exact this
    · by_cases h1 : k ≤ x.length - 1
      · exact c1 k (by omega) h1
      · have := c2 (k - x.length).toNat (by omega)
        rw [show (x.length : Int) + (((k - x.length).toNat : Int) + 1) - 1 = k by omega] at this
        exact this

theorem fillWide_spec {x : List α} {s : Int → α} (hs : Ext x s) (hw : 9 ≤ x.length) :
    ∃ b, fillWide x.length (bufOf x) = some b ∧ Agree b s (-8) (x.length + 7) := by
  have hsym := hs.sym (by omega)
  have hb0 := bufOf_agree hs
  obtain ⟨b1, e1, a1, a2, a3⟩ := copyLoop (s := s) 8 (fun i => some (-((i : Int) + 1)))
    (fun i => some ((i : Int) + 1)) (fun i => -((i : Int) + 1)) (by
      intro i hi
      exact ⟨rfl, _, rfl, by omega, by omega, (hsym.1 _).symm, by omega⟩) hb0
  obtain ⟨b2, e2, c1, c2, c3⟩ := copyLoop (s := s) 8 (fun i => some ((x.length : Int) + i))
    (fun i => some ((x.length : Int) - 2 - i)) (fun i => (x.length : Int) + i) (by
      intro i hi
      refine ⟨rfl, _, rfl, by omega, by omega, ?_, by omega⟩
      rw [← hsym.2]; congr 1; ring) a1
  refine ⟨b2, ?_, ?_⟩
  · simp only [Option.bind_some] at e1 e2
    simp only [fillWide, e1, Option.bind_some, e2]
  · intro k k1 k2
    by_cases h0 : k < 0
    · rw [c3 k (by intro i hi; omega)]
      have := a2 (-k - 1).toNat (by omega)
      rw [show -(((-k - 1).toNat : Int) + 1) = k by omega] at this
      exact this
    · by_cases h1 : k ≤ x.length - 1
      · exact c1 k (by omega) h1
      · have := c2 (k - x.length).toNat (by omega)
        rw [show (x.length : Int) + ((k - x.length).toNat : Int) = k by omega] at this
        exact this

theorem fillRow_spec {x : List α} {s : Int → α} (hs : Ext x s) (hw : 2 ≤ x.length) {left right : Nat}
    (hl : left ≤ 8) (hr : right ≤ 8) (i0 : Int) :
    ∃ b, fillRow left right i0 x = some b ∧ Agree b s (-left) (x.length - 1 + right) := by
  unfold fillRow
  split_ifs with h
  · obtain ⟨b, e, a⟩ := fillWide_spec hs h
    exact ⟨b, e, a.mono (by omega) (by omega)⟩
  · exact extend_spec hs hw left right i0

/-- The signal moved to the coordinates of a buffer that starts `left` places earlier. -/
def shift (d : Int) (s : Int → α) : Int → α := fun k => s (k - d)

theorem fromLeft_agree {b : Buf α} {s : Int → α} {lo hi : Int} (h : Agree b s lo hi) (left : Int) :
    Agree (fromLeft left b) (shift left s) (lo + left) (hi + left) := fun k h1 h2 => h _ (by omega) (by omega)

theorem readBack_spec {X : Buf α} {s : Int → α} {left : Int} {w : Nat}
    (h : Agree X s left (left + w - 1)) :
    ∃ y, readBack left w X = some y ∧ y.length = w ∧
      ∀ k : Int, 0 ≤ k → k < w → y[k.toNat]? = some (s (k + left)) := by
  have key : ∀ l : List Nat, (∀ i ∈ l, i < w) →
      (l.mapM fun (k : Nat) => X (k + left)) = some (l.map fun (k : Nat) => s (k + left)) := by
    intro l
    induction l with
    | nil => intro _; rfl
    | cons i l ih =>
      intro hl
      have h1 := hl i (by simp)
      rw [List.mapM_cons, h _ (by omega) (by omega), ih fun j hj => hl j (by simp [hj])]
      rfl
  refine ⟨(List.range w).map fun (k : Nat) => s (k + left), ?_, by simp, ?_⟩
  · unfold readBack
    exact key _ (fun i hi => List.mem_range.1 hi)
  intro k h0 h1
  rw [List.getElem?_map, List.getElem?_range (by omega)]
  simp only [Option.map_some]
  rw [Int.toNat_of_nonneg h0]

theorem readBack_filled {X : Buf α} {left : Int} {w : Nat} (h : Filled X left (left + w - 1)) (hw : 0 < w) :
    ∃ y, readBack left w X = some y ∧ y.length = w ∧ ∀ k : Nat, k < w → y[k]? = X (k + left) := by
  obtain ⟨v0, hv0⟩ := Option.isSome_iff_exists.1 (h left (le_refl _) (by omega))
  have ha : Agree X (fun k => (X k).getD v0) left (left + w - 1) := by
    intro k h1 h2
    obtain ⟨v, hv⟩ := Option.isSome_iff_exists.1 (h k h1 h2)
    simp [hv]
  obtain ⟨y, e, l, hy⟩ := readBack_spec ha
  refine ⟨y, e, l, fun k hk => ?_⟩
  have := hy k (by omega) (by omega)
  simp only [Int.toNat_natCast] at this
  rw [this, ha _ (by omega) (by omega), Option.getD_some]

/-! ## Whole filters -/

/-- Analysis of an infinite signal; positions of parity `p` are the low-pass ones. -/
def analyseAll (flt : Filter α) (p : Int) (s : Int → α) : Int → α :=
  match flt with
  | .two hp lp => liftAll p lp (liftAll (1 - p) hp s)
  | .four a b c d => liftAll p d (liftAll (1 - p) c (liftAll p b (liftAll (1 - p) a s)))

/-- Synthesis of an infinite signal. -/
def synthesiseAll (flt : Filter α) (p : Int) (s : Int → α) : Int → α :=
  match flt with
  | .two hp lp => liftAll (1 - p) hp (liftAll p lp s)
  | .four a b c d => liftAll (1 - p) a (liftAll p b (liftAll (1 - p) c (liftAll p d s)))

theorem analyse_spec {flt : Filter α} {i0 : Int} (h0 : 0 ≤ i0) {w : Nat} (hw : 2 ≤ w) {X : Buf α}
    {s : Int → α} {L : Int} (hL : L = analysisLeft flt i0) {p : Int} (hp : p = (L + i0) % 2)
    (hX : Agree X s 0 (L + w - 1 + analysisRight flt (i0 + w))) :
    ∃ X', analyse flt L i0 (i0 + w) X = some X' ∧ Agree X' (analyseAll flt p s) L (L + w - 1) := by
  have hpp : p = 0 ∨ p = 1 := by omega
  cases flt with
  | two hp' lp =>
    simp only [analysisLeft, analysisRight] at hX hL
    simp only [analyse, analyseAll, ceilHalf]
    obtain ⟨X1, e1, f1, a1⟩ := lift_agree (f := hp') (c := ((i0 + w + 1) / 2 - ((i0 + 1) / 2 - 1)).toNat)
      (n := -2 + (L + i0 % 2) + 1) (p := 1 - p) (a' := L - 1 + i0 % 2) (z' := L + w - (i0 + w + 1) % 2)
      hX.filled hX
      (by split_ifs at hL <;> omega) (by split_ifs at hL ⊢ <;> omega) (by split_ifs at hL ⊢ <;> omega)
      (by split_ifs at hL ⊢ <;> omega) (by intro k k1 k2 k3; split_ifs at hL ⊢ <;> omega)
    obtain ⟨X2, e2, f2, a2⟩ := lift_agree (f := lp) (c := ((i0 + w + 1) / 2 - (i0 + 1) / 2).toNat)
      (n := 0 + (L + i0 % 2)) (p := p) (a' := L) (z' := L + w - 1) f1 a1
      (by split_ifs at hL <;> omega) (by split_ifs at hL ⊢ <;> omega) (by split_ifs at hL ⊢ <;> omega)
      (by split_ifs at hL ⊢ <;> omega) (by intro k k1 k2 k3; split_ifs at hL ⊢ <;> omega)
    exact ⟨X2, by rw [e1, Option.bind_some, e2], a2⟩
  | four a b c d =>
    simp only [analysisLeft, analysisRight] at hX hL
    simp only [analyse, analyseAll, ceilHalf]
    obtain ⟨X1, e1, f1, a1⟩ := lift_agree (f := a) (c := ((i0 + w + 1) / 2 + 1 - ((i0 + 1) / 2 - 2)).toNat)
      (n := -4 + (L + i0 % 2) + 1) (p := 1 - p) (a' := L - 3 + i0 % 2) (z' := L + w + 2 - (i0 + w + 1) % 2)
      hX.filled hX
      (by split_ifs at hL <;> omega) (by split_ifs at hL ⊢ <;> omega) (by split_ifs at hL ⊢ <;> omega)
      (by split_ifs at hL ⊢ <;> omega) (by intro k k1 k2 k3; split_ifs at hL ⊢ <;> omega)
    obtain ⟨X2, e2, f2, a2⟩ := lift_agree (f := b) (c := ((i0 + w + 1) / 2 + 1 - ((i0 + 1) / 2 - 1)).toNat)
      (n := -2 + (L + i0 % 2)) (p := p) (a' := L - 2 + i0 % 2) (z' := L + w + 1 - (i0 + w + 1) % 2) f1 a1
      (by split_ifs at hL <;> omega) (by split_ifs at hL ⊢ <;> omega) (by split_ifs at hL ⊢ <;> omega)
      (by split_ifs at hL ⊢ <;> omega) (by intro k k1 k2 k3; split_ifs at hL ⊢ <;> omega)
    obtain ⟨X3, e3, f3, a3⟩ := lift_agree (f := c) (c := ((i0 + w + 1) / 2 - ((i0 + 1) / 2 - 1)).toNat)
      (n := -2 + (L + i0 % 2) + 1) (p := 1 - p) (a' := L - 1 + i0 % 2) (z' := L + w - (i0 + w + 1) % 2) f2 a2
      (by split_ifs at hL <;> omega) (by split_ifs at hL ⊢ <;> omega) (by split_ifs at hL ⊢ <;> omega)
      (by split_ifs at hL ⊢ <;> omega) (by intro k k1 k2 k3; split_ifs at hL ⊢ <;> omega)
    obtain ⟨X4, e4, f4, a4⟩ := lift_agree (f := d) (c := ((i0 + w + 1) / 2 - (i0 + 1) / 2).toNat)
      (n := 0 + (L + i0 % 2)) (p := p) (a' := L) (z' := L + w - 1) f3 a3
      (by split_ifs at hL <;> omega) (by split_ifs at hL ⊢ <;> omega) (by split_ifs at hL ⊢ <;> omega)
      (by split_ifs at hL ⊢ <;> omega) (by intro k k1 k2 k3; split_ifs at hL ⊢ <;> omega)
    exact ⟨X4, by rw [e1, Option.bind_some, e2, Option.bind_some, e3, Option.bind_some, e4], a4⟩

theorem synthesise_spec {flt : Filter α} {i0 : Int} (h0 : 0 ≤ i0) {w : Nat} (hw : 2 ≤ w) {X : Buf α}
    {s : Int → α} {L : Int} (hL : L = synthesisLeft flt i0) {p : Int} (hp : p = (L + i0) % 2)
    (hX : Agree X s 0 (L + w - 1 + synthesisRight flt (i0 + w))) :
    ∃ X', synthesise flt L i0 (i0 + w) X = some X' ∧ Agree X' (synthesiseAll flt p s) L (L + w - 1) := by
  cases flt with
  | two hp' lp =>
    simp only [synthesisLeft, synthesisRight] at hX hL
    simp only [synthesise, synthesiseAll]
    obtain ⟨X1, e1, f1, a1⟩ := lift_agree (f := lp) (c := ((i0 + w) / 2 + 1 - i0 / 2).toNat)
      (n := 0 + (L - i0 % 2)) (p := p) (a' := L - i0 % 2) (z' := L + w - (i0 + w) % 2)
      hX.filled hX
      (by split_ifs at hL <;> omega) (by split_ifs at hL ⊢ <;> omega) (by split_ifs at hL ⊢ <;> omega)
      (by split_ifs at hL ⊢ <;> omega) (by intro k k1 k2 k3; split_ifs at hL ⊢ <;> omega)
    obtain ⟨X2, e2, f2, a2⟩ := lift_agree (f := hp') (c := ((i0 + w) / 2 - i0 / 2).toNat)
      (n := 0 + (L - i0 % 2) + 1) (p := 1 - p) (a' := L) (z' := L + w - 1) f1 a1
      (by split_ifs at hL <;> omega) (by split_ifs at hL ⊢ <;> omega) (by split_ifs at hL ⊢ <;> omega)
      (by split_ifs at hL ⊢ <;> omega) (by intro k k1 k2 k3; split_ifs at hL ⊢ <;> omega)
    exact ⟨X2, by rw [e1, Option.bind_some, e2], a2⟩
  | four a b c d =>
    simp only [synthesisLeft, synthesisRight] at hX hL
    simp only [synthesise, synthesiseAll]
    obtain ⟨X1, e1, f1, a1⟩ := lift_agree (f := d) (c := ((i0 + w) / 2 + 2 - (i0 / 2 - 1)).toNat)
      (n := -2 + (L - i0 % 2)) (p := p) (a' := L - i0 % 2 - 2) (z' := L + w - (i0 + w) % 2 + 2)
      hX.filled hX
      (by split_ifs at hL <;> omega) (by split_ifs at hL ⊢ <;> omega) (by split_ifs at hL ⊢ <;> omega)
      (by split_ifs at hL ⊢ <;> omega) (by intro k k1 k2 k3; split_ifs at hL ⊢ <;> omega)
    obtain ⟨X2, e2, f2, a2⟩ := lift_agree (f := c) (c := ((i0 + w) / 2 + 1 - (i0 / 2 - 1)).toNat)
      (n := -2 + (L - i0 % 2) + 1) (p := 1 - p) (a' := L - i0 % 2 - 1) (z' := L + w - (i0 + w) % 2 + 1) f1 a1
      (by split_ifs at hL <;> omega) (by split_ifs at hL ⊢ <;> omega) (by split_ifs at hL ⊢ <;> omega)
      (by split_ifs at hL ⊢ <;> omega) (by intro k k1 k2 k3; split_ifs at hL ⊢ <;> omega)
    obtain ⟨X3, e3, f3, a3⟩ := lift_agree (f := b) (c := ((i0 + w) / 2 + 1 - i0 / 2).toNat)
      (n := 0 + (L - i0 % 2)) (p := p) (a' := L - i0 % 2) (z' := L + w - (i0 + w) % 2) f2 a2
      (by split_ifs at hL <;> omega) (by split_ifs at hL ⊢ <;> omega) (by split_ifs at hL ⊢ <;> omega)
      (by split_ifs at hL ⊢ <;> omega) (by intro k k1 k2 k3; split_ifs at hL ⊢ <;> omega)
    obtain ⟨X4, e4, f4, a4⟩ := lift_agree (f := a) (c := ((i0 + w) / 2 - i0 / 2).toNat)
      (n := 0 + (L - i0 % 2) + 1) (p := 1 - p) (a' := L) (z' := L + w - 1) f3 a3
      (by split_ifs at hL <;> omega) (by split_ifs at hL ⊢ <;> omega) (by split_ifs at hL ⊢ <;> omega)
      (by split_ifs at hL ⊢ <;> omega) (by intro k k1 k2 k3; split_ifs at hL ⊢ <;> omega)
    exact ⟨X4, by rw [e1, Option.bind_some, e2, Option.bind_some, e3, Option.bind_some, e4], a4⟩

theorem liftAll_shift (p q d : Int) (f : Step α) (s : Int → α) (h : p = (q + d) % 2) (hq : q = q % 2) :
    liftAll p f (shift d s) = shift d (liftAll q f s) := by
  funext k
  simp only [liftAll, shift]
  by_cases hk : k % 2 = p
  · rw [if_pos hk, if_pos (by omega)]
    congr 2 <;> ring
  · rw [if_neg hk, if_neg (by omega)]

theorem analyseAll_shift {flt : Filter α} {p q d : Int} (s : Int → α) (h : p = (q + d) % 2) (hq : q = q % 2) :
    analyseAll flt p (shift d s) = shift d (analyseAll flt q s) := by
  cases flt with
  | two hp lp =>
    simp only [analyseAll]
    rw [liftAll_shift (1 - p) (1 - q) _ _ _ (by omega) (by omega), liftAll_shift p q _ _ _ h hq]
  | four a b c e =>
    simp only [analyseAll]
    rw [liftAll_shift (1 - p) (1 - q) _ _ _ (by omega) (by omega), liftAll_shift p q _ _ _ h hq,
      liftAll_shift (1 - p) (1 - q) _ _ _ (by omega) (by omega), liftAll_shift p q _ _ _ h hq]

theorem synthesiseAll_shift {flt : Filter α} {p q d : Int} (s : Int → α) (h : p = (q + d) % 2)
    (hq : q = q % 2) : synthesiseAll flt p (shift d s) = shift d (synthesiseAll flt q s) := by
  cases flt with
  | two hp lp =>
    simp only [synthesiseAll]
    rw [liftAll_shift p q _ _ _ h hq, liftAll_shift (1 - p) (1 - q) _ _ _ (by omega) (by omega)]
  | four a b c e =>
    simp only [synthesiseAll]
    rw [liftAll_shift p q _ _ _ h hq, liftAll_shift (1 - p) (1 - q) _ _ _ (by omega) (by omega),
      liftAll_shift p q _ _ _ h hq, liftAll_shift (1 - p) (1 - q) _ _ _ (by omega) (by omega)]

/-- `y` lists the values of `s` at positions `0, 1, …, y.length - 1`. -/
def Lists (y : List α) (w : Nat) (s : Int → α) : Prop :=
  y.length = w ∧ ∀ k : Int, 0 ≤ k → k < w → y[k.toNat]? = some (s k)

theorem Lists.unique {y z : List α} {w : Nat} {s : Int → α} (hy : Lists y w s) (hz : Lists z w s) : y = z := by
  apply List.ext_getElem?
  intro i
  by_cases h : i < w
  · have h1 := hy.2 i (by omega) (by omega)
    have h2 := hz.2 i (by omega) (by omega)
    simp only [Int.toNat_natCast] at h1 h2
    rw [h1, h2]
  · rw [List.getElem?_eq_none (by rw [hy.1]; omega), List.getElem?_eq_none (by rw [hz.1]; omega)]

theorem Ext.lists {x : List α} {s : Int → α} (h : Ext x s) : Lists x x.length s :=
  ⟨rfl, fun _ h0 h1 => h.get h0 h1⟩

theorem analysisLeft_le (flt : Filter α) (i : Int) : analysisLeft flt i ≤ 8 := by
  cases flt <;> simp only [analysisLeft] <;> split_ifs <;> omega

theorem analysisRight_le (flt : Filter α) (i : Int) : analysisRight flt i ≤ 8 := by
  cases flt <;> simp only [analysisRight] <;> split_ifs <;> omega

theorem synthesisLeft_le (flt : Filter α) (i : Int) : synthesisLeft flt i ≤ 8 := by
  cases flt <;> simp only [synthesisLeft] <;> split_ifs <;> omega

theorem synthesisRight_le (flt : Filter α) (i : Int) : synthesisRight flt i ≤ 8 := by
  cases flt <;> simp only [synthesisRight] <;> split_ifs <;> omega

theorem analyse_read {flt : Filter α} {i0 : Int} (h0 : 0 ≤ i0) {w : Nat} (hw : 2 ≤ w) {b : Buf α}
    {s : Int → α} (hb : Agree b s (-(analysisLeft flt i0 : Nat)) (w - 1 + (analysisRight flt (i0 + w) : Nat))) :
    ∃ y, (analyse flt (analysisLeft flt i0) i0 (i0 + w) (fromLeft (analysisLeft flt i0) b)).bind
      (readBack (analysisLeft flt i0) w) = some y ∧ Lists y w (analyseAll flt (i0 % 2) s) := by
  generalize hL : analysisLeft flt i0 = L at hb ⊢
  have hX := fromLeft_agree hb L
  obtain ⟨X', e, a⟩ := analyse_spec (flt := flt) h0 hw (X := fromLeft L b) (s := shift L s) (L := L)
    (p := ((L : Int) + i0) % 2) (by rw [hL]) rfl (hX.mono (by omega) (by omega))
  rw [analyseAll_shift s (q := i0 % 2) (by omega) (by omega)] at a
  obtain ⟨y, e2, ly, hy⟩ := readBack_spec (left := L) (w := w) (a.mono (le_refl _) (by omega))
  refine ⟨y, by rw [e, Option.bind_some, e2], ly, fun k k0 k1 => ?_⟩
  rw [hy k k0 k1]
  simp [shift]

theorem synthesise_read {flt : Filter α} {i0 : Int} (h0 : 0 ≤ i0) {w : Nat} (hw : 2 ≤ w) {b : Buf α}
    {s : Int → α}
    (hb : Agree b s (-(synthesisLeft flt i0 : Nat)) (w - 1 + (synthesisRight flt (i0 + w) : Nat))) :
    ∃ y, (synthesise flt (synthesisLeft flt i0) i0 (i0 + w) (fromLeft (synthesisLeft flt i0) b)).bind
      (readBack (synthesisLeft flt i0) w) = some y ∧ Lists y w (synthesiseAll flt (i0 % 2) s) := by
  generalize hL : synthesisLeft flt i0 = L at hb ⊢
  have hX := fromLeft_agree hb L
  obtain ⟨X', e, a⟩ := synthesise_spec (flt := flt) h0 hw (X := fromLeft L b) (s := shift L s) (L := L)
    (p := ((L : Int) + i0) % 2) (by rw [hL]) rfl (hX.mono (by omega) (by omega))
  rw [synthesiseAll_shift s (q := i0 % 2) (by omega) (by omega)] at a
  obtain ⟨y, e2, ly, hy⟩ := readBack_spec (left := L) (w := w) (a.mono (le_refl _) (by omega))
  refine ⟨y, by rw [e, Option.bind_some, e2], ly, fun k k0 k1 => ?_⟩
  rw [hy k k0 k1]
  simp [shift]

theorem analyseRow_spec {flt : Filter α} {single : α → α} {i0 : Int} (h0 : 0 ≤ i0) {x : List α}
    (hw : 2 ≤ x.length) {s : Int → α} (hs : Ext x s) :
    ∃ y, analyseRow flt single i0 x = some y ∧ Lists y x.length (analyseAll flt (i0 % 2) s) := by
  obtain ⟨b, e, a⟩ := fillRow_spec hs hw (analysisLeft_le flt i0) (analysisRight_le flt (i0 + x.length)) i0
  unfold analyseRow
  rw [if_neg (by omega)]
  simp only [e, Option.bind_some]
  exact analyse_read h0 hw a

theorem analyseExt_spec {flt : Filter α} {single : α → α} {i0 : Int} (h0 : 0 ≤ i0) {x : List α}
    (hw : 2 ≤ x.length) {s : Int → α} (hs : Ext x s) :
    ∃ y, analyseExt flt single i0 x = some y ∧ Lists y x.length (analyseAll flt (i0 % 2) s) := by
  obtain ⟨b, e, a⟩ := extend_spec hs hw (analysisLeft flt i0) (analysisRight flt (i0 + x.length)) i0
  unfold analyseExt
  rw [if_neg (by omega)]
  simp only [e, Option.bind_some]
  exact analyse_read h0 hw a

theorem synthesiseRow_spec {flt : Filter α} {single : α → α} {i0 : Int} (h0 : 0 ≤ i0) {x : List α}
    (hw : 2 ≤ x.length) {s : Int → α} (hs : Ext x s) :
    ∃ y, synthesiseRow flt single i0 x = some y ∧ Lists y x.length (synthesiseAll flt (i0 % 2) s) := by
  obtain ⟨b, e, a⟩ := fillRow_spec hs hw (synthesisLeft_le flt i0) (synthesisRight_le flt (i0 + x.length)) i0
  unfold synthesiseRow
  rw [if_neg (by omega)]
  simp only [e, Option.bind_some]
  exact synthesise_read h0 hw a

theorem synthesiseExt_spec {flt : Filter α} {i0 : Int} (h0 : 0 ≤ i0) {x : List α}
    (hw : 2 ≤ x.length) {s : Int → α} (hs : Ext x s) :
    ∃ y, synthesiseExt flt i0 x = some y ∧ Lists y x.length (synthesiseAll flt (i0 % 2) s) := by
  obtain ⟨b, e, a⟩ := extend_spec hs hw (synthesisLeft flt i0) (synthesisRight flt (i0 + x.length)) i0
  unfold synthesiseExt
  simp only [e, Option.bind_some]
  exact synthesise_read h0 hw a

/-! ## Perfect reconstruction -/

/-- The steps of `inv` undo those of `fwd` on samples satisfying `P`, and the steps of `fwd` do not distinguish
their two neighbours. -/
structure Undoes (P : α → Prop) (f g : Step α) : Prop where
  closed : ∀ a b t, P a → P b → P t → P (f a b t)
  symm : ∀ a b t, P a → P b → P t → f a b t = f b a t
  undo : ∀ a b t, P a → P b → P t → g a b (f a b t) = t

/-- As `Undoes`, for all steps of a filter. -/
inductive UndoesAll (P : α → Prop) : Filter α → Filter α → Prop
  | two {hp lp hp' lp'} : Undoes P hp hp' → Undoes P lp lp' → UndoesAll P (.two hp lp) (.two hp' lp')
  | four {a b c d a' b' c' d'} : Undoes P a a' → Undoes P b b' → Undoes P c c' → Undoes P d d' →
      UndoesAll P (.four a b c d) (.four a' b' c' d')

theorem analyseAll_props {P : α → Prop} {fwd inv : Filter α} (h : UndoesAll P fwd inv) {p w : Int}
    {s : Int → α} (hs : ∀ k, P (s k)) (hsym : Sym w s) :
    Sym w (analyseAll fwd p s) ∧ (∀ k, P (analyseAll fwd p s k)) ∧ synthesiseAll inv p (analyseAll fwd p s) = s := by
  cases h with
  | two h1 h2 =>
    simp only [analyseAll, synthesiseAll]
    have p1 := liftAll_pred (p := 1 - p) h1.closed hs
    refine ⟨(hsym.lift hs h1.symm).lift p1 h2.symm, liftAll_pred h2.closed p1, ?_⟩
    rw [liftAll_inverse h2.undo p1, liftAll_inverse h1.undo hs]
  | four h1 h2 h3 h4 =>
    simp only [analyseAll, synthesiseAll]
    have p1 := liftAll_pred (p := 1 - p) h1.closed hs
    have p2 := liftAll_pred (p := p) h2.closed p1
    have p3 := liftAll_pred (p := 1 - p) h3.closed p2
    refine ⟨(((hsym.lift hs h1.symm).lift p1 h2.symm).lift p2 h3.symm).lift p3 h4.symm,
      liftAll_pred h4.closed p3, ?_⟩
    rw [liftAll_inverse h4.undo p3, liftAll_inverse h3.undo p2, liftAll_inverse h2.undo p1,
      liftAll_inverse h1.undo hs]

/-- What an analysis followed by a synthesis gives, for two samples or more. -/
theorem reconstruct {P : α → Prop} {fwd inv : Filter α} (h : UndoesAll P fwd inv) {i0 : Int} {x : List α}
    (hx : ∀ a ∈ x, P a) (hw : 2 ≤ x.length) {s : Int → α} (hs : Ext x s) {y : List α}
    (hy : Lists y x.length (analyseAll fwd (i0 % 2) s)) :
    (∀ a ∈ y, P a) ∧ Ext y (analyseAll fwd (i0 % 2) s) ∧
      ∀ z, Lists z y.length (synthesiseAll inv (i0 % 2) (analyseAll fwd (i0 % 2) s)) → z = x := by
  obtain ⟨h1, h2, h3⟩ := analyseAll_props (p := i0 % 2) h (hs.pred hx) (hs.sym hw)
  refine ⟨?_, ?_, ?_⟩
  · intro a ha
    obtain ⟨i, hi, e⟩ := List.mem_iff_getElem.1 ha
    have := hy.2 i (by omega) (by rw [← hy.1]; omega)
    simp only [Int.toNat_natCast, List.getElem?_eq_getElem hi, e, Option.some.injEq] at this
    rw [this]; exact h2 _
  · rw [← hy.1] at h1
    refine h1.ext (by rw [hy.1]; omega) fun k k0 k1 => hy.2 k k0 (by rw [← hy.1]; exact k1)
  · intro z hz
    rw [h3, hy.1] at hz
    exact hz.unique hs.lists

/-! ## Clipped loops -/

theorem liftClipped_agree {f : Step α} {lo hi : Option Int} {init last d : Int} {X : Buf α} {s : Int → α}
    {l h a z a' z' p : Int} (hf : Filled X l h) (hX : Agree X s a z) (hp : (init + d) % 2 = p)
    (hlast : (last - init) % 2 = 0) (hl : l ≤ init + d - 1) (hh : last + d + 1 ≤ h) (ha : a ≤ a') (hz : z' ≤ z)
    (hin : ∀ k, a' ≤ k → k ≤ z' → k % 2 = p → init ≤ k - d ∧ k - d ≤ last ∧ (∀ v, lo = some v → v ≤ k - d) ∧
      (∀ v, hi = some v → k - d ≤ v) ∧ a ≤ k - 1 ∧ k + 1 ≤ z) :
    ∃ X', liftClipped f lo hi init last d X = some X' ∧ Filled X' l h ∧ Agree X' (liftAll p f s) a' z' := by
  unfold liftClipped
  have hc : init ≤ (clip lo hi init last).1 ∧ ((clip lo hi init last).1 - init) % 2 = 0 ∧
      (∀ k, init ≤ k → (k - init) % 2 = 0 → (∀ v, lo = some v → v ≤ k) → (clip lo hi init last).1 ≤ k) := by
    unfold clip
    cases lo with
    | none => exact ⟨by simp, by simp, fun k h _ _ => by simpa using h⟩
    | some v =>
      simp only [Option.some.injEq, forall_eq']
      refine ⟨?_, ?_, ?_⟩
      · split_ifs <;> omega
      · split_ifs <;> omega
      · intro k h1 h2 h3; split_ifs <;> omega
  have hc2 : (clip lo hi init last).2 ≤ last ∧ ((clip lo hi init last).2 - init) % 2 = 0 ∧
      (∀ k, k ≤ last → (k - init) % 2 = 0 → (∀ v, hi = some v → k ≤ v) → k ≤ (clip lo hi init last).2) := by
    unfold clip
    cases hi with
    | none =>
      simp only []
      rw [if_neg (by simp [hlast])]
      exact ⟨le_refl _, hlast, fun k h1 _ _ => h1⟩
    | some v =>
      simp only [Option.some.injEq, forall_eq']
      refine ⟨?_, ?_, ?_⟩
      · split_ifs <;> omega
      · split_ifs <;> omega
      · intro k h1 h2 h3; split_ifs <;> omega
  generalize clip lo hi init last = r at hc hc2
  obtain ⟨h1, h2, h3⟩ := hc
  obtain ⟨h4, h5, h6⟩ := hc2
  refine lift_agree hf hX (by omega) (by omega) ha hz ?_
  intro k k1 k2 k3
  obtain ⟨q1, q2, q3, q4, q5, q6⟩ := hin k k1 k2 k3
  have g1 := h3 (k - d) q1 (by omega) q3
  have g2 := h6 (k - d) q2 (by omega) q4
  omega

theorem synthesiseClipped_spec {flt : Filter α} {i0 : Int} (h0 : 0 ≤ i0) {w : Nat} (hw : 2 ≤ w) {X : Buf α}
    {s : Int → α} {L : Int} (hL : L = synthesisLeft flt i0) {p : Int} (hp : p = (L + i0) % 2)
    (hX : Agree X s 0 (L + w - 1 + synthesisRight flt (i0 + w))) {lo hi : Option Int} {wn : Int}
    (hwn : wn = flt.widen) {a z : Int}
    (ha : L ≤ a) (hz : z ≤ L + w - 1) (hlo : ∀ v, lo = some v → v ≤ a - wn) (hhi : ∀ v, hi = some v → z + wn ≤ v)
    (hlo' : ∀ v, lo = some v → L ≤ v) (hhi' : ∀ v, hi = some v → v ≤ L + w - 1) :
    ∃ X', synthesiseClipped flt L i0 (i0 + w) lo hi X = some X' ∧ Filled X' L (L + w - 1) ∧
      Agree X' (synthesiseAll flt p s) a z := by
  -- the first and the last position that matter for the `j`-th pass
  have hal : ∃ al, ∀ v, lo = some v → v = al := ⟨lo.getD 0, by cases lo <;> simp⟩
  have hah : ∃ ah, ∀ v, hi = some v → v = ah := ⟨hi.getD 0, by cases hi <;> simp⟩
  cases flt with
  | two hp' lp =>
    simp only [synthesisLeft, synthesisRight] at hX hL
    simp only [Filter.widen] at hwn
    simp only [synthesiseClipped, synthesiseAll]
    obtain ⟨X1, e1, f1, a1⟩ := liftClipped_agree (f := lp) (lo := lo) (hi := hi) (init := L - i0 % 2)
      (last := L - i0 % 2 + 2 * ((i0 + w) / 2 - i0 / 2)) (d := 0) (p := p)
      (a' := max (a - 1) (L - i0 % 2)) (z' := min (z + 1) (L + w - (i0 + w) % 2))
      hX.filled hX
      (by split_ifs at hL <;> omega) (by omega) (by split_ifs at hL ⊢ <;> omega)
      (by split_ifs at hL ⊢ <;> omega) (by split_ifs at hL ⊢ <;> omega) (by split_ifs at hL ⊢ <;> omega)
      (by
        intro k k1 k2 k3
        refine ⟨by omega, by omega, fun v hv => ?_, fun v hv => ?_, ?_, ?_⟩
        · have := hlo v hv; omega
        · have := hhi v hv; omega
        · split_ifs at hL ⊢ <;> omega
        · split_ifs at hL ⊢ <;> omega)
    obtain ⟨X2, e2, f2, a2⟩ := liftClipped_agree (f := hp') (lo := lo) (hi := hi) (init := L - i0 % 2)
      (last := L - i0 % 2 + 2 * ((i0 + w) / 2 - i0 / 2 - 1)) (d := 1) (p := 1 - p)
      (a' := a) (z' := z) f1 a1
      (by split_ifs at hL <;> omega) (by omega) (by split_ifs at hL ⊢ <;> omega)
      (by split_ifs at hL ⊢ <;> omega) (by split_ifs at hL ⊢ <;> omega) (by split_ifs at hL ⊢ <;> omega)
      (by
        intro k k1 k2 k3
        refine ⟨?_, ?_, fun v hv => ?_, fun v hv => ?_, ?_, ?_⟩
        · split_ifs at hL ⊢ <;> omega
        · split_ifs at hL ⊢ <;> omega
        · have := hlo v hv; omega
        · have := hhi v hv; omega
        · split_ifs at hL ⊢ <;> omega
        · split_ifs at hL ⊢ <;> omega)
    refine ⟨X2, by rw [e1, Option.bind_some, e2], fun k k1 k2 => f2 k ?_ ?_, a2⟩
    · split_ifs at hL ⊢ <;> omega
    · split_ifs at hL ⊢ <;> omega
  | four fa b c d =>
    simp only [synthesisLeft, synthesisRight] at hX hL
    simp only [Filter.widen] at hwn
    simp only [synthesiseClipped, synthesiseAll]
    obtain ⟨X1, e1, f1, a1⟩ := liftClipped_agree (f := d) (lo := lo) (hi := hi) (init := -2 + (L - i0 % 2))
      (last := -2 + (L - i0 % 2) + 2 * ((i0 + w) / 2 - i0 / 2 + 2)) (d := 0) (p := p)
      (a' := max (a - 3) (L - i0 % 2 - 2)) (z' := min (z + 3) (L + w - (i0 + w) % 2 + 2))
      hX.filled hX
      (by split_ifs at hL <;> omega) (by omega) (by split_ifs at hL ⊢ <;> omega)
      (by split_ifs at hL ⊢ <;> omega) (by split_ifs at hL ⊢ <;> omega) (by split_ifs at hL ⊢ <;> omega)
      (by
        intro k k1 k2 k3
        refine ⟨by omega, by omega, fun v hv => ?_, fun v hv => ?_, ?_, ?_⟩
        · have := hlo v hv; omega
        · have := hhi v hv; omega
        · split_ifs at hL ⊢ <;> omega
        · split_ifs at hL ⊢ <;> omega)
    obtain ⟨X2, e2, f2, a2⟩ := liftClipped_agree (f := c) (lo := lo) (hi := hi) (init := -2 + (L - i0 % 2))
      (last := -2 + (L - i0 % 2) + 2 * ((i0 + w) / 2 - i0 / 2 + 1)) (d := 1) (p := 1 - p)
      (a' := max (a - 2) (L - i0 % 2 - 1)) (z' := min (z + 2) (L + w - (i0 + w) % 2 + 1)) f1 a1
      (by split_ifs at hL <;> omega) (by omega) (by split_ifs at hL ⊢ <;> omega)
      (by split_ifs at hL ⊢ <;> omega) (by split_ifs at hL ⊢ <;> omega) (by split_ifs at hL ⊢ <;> omega)
      (by
        intro k k1 k2 k3
        refine ⟨?_, ?_, fun v hv => ?_, fun v hv => ?_, ?_, ?_⟩
        · split_ifs at hL ⊢ <;> omega
        · split_ifs at hL ⊢ <;> omega
        · have := hlo v hv; omega
        · have := hhi v hv; omega
        · split_ifs at hL ⊢ <;> omega
        · split_ifs at hL ⊢ <;> omega)
    obtain ⟨X3, e3, f3, a3⟩ := liftClipped_agree (f := b) (lo := lo) (hi := hi) (init := L - i0 % 2)
      (last := L - i0 % 2 + 2 * ((i0 + w) / 2 - i0 / 2)) (d := 0) (p := p)
      (a' := max (a - 1) (L - i0 % 2)) (z' := min (z + 1) (L + w - (i0 + w) % 2)) f2 a2
      (by split_ifs at hL <;> omega) (by omega) (by split_ifs at hL ⊢ <;> omega)
      (by split_ifs at hL ⊢ <;> omega) (by split_ifs at hL ⊢ <;> omega) (by split_ifs at hL ⊢ <;> omega)
      (by
        intro k k1 k2 k3
        refine ⟨?_, ?_, fun v hv => ?_, fun v hv => ?_, ?_, ?_⟩
        · split_ifs at hL ⊢ <;> omega
        · split_ifs at hL ⊢ <;> omega
        · have := hlo v hv; omega
        · have := hhi v hv; omega
        · split_ifs at hL ⊢ <;> omega
        · split_ifs at hL ⊢ <;> omega)
    obtain ⟨X4, e4, f4, a4⟩ := liftClipped_agree (f := fa) (lo := lo) (hi := hi) (init := L - i0 % 2)
      (last := L - i0 % 2 + 2 * ((i0 + w) / 2 - i0 / 2 - 1)) (d := 1) (p := 1 - p)
      (a' := a) (z' := z) f3 a3
      (by split_ifs at hL <;> omega) (by omega) (by split_ifs at hL ⊢ <;> omega)
      (by split_ifs at hL ⊢ <;> omega) (by split_ifs at hL ⊢ <;> omega) (by split_ifs at hL ⊢ <;> omega)
      (by
        intro k k1 k2 k3
        refine ⟨?_, ?_, fun v hv => ?_, fun v hv => ?_, ?_, ?_⟩
        · split_ifs at hL ⊢ <;> omega
        · split_ifs at hL ⊢ <;> omega
        · have := hlo v hv; omega
        · have := hhi v hv; omega
        · split_ifs at hL ⊢ <;> omega
        · split_ifs at hL ⊢ <;> omega)
    refine ⟨X4, by rw [e1, Option.bind_some, e2, Option.bind_some, e3, Option.bind_some, e4],
      fun k k1 k2 => f4 k ?_ ?_, a4⟩
    · split_ifs at hL ⊢ <;> omega
    · split_ifs at hL ⊢ <;> omega

end Verif.Dwt
