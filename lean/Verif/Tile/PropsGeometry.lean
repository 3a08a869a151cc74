import Verif.Tile.Geometry
/-
Property C25: tiles, precincts and code-blocks partition the image.
-/
namespace Verif.Tile

/-! ## Specification -/

/-- Ceiling of `a / b`. -/
def cdiv (a b : Nat) : Nat := (a + b - 1) / b

/-- A coordinate lies in a span. -/
def Has (s : Span) (u : Nat) : Prop := s.1 ≤ u ∧ u < s.2

/-- Length of a span. -/
def size (s : Span) : Nat := s.2 - s.1

/-- The constraints of the standard on one axis of SIZ, with room for the 32-bit arithmetic, and a tile count that fits
the 16-bit tile index. -/
structure Legal (a : Axis) : Prop where
  tile : 0 < a.tsiz
  org : a.tosiz ≤ a.osiz
  first : a.osiz < a.tosiz + a.tsiz
  img : a.osiz < a.siz
  room : a.siz + a.tsiz ≤ 2 ^ 32
  count : cdiv (a.siz - a.tosiz) a.tsiz ≤ 65536

/-! ## Lemmas -/

theorem cdiv_le {a b k : Nat} (hb : 0 < b) : cdiv a b ≤ k ↔ a ≤ k * b := by
  unfold cdiv
  constructor
  · intro h
    have := Nat.lt_mul_of_div_lt (Nat.lt_succ_of_le h) hb
    rw [Nat.succ_eq_add_one, Nat.add_mul, Nat.one_mul] at this
    omega
  · intro h
    apply Nat.le_of_lt_succ
    rw [Nat.div_lt_iff_lt_mul hb, Nat.succ_eq_add_one, Nat.add_mul, Nat.one_mul]
    omega

theorem lt_cdiv {a b k : Nat} (hb : 0 < b) : k < cdiv a b ↔ k * b < a := by
  rw [← not_iff_not, Nat.not_lt, Nat.not_lt]; exact cdiv_le hb

theorem cdiv_mono {a a' b : Nat} (h : a ≤ a') : cdiv a b ≤ cdiv a' b := Nat.div_le_div_right (by omega)

theorem ceilInt_eq {a b : Nat} (hb : 0 < b) (h : a + b ≤ 2 ^ 32) : ceilInt a b = cdiv a b := by
  unfold ceilInt cdiv w32
  rw [Nat.mod_eq_of_lt (by omega), Nat.add_sub_assoc (by omega)]

theorem w32_eq {n : Nat} (h : n < 2 ^ 32) : w32 n = n := Nat.mod_eq_of_lt h

theorem usub_eq {a b : Nat} (h : b ≤ a) : usub a b = a - b := if_pos h

/-- Non-decreasing boundaries cut a range into cells, each point in exactly one. -/
theorem bounds_unique {b : Nat → Nat} (hm : ∀ i, b i ≤ b (i + 1)) {n u : Nat} (h0 : b 0 ≤ u) (hn : u < b n) :
    ∃ k, (k < n ∧ b k ≤ u ∧ u < b (k + 1)) ∧ ∀ j, j < n ∧ b j ≤ u ∧ u < b (j + 1) → j = k := by
  have mono : ∀ i d, b i ≤ b (i + d) := by
    intro i d
    induction d with
    | zero => exact Nat.le_refl _
    | succ d ih => exact Nat.le_trans ih (hm _)
  have mono' : ∀ i j, i ≤ j → b i ≤ b j := fun i j h => by
    have := mono i (j - i); rwa [Nat.add_sub_cancel' h] at this
  have ex : ∃ k, k < n ∧ b k ≤ u ∧ u < b (k + 1) := by
    induction n with
    | zero => omega
    | succ n ih =>
      by_cases h : u < b n
      · obtain ⟨k, h1, h2⟩ := ih h; exact ⟨k, by omega, h2⟩
      · exact ⟨n, by omega, by omega, hn⟩
  obtain ⟨k, hk⟩ := ex
  refine ⟨k, hk, ?_⟩
  rintro j ⟨-, h1, h2⟩
  by_contra hne
  rcases Nat.lt_or_ge j k with h | h
  · have := mono' (j + 1) k h; omega
  · have := mono' (k + 1) j (by omega); omega

/-- Two axes at once: cells are numbered row by row. -/
theorem grid_unique {P Q : Nat → Prop} {n m : Nat} (hP : ∃ k, (k < n ∧ P k) ∧ ∀ j, j < n ∧ P j → j = k)
    (hQ : ∃ k, (k < m ∧ Q k) ∧ ∀ j, j < m ∧ Q j → j = k) :
    ∃ i, (i < n * m ∧ P (i % n) ∧ Q (i / n)) ∧ ∀ j, j < n * m ∧ P (j % n) ∧ Q (j / n) → j = i := by
  obtain ⟨a, ⟨ha, hPa⟩, ua⟩ := hP
  obtain ⟨c, ⟨hc, hQc⟩, uc⟩ := hQ
  have hn : 0 < n := by omega
  have e1 : (a + n * c) % n = a := by rw [Nat.add_mul_mod_self_left, Nat.mod_eq_of_lt ha]
  have e2 : (a + n * c) / n = c := by rw [Nat.add_mul_div_left _ _ hn, Nat.div_eq_of_lt ha, Nat.zero_add]
  refine ⟨a + n * c, ⟨?_, by rwa [e1], by rwa [e2]⟩, ?_⟩
  · calc a + n * c < n + n * c := by omega
      _ = n * (c + 1) := by rw [Nat.mul_add]; omega
      _ ≤ n * m := Nat.mul_le_mul_left _ hc
  · rintro j ⟨hj, h1, h2⟩
    have := ua _ ⟨Nat.mod_lt _ hn, h1⟩
    have := uc _ ⟨Nat.div_lt_of_lt_mul hj, h2⟩
    have := Nat.mod_add_div j n
    simp_all

/-! ### Tiles -/

/-- The boundaries between tiles. -/
def tileB (a : Axis) (k : Nat) : Nat := max a.osiz (min (a.tosiz + k * a.tsiz) a.siz)

theorem numTiles_eq {a : Axis} (h : Legal a) : numTiles a = cdiv (a.siz - a.tosiz) a.tsiz := by
  have := h.org; have := h.img; have := h.room
  unfold numTiles
  rw [usub_eq (by omega), ceilInt_eq h.tile (by omega)]

theorem tileSpan_eq {a : Axis} (h : Legal a) {p : Nat} (hp : p < numTiles a) : tileSpan a p = (tileB a p, tileB a (p + 1)) := by
  have h1 := h.org; have h2 := h.img; have h3 := h.room; have h4 := h.first
  rw [numTiles_eq h, lt_cdiv h.tile] at hp
  have e : (p + 1) * a.tsiz = p * a.tsiz + a.tsiz := by rw [Nat.add_mul, Nat.one_mul]
  have h5 : a.tsiz ≤ (p + 1) * a.tsiz := by rw [e]; omega
  unfold tileSpan tileB
  rw [w32_eq (n := p * a.tsiz) (by omega), w32_eq (by omega), w32_eq (n := (p + 1) * a.tsiz) (by omega)]
  by_cases h6 : a.tosiz + (p + 1) * a.tsiz < 2 ^ 32
  · rw [w32_eq h6]
    apply Prod.ext <;> simp only <;> omega
  · omega

theorem tileB_zero {a : Axis} (h : Legal a) : tileB a 0 = a.osiz := by
  have h1 := h.org; have h2 := h.img
  unfold tileB; rw [Nat.zero_mul]; omega

theorem tileB_last {a : Axis} (h : Legal a) : tileB a (numTiles a) = a.siz := by
  have h1 := h.org; have h2 := h.img
  have := (cdiv_le (a := a.siz - a.tosiz) (b := a.tsiz) (k := numTiles a) h.tile).1 (by rw [numTiles_eq h])
  unfold tileB; omega

theorem tileB_mono (a : Axis) (i : Nat) : tileB a i ≤ tileB a (i + 1) := by
  have e : (i + 1) * a.tsiz = i * a.tsiz + a.tsiz := by rw [Nat.add_mul, Nat.one_mul]
  unfold tileB; rw [e]; omega

/-- The tile holding a point, on one axis, after any non-decreasing map `f` of the boundaries (subsampling). -/
theorem tile_axis {a : Axis} (h : Legal a) {f : Nat → Nat} (hf : ∀ x y, x ≤ y → f x ≤ f y) {u : Nat}
    (h0 : f a.osiz ≤ u) (h1 : u < f a.siz) :
    ∃ k, (k < numTiles a ∧ Has (f (tileSpan a (k % 65536)).1, f (tileSpan a (k % 65536)).2) u) ∧
      ∀ j, j < numTiles a ∧ Has (f (tileSpan a (j % 65536)).1, f (tileSpan a (j % 65536)).2) u → j = k := by
  have hc : numTiles a ≤ 65536 := by rw [numTiles_eq h]; exact h.count
  have key : ∀ k, k < numTiles a → (f (tileSpan a (k % 65536)).1, f (tileSpan a (k % 65536)).2) =
      (f (tileB a k), f (tileB a (k + 1))) := by
    intro k hk
    rw [Nat.mod_eq_of_lt (by omega), tileSpan_eq h hk]
  obtain ⟨k, ⟨hk, h2⟩, hu⟩ := bounds_unique (b := fun i => f (tileB a i)) (fun i => hf _ _ (tileB_mono a i))
    (n := numTiles a) (u := u) (by simpa only [tileB_zero h] using h0) (by simpa only [tileB_last h] using h1)
  refine ⟨k, ⟨hk, by rw [key k hk]; exact h2⟩, ?_⟩
  rintro j ⟨hj, h3⟩
  rw [key j hj] at h3
  exact hu j ⟨hj, h3⟩

/-! ### Cells of a fixed size: precincts and code-blocks -/

/-- Boundaries of the cells of size `c` inside a span. -/
def cellB (s : Span) (c k : Nat) : Nat := max s.1 (min s.2 (c * (k + s.1 / c)))

/-- Number of cells of size `c` that meet a span. -/
def numCell (s : Span) (c : Nat) : Nat := if s.1 < s.2 then usub (ceilInt s.2 c) (s.1 / c) else 0

theorem numCell_eq {s : Span} {c : Nat} (hc : 0 < c) (hs : s.1 < s.2) (hr : s.2 + c ≤ 2 ^ 32) :
    numCell s c = cdiv s.2 c - s.1 / c := by
  unfold numCell
  rw [if_pos hs, ceilInt_eq hc hr, usub_eq]
  have : s.1 / c < cdiv s.2 c := (lt_cdiv hc).2 (by have := Nat.div_mul_le_self s.1 c; omega)
  omega

theorem numCell_pos {s : Span} {c x : Nat} (hx : x < numCell s c) : s.1 < s.2 := by
  by_contra h; unfold numCell at hx; rw [if_neg h] at hx; omega

theorem cellB_zero {s : Span} {c : Nat} (hs : s.1 ≤ s.2) : cellB s c 0 = s.1 := by
  unfold cellB
  have := Nat.mul_div_le s.1 c
  rw [Nat.zero_add]; omega

theorem cellB_last {s : Span} {c : Nat} (hc : 0 < c) (hs : s.1 ≤ s.2) (hr : s.2 + c ≤ 2 ^ 32) :
    cellB s c (numCell s c) = s.2 := by
  by_cases hlt : s.1 < s.2
  · have h1 : s.1 / c < cdiv s.2 c := (lt_cdiv hc).2 (by have := Nat.div_mul_le_self s.1 c; omega)
    have h2 := (cdiv_le (a := s.2) (b := c) (k := cdiv s.2 c) hc).1 (Nat.le_refl _)
    rw [Nat.mul_comm] at h2
    unfold cellB
    rw [numCell_eq hc hlt hr, Nat.sub_add_cancel (by omega)]
    omega
  · have : s.1 = s.2 := by omega
    unfold cellB numCell
    rw [if_neg hlt]
    have := Nat.mul_div_le s.1 c
    rw [Nat.zero_add]; omega

theorem cellB_mono (s : Span) (c i : Nat) : cellB s c i ≤ cellB s c (i + 1) := by
  unfold cellB
  have : c * (i + s.1 / c) ≤ c * (i + 1 + s.1 / c) := Nat.mul_le_mul_left _ (by omega)
  omega

/-- The cell as the code computes it. -/
def cellSpan (s : Span) (c x : Nat) : Span :=
  (max s.1 (w32 (c * w32 (x + s.1 / c))), min s.2 (w32 (c * w32 (x + 1 + s.1 / c))))

theorem cellSpan_eq {s : Span} {c x : Nat} (hc : 0 < c) (hr : s.2 + c ≤ 2 ^ 32) (hx : x < numCell s c) :
    cellSpan s c x = (cellB s c x, cellB s c (x + 1)) := by
  have hs := numCell_pos hx
  rw [numCell_eq hc hs hr] at hx
  have h1 : (x + s.1 / c) * c < s.2 := (lt_cdiv hc).1 (by omega)
  rw [Nat.mul_comm] at h1
  have e : c * (x + 1 + s.1 / c) = c * (x + s.1 / c) + c := by
    rw [show x + 1 + s.1 / c = (x + s.1 / c) + 1 by omega, Nat.mul_add, Nat.mul_one]
  have h2 : s.1 < c * (x + 1 + s.1 / c) := by
    have h3 := Nat.lt_div_mul_add hc (a := s.1)
    have h4 : c * (s.1 / c) + c ≤ c * (x + s.1 / c) + c := by
      have := Nat.mul_le_mul_left c (Nat.le_add_left (s.1 / c) x); omega
    rw [Nat.mul_comm] at h3; omega
  have b1 : x + s.1 / c < 2 ^ 32 := by
    have : x + s.1 / c ≤ c * (x + s.1 / c) := Nat.le_mul_of_pos_left _ hc
    omega
  have b2 : x + 1 + s.1 / c < 2 ^ 32 := by
    have : x + s.1 / c ≤ c * (x + s.1 / c) := Nat.le_mul_of_pos_left _ hc
    omega
  unfold cellSpan cellB
  rw [w32_eq b1, w32_eq b2, w32_eq (by omega), w32_eq (n := c * (x + 1 + s.1 / c)) (by omega)]
  apply Prod.ext <;> simp only <;> omega

/-- The cell holding a point, after any non-decreasing map `f` of the boundaries. -/
theorem cell_axis {s : Span} {c : Nat} (hc : 0 < c) (hs : s.1 ≤ s.2) (hr : s.2 + c ≤ 2 ^ 32) {f : Nat → Nat}
    (hf : ∀ x y, x ≤ y → f x ≤ f y) {u : Nat} (h0 : f s.1 ≤ u) (h1 : u < f s.2) :
    ∃ k, (k < numCell s c ∧ Has (f (cellSpan s c k).1, f (cellSpan s c k).2) u) ∧
      ∀ j, j < numCell s c ∧ Has (f (cellSpan s c j).1, f (cellSpan s c j).2) u → j = k := by
  obtain ⟨k, ⟨hk, h2⟩, hu⟩ := bounds_unique (b := fun i => f (cellB s c i)) (fun i => hf _ _ (cellB_mono s c i))
    (n := numCell s c) (u := u) (by simpa only [cellB_zero hs] using h0) (by simpa only [cellB_last hc hs hr] using h1)
  refine ⟨k, ⟨hk, by rw [cellSpan_eq hc hr hk]; exact h2⟩, ?_⟩
  rintro j ⟨hj, h3⟩
  rw [cellSpan_eq hc hr hj] at h3
  exact hu j ⟨hj, h3⟩

theorem numPrec_cell (s : Span) (lpp : Nat) : numPrec s lpp = numCell s (2 ^ lpp) := rfl
theorem precSpan_cell (s : Span) (lpp x : Nat) : precSpan s lpp x = cellSpan s (2 ^ lpp) x := rfl
theorem numCblk_cell (s : Span) (cb : Nat) : numCblk s cb = numCell s cb := rfl
theorem cblkSpan_cell (s : Span) (cb x : Nat) : cblkSpan s cb x = cellSpan s cb x := rfl

/-! ### Subbands -/

/-- A resolution coordinate seen in a subband that halves the axis, orientation `o`: `ceil ((v - o) / 2)`. -/
def half (o v : Nat) : Nat := (v + 1 - o) / 2

theorem half_mono (o : Nat) {x y : Nat} (h : x ≤ y) : half o x ≤ half o y := Nat.div_le_div_right (by omega)

theorem bandCoord_eq {t m o : Nat} (hm : 0 < m) (ho : o ≤ 1) (ht : t + 2 * m ≤ 2 ^ 32) :
    ceilInt (usub t (m * o)) (2 * m) = half o (cdiv t m) := by
  have key : ceilInt (usub t (m * o)) (2 * m) = (t + 2 * m - 1 - m * o) / (2 * m) := by
    have hmo : m * o ≤ m := by
      calc m * o ≤ m * 1 := Nat.mul_le_mul_left _ ho
        _ = m := Nat.mul_one _
    unfold ceilInt w32 usub
    split
    · rw [Nat.mod_eq_of_lt (by omega)]; congr 1; omega
    · rw [show t + 2 ^ 32 - m * o + (2 * m - 1) = t + 2 * m - 1 - m * o + 2 ^ 32 by omega, Nat.add_mod_right,
        Nat.mod_eq_of_lt (by omega)]
  rw [key]
  unfold half cdiv
  have e : (t + m - 1) / m + 1 - o = (t + 2 * m - 1 - m * o) / m := by
    rcases Nat.le_one_iff_eq_zero_or_eq_one.1 ho with rfl | rfl
    · rw [Nat.mul_zero, Nat.sub_zero, Nat.sub_zero, show t + 2 * m - 1 = t + m - 1 + m by omega,
        Nat.add_div_right _ hm]
    · rw [Nat.mul_one, Nat.add_sub_cancel, show t + 2 * m - 1 - m = t + m - 1 by omega]
  rw [e, Nat.div_div_eq_div_mul, Nat.mul_comm]

/-- The span of a subband is the span of its resolution, halved. -/
theorem bandSpan_eq {tc : Span} {nb o : Nat} (hnb : 0 < nb) (ho : o ≤ 1) (h1 : tc.1 + 2 ^ nb ≤ 2 ^ 32)
    (h2 : tc.2 + 2 ^ nb ≤ 2 ^ 32) :
    bandSpan tc nb o = (half o (cdiv tc.1 (2 ^ (nb - 1))), half o (cdiv tc.2 (2 ^ (nb - 1)))) := by
  have e : 2 ^ nb = 2 * 2 ^ (nb - 1) := by rw [← Nat.pow_succ']; congr 1; omega
  have hp : 0 < 2 ^ (nb - 1) := Nat.two_pow_pos _
  unfold bandSpan
  rw [e] at h1 h2 ⊢
  rw [bandCoord_eq hp ho h1, bandCoord_eq hp ho h2]

theorem resSpan_eq {tc : Span} {NL r : Nat} (h : NL - r < 32) (h1 : tc.1 + 2 ^ (NL - r) ≤ 2 ^ 32)
    (h2 : tc.2 + 2 ^ (NL - r) ≤ 2 ^ 32) :
    resSpan tc NL r = some (cdiv tc.1 (2 ^ (NL - r)), cdiv tc.2 (2 ^ (NL - r))) := by
  unfold resSpan
  rw [if_pos h, ceilInt_eq (Nat.two_pow_pos _) h1, ceilInt_eq (Nat.two_pow_pos _) h2]

/-- How an axis of a resolution maps to an axis of one of its subbands. -/
def bandMap (sr o : Nat) (v : Nat) : Nat := if sr = 1 then v else half o v

theorem pband_eq {p : Span} {sr o : Nat} (hsr : (sr = 1 ∧ o = 0) ∨ (sr = 2 ∧ o ≤ 1)) (h1 : p.1 + 2 ≤ 2 ^ 32)
    (h2 : p.2 + 2 ≤ 2 ^ 32) : pbandSpan p sr o = (bandMap sr o p.1, bandMap sr o p.2) := by
  rcases hsr with ⟨rfl, rfl⟩ | ⟨rfl, ho⟩
  · unfold pbandSpan bandMap
    simp only [if_true]
    rw [usub_eq (Nat.zero_le _), usub_eq (Nat.zero_le _), ceilInt_eq (by omega) (by omega), ceilInt_eq (by omega) (by omega)]
    simp [cdiv]
  · unfold pbandSpan bandMap
    have e1 := bandCoord_eq (t := p.1) (m := 1) (by omega) ho (by omega)
    have e2 := bandCoord_eq (t := p.2) (m := 1) (by omega) ho (by omega)
    have c1 : ∀ a, cdiv a 1 = a := by intro a; simp [cdiv]
    rw [Nat.one_mul, Nat.mul_one, c1] at e1 e2
    rw [e1, e2]
    simp

theorem bandMap_mono (sr o : Nat) {x y : Nat} (h : x ≤ y) : bandMap sr o x ≤ bandMap sr o y := by
  unfold bandMap; split
  · exact h
  · exact half_mono o h

/-! ## Theorems -/

/-- **C25** (tiles).  Every point of the image area lies in exactly one tile. -/
theorem C25_tile_unique {ax ay : Axis} (hx : Legal ax) (hy : Legal ay) {x y : Nat}
    (px : Has (ax.osiz, ax.siz) x) (py : Has (ay.osiz, ay.siz) y) :
    ∃ t, (t < numTiles ax * numTiles ay ∧ Has (tileSpan ax (tileX ax t)) x ∧ Has (tileSpan ay (tileY ax t)) y) ∧
      ∀ j, j < numTiles ax * numTiles ay ∧ Has (tileSpan ax (tileX ax j)) x ∧ Has (tileSpan ay (tileY ax j)) y → j = t :=
  grid_unique (tile_axis hx (f := fun v => v) (fun _ _ h => h) px.1 px.2)
    (tile_axis hy (f := fun v => v) (fun _ _ h => h) py.1 py.2)

/-- **C25** (components).  Every sample of a component lies in exactly one tile-component, for any subsampling. -/
theorem C25_tile_component_unique {ax ay : Axis} (hx : Legal ax) (hy : Legal ay) {sx sy : Nat}
    (hsx : 0 < sx) (hsy : 0 < sy) (rx : ax.siz + sx ≤ 2 ^ 32) (ry : ay.siz + sy ≤ 2 ^ 32) {u v : Nat}
    (pu : Has (cdiv ax.osiz sx, cdiv ax.siz sx) u) (pv : Has (cdiv ay.osiz sy, cdiv ay.siz sy) v) :
    ∃ t, (t < numTiles ax * numTiles ay ∧ Has (tcSpan (tileSpan ax (tileX ax t)) sx) u ∧
        Has (tcSpan (tileSpan ay (tileY ax t)) sy) v) ∧
      ∀ j, j < numTiles ax * numTiles ay ∧ Has (tcSpan (tileSpan ax (tileX ax j)) sx) u ∧
        Has (tcSpan (tileSpan ay (tileY ax j)) sy) v → j = t := by
  have aux : ∀ {a : Axis} {s : Nat}, Legal a → 0 < s → a.siz + s ≤ 2 ^ 32 → ∀ k, k < numTiles a →
      tcSpan (tileSpan a (k % 65536)) s = (cdiv (tileSpan a (k % 65536)).1 s, cdiv (tileSpan a (k % 65536)).2 s) := by
    intro a s ha hs hr k hk
    have hc : numTiles a ≤ 65536 := by rw [numTiles_eq ha]; exact ha.count
    rw [Nat.mod_eq_of_lt (by omega), tileSpan_eq ha hk]
    have h2 := ha.img
    have b : ∀ i, tileB a i ≤ a.siz := by intro i; unfold tileB; omega
    have b1 := b k; have b2 := b (k + 1)
    unfold tcSpan
    rw [ceilInt_eq hs (by simp only; omega), ceilInt_eq hs (by simp only; omega)]
  have hn : ∀ {n m i : Nat}, i < n * m → i % n < n ∧ i / n < m := by
    intro n m i hi
    have : 0 < n := by rcases Nat.eq_zero_or_pos n with h | h; · rw [h, Nat.zero_mul] at hi; omega
                       · exact h
    exact ⟨Nat.mod_lt _ this, Nat.div_lt_of_lt_mul hi⟩
  obtain ⟨t, ⟨h1, h2, h3⟩, hu⟩ := grid_unique
    (tile_axis hx (f := fun v => cdiv v sx) (fun _ _ h => cdiv_mono h) pu.1 pu.2)
    (tile_axis hy (f := fun v => cdiv v sy) (fun _ _ h => cdiv_mono h) pv.1 pv.2)
  have ht := hn h1
  refine ⟨t, ⟨h1, ?_, ?_⟩, ?_⟩
  · unfold tileX; rw [aux hx hsx rx _ ht.1]; exact h2
  · unfold tileY; rw [aux hy hsy ry _ ht.2]; exact h3
  · rintro j ⟨h4, h5, h6⟩
    have hj := hn h4
    unfold tileX at h5; unfold tileY at h6
    rw [aux hx hsx rx _ hj.1] at h5
    rw [aux hy hsy ry _ hj.2] at h6
    exact hu j ⟨h4, h5, h6⟩

/-- **C25** (precincts).  Every sample of a resolution lies in exactly one of its `npw * nph` precincts. -/
theorem C25_precinct_unique {sx sy : Span} {lx ly : Nat} (rx : sx.2 + 2 ^ lx ≤ 2 ^ 32) (ry : sy.2 + 2 ^ ly ≤ 2 ^ 32)
    {u v : Nat} (pu : Has sx u) (pv : Has sy v) :
    ∃ i, (i < numPrec sx lx * numPrec sy ly ∧ Has (precSpan sx lx (i % numPrec sx lx)) u ∧
        Has (precSpan sy ly (i / numPrec sx lx)) v) ∧
      ∀ j, j < numPrec sx lx * numPrec sy ly ∧ Has (precSpan sx lx (j % numPrec sx lx)) u ∧
        Has (precSpan sy ly (j / numPrec sx lx)) v → j = i := by
  have hx : sx.1 ≤ sx.2 := by have := pu.1; have := pu.2; omega
  have hy : sy.1 ≤ sy.2 := by have := pv.1; have := pv.2; omega
  exact grid_unique (cell_axis (Nat.two_pow_pos _) hx rx (f := fun v => v) (fun _ _ h => h) pu.1 pu.2)
    (cell_axis (Nat.two_pow_pos _) hy ry (f := fun v => v) (fun _ _ h => h) pv.1 pv.2)

/-- The orientations of the subbands of a resolution on one axis: LL only at resolution 0. -/
def Orient (r sr o : Nat) : Prop := if r = 0 then sr = 1 ∧ o = 0 else sr = 2 ∧ o ≤ 1

/-- coding_units.cpp:2541-2615: the span of a subband, given the resolution it belongs to. -/
def subbandSpan (tc s : Span) (NL r o : Nat) : Span := if r = 0 then s else bandSpan tc (NL - r + 1) o

/-- One axis of a resolution with all that hangs off it. -/
structure AxisOk (tc s : Span) (NL r lpp cb sr o : Nat) : Prop where
  res : resSpan tc NL r = some s
  le : tc.1 ≤ tc.2
  level : r ≤ NL
  orient : Orient r sr o
  cblk : 0 < cb
  room1 : tc.2 + 2 ^ (NL - r + 1) ≤ 2 ^ 32
  room2 : s.2 + 2 ^ lpp ≤ 2 ^ 32
  room3 : s.2 + cb + 2 ≤ 2 ^ 32

/-- A point of a subband on one axis: its precinct and its code-block. -/
theorem band_axis {tc s : Span} {NL r lpp cb sr o : Nat} (h : AxisOk tc s NL r lpp cb sr o) {u : Nat}
    (hu : Has (subbandSpan tc s NL r o) u) :
    ∃ k c, (k < numPrec s lpp ∧ c < numCblk (pbandSpan (precSpan s lpp k) sr o) cb ∧
        Has (cblkSpan (pbandSpan (precSpan s lpp k) sr o) cb c) u) ∧
      ∀ k' c', k' < numPrec s lpp ∧ c' < numCblk (pbandSpan (precSpan s lpp k') sr o) cb ∧
        Has (cblkSpan (pbandSpan (precSpan s lpp k') sr o) cb c') u → k' = k ∧ c' = c := by
  have ho := h.orient
  have hlt : NL - r < 32 := by
    have := h.res; unfold resSpan at this; split at this
    · assumption
    · simp at this
  have hp1 : 2 ^ (NL - r + 1) = 2 * 2 ^ (NL - r) := Nat.pow_succ'
  have r1 := h.room1
  have hle := h.le
  have hse : s = (cdiv tc.1 (2 ^ (NL - r)), cdiv tc.2 (2 ^ (NL - r))) := by
    have := h.res
    rw [resSpan_eq hlt (by omega) (by omega), Option.some.injEq] at this
    exact this.symm
  have hs : s.1 ≤ s.2 := by rw [hse]; exact cdiv_mono h.le
  have hor : (sr = 1 ∧ o = 0) ∨ (sr = 2 ∧ o ≤ 1) := by unfold Orient at ho; split at ho; · exact .inl ho
                                                       · exact .inr ho
  have hband : subbandSpan tc s NL r o = (bandMap sr o s.1, bandMap sr o s.2) := by
    unfold subbandSpan bandMap
    unfold Orient at ho
    split
    · rename_i hr; rw [if_pos hr] at ho; rw [if_pos ho.1, if_pos ho.1]
    · rename_i hr
      rw [if_neg hr] at ho
      rw [if_neg (by omega), if_neg (by omega), bandSpan_eq (by omega) ho.2 (by omega) (by omega), Nat.add_sub_cancel, hse]
  rw [hband] at hu
  have bm : ∀ x, bandMap sr o x ≤ x + 1 := by
    intro x; unfold bandMap half; split <;> omega
  have r3 := h.room3
  have hinner : ∀ k, k < numPrec s lpp → pbandSpan (precSpan s lpp k) sr o =
      (bandMap sr o (cellB s (2 ^ lpp) k), bandMap sr o (cellB s (2 ^ lpp) (k + 1))) := by
    intro k hk
    rw [precSpan_cell, cellSpan_eq (Nat.two_pow_pos _) h.room2 hk]
    have b : ∀ i, cellB s (2 ^ lpp) i ≤ s.2 := by intro i; unfold cellB; omega
    have b1 := b k; have b2 := b (k + 1)
    exact pband_eq hor (by simp only; omega) (by simp only; omega)
  have hroom : ∀ k, bandMap sr o (cellB s (2 ^ lpp) k) + cb ≤ 2 ^ 32 := by
    intro k
    have b : cellB s (2 ^ lpp) k ≤ s.2 := by unfold cellB; omega
    have := bm (cellB s (2 ^ lpp) k); omega
  obtain ⟨k, ⟨hk, h2⟩, hku⟩ := bounds_unique (b := fun i => bandMap sr o (cellB s (2 ^ lpp) i))
    (fun i => bandMap_mono sr o (cellB_mono s _ i)) (n := numPrec s lpp) (u := u)
    (by simpa only [cellB_zero hs] using hu.1)
    (by simpa only [numPrec_cell, cellB_last (Nat.two_pow_pos lpp) hs h.room2] using hu.2)
  have hq := hinner k hk
  obtain ⟨c, ⟨hc, hcu⟩, hcuu⟩ := cell_axis (s := pbandSpan (precSpan s lpp k) sr o) h.cblk
    (by rw [hq]; exact bandMap_mono sr o (cellB_mono s _ k)) (by rw [hq]; exact hroom _) (f := fun v => v)
    (fun _ _ h => h) (u := u) (by rw [hq]; exact h2.1) (by rw [hq]; exact h2.2)
  refine ⟨k, c, ⟨hk, hc, hcu⟩, ?_⟩
  rintro k' c' ⟨hk', hc', hin⟩
  have hq' := hinner k' hk'
  have hmem : bandMap sr o (cellB s (2 ^ lpp) k') ≤ u ∧ u < bandMap sr o (cellB s (2 ^ lpp) (k' + 1)) := by
    have h5 := hin.1; have h6 := hin.2
    unfold cblkSpan at h5 h6
    simp only [hq'] at h5 h6
    omega
  have hkk : k' = k := hku k' ⟨hk', hmem⟩
  subst hkk
  exact ⟨rfl, hcuu c' ⟨hc', hin⟩⟩

/-- **C25** (code-blocks).  Every sample of a subband lies in exactly one code-block of exactly one precinct: precinct
`i = x + npw * y`, code-block `k = cx + ncx * cy` of that precinct's part of the subband. -/
theorem C25_codeblock_unique {tcx tcy sx sy : Span} {NL r lx ly cbx cby sr ox oy : Nat}
    (hx : AxisOk tcx sx NL r lx cbx sr ox) (hy : AxisOk tcy sy NL r ly cby sr oy) {u v : Nat}
    (hu : Has (subbandSpan tcx sx NL r ox) u) (hv : Has (subbandSpan tcy sy NL r oy) v) :
    let npw := numPrec sx lx
    let bx := fun i => pbandSpan (precSpan sx lx (i % npw)) sr ox
    let by' := fun i => pbandSpan (precSpan sy ly (i / npw)) sr oy
    let In := fun i k => i < npw * numPrec sy ly ∧ k < numCblk (bx i) cbx * numCblk (by' i) cby ∧
      Has (cblkSpan (bx i) cbx (k % numCblk (bx i) cbx)) u ∧ Has (cblkSpan (by' i) cby (k / numCblk (bx i) cbx)) v
    ∃ i k, In i k ∧ ∀ i' k', In i' k' → i' = i ∧ k' = k := by
  obtain ⟨a, ca, ⟨ha1, ha2, ha3⟩, ua⟩ := band_axis hx hu
  obtain ⟨b, cb, ⟨hb1, hb2, hb3⟩, ub⟩ := band_axis hy hv
  intro npw bx by' In
  have hn : 0 < npw := by show 0 < numPrec sx lx; omega
  have e1 : (a + npw * b) % npw = a := by rw [Nat.add_mul_mod_self_left, Nat.mod_eq_of_lt ha1]
  have e2 : (a + npw * b) / npw = b := by rw [Nat.add_mul_div_left _ _ hn, Nat.div_eq_of_lt ha1, Nat.zero_add]
  have hbx : bx (a + npw * b) = pbandSpan (precSpan sx lx a) sr ox := by show pbandSpan _ _ _ = _; rw [e1]
  have hby : by' (a + npw * b) = pbandSpan (precSpan sy ly b) sr oy := by show pbandSpan _ _ _ = _; rw [e2]
  generalize hnc : numCblk (pbandSpan (precSpan sx lx a) sr ox) cbx = nc at *
  have hncp : 0 < nc := by omega
  have e3 : (ca + nc * cb) % nc = ca := by rw [Nat.add_mul_mod_self_left, Nat.mod_eq_of_lt ha2]
  have e4 : (ca + nc * cb) / nc = cb := by rw [Nat.add_mul_div_left _ _ hncp, Nat.div_eq_of_lt ha2, Nat.zero_add]
  have lt2 : ∀ {p q n m : Nat}, p < n → q < m → p + n * q < n * m := by
    intro p q n m h1 h2
    calc p + n * q < n + n * q := by omega
      _ = n * (q + 1) := by rw [Nat.mul_add]; omega
      _ ≤ n * m := Nat.mul_le_mul_left _ h2
  refine ⟨a + npw * b, ca + nc * cb, ⟨lt2 ha1 hb1, ?_, ?_, ?_⟩, ?_⟩
  · rw [hbx, hby, hnc]; exact lt2 ha2 hb2
  · rw [hbx, hnc, e3]; exact ha3
  · rw [hbx, hby, hnc, e4]; exact hb3
  · rintro i k ⟨h1, h2, h3, h4⟩
    have hncp' : 0 < numCblk (bx i) cbx := by
      rcases Nat.eq_zero_or_pos (numCblk (bx i) cbx) with h | h
      · rw [h, Nat.zero_mul] at h2; omega
      · exact h
    have hx' := ua (i % npw) (k % numCblk (bx i) cbx) ⟨Nat.mod_lt _ hn, Nat.mod_lt _ hncp', h3⟩
    have hy' := ub (i / npw) (k / numCblk (bx i) cbx) ⟨Nat.div_lt_of_lt_mul h1, Nat.div_lt_of_lt_mul h2, h4⟩
    have hi : i = a + npw * b := by
      have := Nat.mod_add_div i npw; rw [hx'.1, hy'.1] at this; exact this.symm
    refine ⟨hi, ?_⟩
    have := Nat.mod_add_div k (numCblk (bx i) cbx)
    rw [hx'.2, hy'.2] at this
    rw [← this, hi, hbx, hnc]

/-- The subband with orientation 0 on an axis is the next lower resolution. -/
theorem C25_low_band_is_lower_resolution {tc : Span} {NL r : Nat} (hr : 0 < r) (hrn : r ≤ NL) (hl : NL - r + 1 < 32)
    (h1 : tc.1 + 2 ^ (NL - r + 1) ≤ 2 ^ 32) (h2 : tc.2 + 2 ^ (NL - r + 1) ≤ 2 ^ 32) :
    resSpan tc NL (r - 1) = some (bandSpan tc (NL - r + 1) 0) := by
  have e : NL - (r - 1) = NL - r + 1 := by omega
  unfold resSpan bandSpan
  rw [e, if_pos hl, Nat.mul_zero, usub_eq (Nat.zero_le _), usub_eq (Nat.zero_le _)]
  rfl

/-- One axis: the low and the high subband together have the size of the resolution. -/
theorem axis_split {tc s : Span} {NL r : Nat} (hrn : r ≤ NL) (hle : tc.1 ≤ tc.2) (hs : resSpan tc NL r = some s)
    (h2 : tc.2 + 2 ^ (NL - r + 1) ≤ 2 ^ 32) :
    size s = size (bandSpan tc (NL - r + 1) 0) + size (bandSpan tc (NL - r + 1) 1) := by
  have hlt : NL - r < 32 := by
    have := hs; unfold resSpan at this; split at this
    · assumption
    · simp at this
  have hp1 : 2 ^ (NL - r + 1) = 2 * 2 ^ (NL - r) := Nat.pow_succ'
  rw [resSpan_eq hlt (by omega) (by omega), Option.some.injEq] at hs
  rw [bandSpan_eq (by omega) (by omega) (by omega) (by omega), bandSpan_eq (by omega) (by omega) (by omega) (by omega),
    Nat.add_sub_cancel, ← hs]
  unfold size half
  have := cdiv_mono (b := 2 ^ (NL - r)) hle
  simp only
  omega

/-- **C25** (subbands).  The four subbands of a decomposition have together as many samples as the resolution they come
from. -/
theorem C25_subband_sizes {tcx tcy sx sy : Span} {NL r : Nat} (hrn : r ≤ NL) (hx : tcx.1 ≤ tcx.2) (hy : tcy.1 ≤ tcy.2)
    (ex : resSpan tcx NL r = some sx) (ey : resSpan tcy NL r = some sy)
    (rx : tcx.2 + 2 ^ (NL - r + 1) ≤ 2 ^ 32) (ry : tcy.2 + 2 ^ (NL - r + 1) ≤ 2 ^ 32) :
    let b := fun o => bandSpan tcx (NL - r + 1) o
    let d := fun o => bandSpan tcy (NL - r + 1) o
    size sx * size sy = size (b 0) * size (d 0) + size (b 1) * size (d 0) + size (b 0) * size (d 1) + size (b 1) * size (d 1) := by
  intro b d
  rw [axis_split hrn hx ex rx, axis_split hrn hy ey ry]
  show (size (b 0) + size (b 1)) * (size (d 0) + size (d 1)) = _
  ring

/-! ## The hypotheses are met -/

example : Legal ⟨1000, 30, 256, 20⟩ :=
  ⟨by decide, by decide, by decide, by decide, by decide, by decide⟩

example : AxisOk (30, 500) (8, 125) 3 1 5 64 2 1 :=
  ⟨by decide, by decide, by decide, by unfold Orient; decide, by decide, by decide, by decide, by decide⟩

example : tileSpan ⟨1000, 30, 256, 20⟩ 0 = (30, 276) ∧ tileSpan ⟨1000, 30, 256, 20⟩ 3 = (788, 1000) := by decide

/-- Without room for the 32-bit sum the code has no tile at all: one tile of the greatest size, not at the origin. -/
theorem C25_tile_end_wraps : numTiles ⟨100, 1, 2 ^ 32 - 1, 1⟩ = 0 ∧ tileSpan ⟨100, 1, 2 ^ 32 - 1, 1⟩ 0 = (1, 0) := by
  decide

end Verif.Tile
