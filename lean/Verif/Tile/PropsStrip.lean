import Verif.Tile.StripLemmas
/-
Property C66: decoding a subband strip by strip.
-/
namespace Verif.Tile.Strip

variable {α : Type}

/-! ## The layout of the tile geometry is sound -/

theorem cblk_plain {s : Span} {c x : Nat} (hc : 0 < c) (hr : s.2 + c ≤ 2 ^ 32) (hx : x < numCblk s c) :
    cblkSpan s c x = (max s.1 (c * (x + s.1 / c)), min s.2 (c * (x + 1 + s.1 / c))) ∧
      (cblkSpan s c x).1 < (cblkSpan s c x).2 ∧ c * (x + s.1 / c) < s.2 ∧ s.1 < s.2 := by
  have hs := numCell_pos hx
  have hx' := hx
  rw [numCblk_cell, numCell_eq hc hs hr] at hx'
  have h1 : (x + s.1 / c) * c < s.2 := (lt_cdiv hc).1 (by omega)
  rw [Nat.mul_comm] at h1
  have e : c * (x + 1 + s.1 / c) = c * (x + s.1 / c) + c := by ring
  have h2 : s.1 < c * (x + 1 + s.1 / c) := by
    have h3 := Nat.lt_div_mul_add hc (a := s.1)
    have h4 := Nat.mul_le_mul_left c (Nat.le_add_left (s.1 / c) x)
    rw [Nat.mul_comm] at h3; omega
  have key : cblkSpan s c x = (max s.1 (c * (x + s.1 / c)), min s.2 (c * (x + 1 + s.1 / c))) := by
    rw [cblkSpan_cell, cellSpan_eq hc hr (by rw [← numCblk_cell]; exact hx)]
    unfold cellB
    apply Prod.ext <;> simp only <;> omega
  refine ⟨key, ?_, h1, hs⟩
  rw [key]
  simp only
  omega

/-- One axis: the part of a precinct in the subband. -/
theorem pband_in {tc s : Span} {NL r lpp cb sr o : Nat} (h : AxisOk tc s NL r lpp cb sr o) {k : Nat}
    (hk : k < numPrec s lpp) :
    (subbandSpan tc s NL r o).1 ≤ (pbandSpan (precSpan s lpp k) sr o).1 ∧
      (pbandSpan (precSpan s lpp k) sr o).2 ≤ (subbandSpan tc s NL r o).2 ∧
      (pbandSpan (precSpan s lpp k) sr o).2 + cb ≤ 2 ^ 32 ∧
      (numPrec s lpp = 1 → pbandSpan (precSpan s lpp k) sr o = subbandSpan tc s NL r o) := by
  have ho := h.orient
  have hlt : NL - r < 32 := by
    have := h.res; unfold resSpan at this; split at this
    · assumption
    · simp at this
  have hp1 : 2 ^ (NL - r + 1) = 2 * 2 ^ (NL - r) := Nat.pow_succ'
  have r1 := h.room1
  have hle := h.le
  have hse : s = (cdiv tc.1 (2 ^ (NL - r)), cdiv tc.2 (2 ^ (NL - r))) := by
    have := h.res
    rw [resSpan_eq hlt (by omega) (by omega), Option.some.injEq] at this
    exact this.symm
  have hs : s.1 ≤ s.2 := by rw [hse]; exact cdiv_mono h.le
  have hor : (sr = 1 ∧ o = 0) ∨ (sr = 2 ∧ o ≤ 1) := by unfold Orient at ho; split at ho; · exact .inl ho
                                                       · exact .inr ho
  have hband : subbandSpan tc s NL r o = (bandMap sr o s.1, bandMap sr o s.2) := by
    unfold subbandSpan bandMap
    unfold Orient at ho
    split
    · rename_i hr; rw [if_pos hr] at ho; rw [if_pos ho.1, if_pos ho.1]
    · rename_i hr
      rw [if_neg hr] at ho
      rw [if_neg (by omega), if_neg (by omega), bandSpan_eq (by omega) ho.2 (by omega) (by omega), Nat.add_sub_cancel, hse]
  have bm : ∀ x, bandMap sr o x ≤ x + 1 := by
    intro x; unfold bandMap half; split <;> omega
  have r3 := h.room3
  have b : ∀ i, cellB s (2 ^ lpp) i ≤ s.2 := by intro i; unfold cellB; omega
  have b' : ∀ i, s.1 ≤ cellB s (2 ^ lpp) i := by intro i; unfold cellB; omega
  have hin : pbandSpan (precSpan s lpp k) sr o =
      (bandMap sr o (cellB s (2 ^ lpp) k), bandMap sr o (cellB s (2 ^ lpp) (k + 1))) := by
    rw [precSpan_cell, cellSpan_eq (Nat.two_pow_pos _) h.room2 hk]
    have b1 := b k; have b2 := b (k + 1)
    exact pband_eq hor (by simp only; omega) (by simp only; omega)
  rw [hin, hband]
  refine ⟨bandMap_mono _ _ (b' k), bandMap_mono _ _ (b _), ?_, ?_⟩
  · have b2 := b (k + 1)
    have := bm (cellB s (2 ^ lpp) (k + 1))
    simp only
    omega
  · intro h1
    have hk0 : k = 0 := by omega
    subst hk0
    have e := cellB_last (Nat.two_pow_pos lpp) hs h.room2
    rw [← numPrec_cell, h1] at e
    rw [cellB_zero hs, Nat.zero_add, e]

/-- The subband of a resolution, with its precincts and code-blocks. -/
theorem layout_sound {tcx tcy sx sy : Span} {NL r lx ly cbx cby sr ox oy stride : Nat}
    (hx : AxisOk tcx sx NL r lx cbx sr ox) (hy : AxisOk tcy sy NL r ly cby sr oy)
    (hst : size (subbandSpan tcx sx NL r ox) ≤ stride) (data : Id → Option (Nat → Nat → α)) :
    Sound (layout sx sy (subbandSpan tcx sx NL r ox) (subbandSpan tcy sy NL r oy) lx ly cbx cby sr ox oy stride data) := by
  have hpos : ∀ {p : Nat}, p < numPrec sx lx * numPrec sy ly → p % numPrec sx lx < numPrec sx lx ∧
      p / numPrec sx lx < numPrec sy ly := by
    intro p hp
    have : 0 < numPrec sx lx := by
      rcases Nat.eq_zero_or_pos (numPrec sx lx) with h | h
      · rw [h, Nat.zero_mul] at hp; omega
      · exact h
    exact ⟨Nat.mod_lt _ this, Nat.div_lt_of_lt_mul hp⟩
  have cellY : ∀ p q, p < numPrec sx lx * numPrec sy ly →
      q < numCblk (pbandSpan (precSpan sy ly (p / numPrec sx lx)) sr oy) cby → _ :=
    fun p q hp hq => cblk_plain hy.cblk (pband_in hy (hpos hp).2).2.2.1 hq
  have cellX : ∀ p q, p < numPrec sx lx * numPrec sy ly →
      q < numCblk (pbandSpan (precSpan sx lx (p % numPrec sx lx)) sr ox) cbx → _ :=
    fun p q hp hq => cblk_plain hx.cblk (pband_in hx (hpos hp).1).2.2.1 hq
  refine ⟨hy.cblk, ?_, ?_, ?_, ?_, ?_⟩
  · rintro ⟨p, q, c⟩ ⟨h1, h2, h3⟩
    exact (cellY p q h1 h2).1
  · rintro ⟨p, q, c⟩ ⟨h1, h2, h3⟩
    exact (cellY p q h1 h2).2.1
  · rintro ⟨p, q, c⟩ ⟨h1, h2, h3⟩
    have := pband_in hy (hpos h1).2
    exact ⟨this.1, this.2.1⟩
  · rintro ⟨p, q, c⟩ ⟨h1, h2, h3⟩
    have a := pband_in hx (k := p % numPrec sx lx) (hpos h1).1
    have b := (cellX p c h1 h3).1
    show (subbandSpan tcx sx NL r ox).1 ≤ (cblkSpan (pbandSpan (precSpan sx lx (p % numPrec sx lx)) sr ox) cbx c).1 ∧
      (cblkSpan (pbandSpan (precSpan sx lx (p % numPrec sx lx)) sr ox) cbx c).2 ≤ (subbandSpan tcx sx NL r ox).1 + stride
    rw [b]
    unfold size at hst
    simp only
    omega
  · rintro ⟨p, q, c⟩ ⟨p', q', c'⟩ ⟨h1, h2, h3⟩ ⟨h1', h2', h3'⟩ y x a1 a2 b1 b2
    simp only [layout] at h1 h2 h3 h1' h2' h3'
    have a1 : Has (cblkSpan (pbandSpan (precSpan sy ly (p / numPrec sx lx)) sr oy) cby q) y := a1
    have a2 : Has (cblkSpan (pbandSpan (precSpan sx lx (p % numPrec sx lx)) sr ox) cbx c) x := a2
    have b1 : Has (cblkSpan (pbandSpan (precSpan sy ly (p' / numPrec sx lx)) sr oy) cby q') y := b1
    have b2 : Has (cblkSpan (pbandSpan (precSpan sx lx (p' % numPrec sx lx)) sr ox) cbx c') x := b2
    have hyin : Has (subbandSpan tcy sy NL r oy) y := by
      have e := (cellY p q h1 h2).1
      have i := pband_in hy (hpos h1).2
      rw [e] at a1
      unfold Has at a1 ⊢
      simp only at a1
      omega
    have hxin : Has (subbandSpan tcx sx NL r ox) x := by
      have e := (cellX p c h1 h3).1
      have i := pband_in hx (hpos h1).1
      rw [e] at a2
      unfold Has at a2 ⊢
      simp only at a2
      omega
    obtain ⟨ky, cy, -, uy⟩ := band_axis hy hyin
    obtain ⟨kx, cx, -, ux⟩ := band_axis hx hxin
    have y1 := uy _ _ ⟨(hpos h1).2, h2, a1⟩
    have y2 := uy _ _ ⟨(hpos h1').2, h2', b1⟩
    have x1 := ux _ _ ⟨(hpos h1).1, h3, a2⟩
    have x2 := ux _ _ ⟨(hpos h1').1, h3', b2⟩
    have m1 := Nat.mod_add_div p (numPrec sx lx)
    have m2 := Nat.mod_add_div p' (numPrec sx lx)
    rw [x1.1, y1.1] at m1
    rw [x2.1, y2.1] at m2
    rw [← m1, ← m2, y1.2, y2.2, x1.2, x2.2]

/-! ## Theorems -/

/-- Two axes of a subband, and the row buffer of that subband. -/
structure Setup (tcx tcy sx sy : Span) (NL r lx ly cbx cby sr ox oy stride : Nat) : Prop where
  x : AxisOk tcx sx NL r lx cbx sr ox
  y : AxisOk tcy sy NL r ly cby sr oy
  stride : size (subbandSpan tcx sx NL r ox) ≤ stride

section
variable [Zero α] {tcx tcy sx sy : Span} {NL r lx ly cbx cby sr ox oy stride : Nat}

/-- The row buffer of the subband of orientation `ox`, `oy` of resolution `r`. -/
abbrev buf (tcx tcy sx sy : Span) (NL r lx ly cbx cby sr ox oy stride : Nat) (data : Id → Option (Nat → Nat → α)) : Band α :=
  layout sx sy (subbandSpan tcx sx NL r ox) (subbandSpan tcy sy NL r oy) lx ly cbx cby sr ox oy stride data

/-- **C66** (rows).  When no code-block has rows in two strips, the rows of a subband can be asked for in order (each
repeated any number of times, from any row on): nothing outside the buffers is touched, no code-block is decoded twice,
and every row handed out holds at every column the sample of the code-block that contains that point.  For any order of
the decoding tasks, with or without the prefetching pool, whatever the buffers hold at first. -/
theorem C66_rows (h : Setup tcx tcy sx sy NL r lx ly cbx cby sr ox oy stride) (data : Id → Option (Nat → Nat → α))
    (hs : NoStraddle (buf tcx tcy sx sy NL r lx ly cbx cby sr ox oy stride data)) {sched : List Id → List Id}
    (hsc : ∀ l, (sched l).Perm l) (pool : Bool) (m m' : Ring α) (rows : List Nat)
    (hc : rows.IsChain (fun a b => b = a ∨ b = a + 1)) (hin : ∀ y, y ∈ rows → Has (subbandSpan tcy sy NL r oy) y) :
    let B := buf tcx tcy sx sy NL r lx ly cbx cby sr ox oy stride data
    ∃ vs, readRows B sched pool rows (St.init m m') = .ok vs ∧
      List.Forall₂ (fun y v => ∀ x, Has (subbandSpan tcx sx NL r ox) x →
        ∃ i, Valid B i ∧ Has (B.get i).ys y ∧ Has (B.get i).xs x ∧
          v (x - (subbandSpan tcx sx NL r ox).1) = (B.get i).sample y x) rows vs := by
  intro B
  have hsd := layout_sound h.x h.y h.stride data
  obtain ⟨vs, e, ok⟩ := readRows_ok B hsd hs hsc pool m m' rows hc hin
  refine ⟨vs, e, ?_⟩
  have key : ∀ y v, y ∈ rows → RowOk B y v → ∀ x, Has (subbandSpan tcx sx NL r ox) x →
        ∃ i, Valid B i ∧ Has (B.get i).ys y ∧ Has (B.get i).xs x ∧
          v (x - (subbandSpan tcx sx NL r ox).1) = (B.get i).sample y x := by
    intro y v hy hok x hx
    obtain ⟨ky, cy, ⟨y1, y2, y3⟩, -⟩ := band_axis h.y (hin y hy)
    obtain ⟨kx, cx, ⟨x1, x2, x3⟩, -⟩ := band_axis h.x hx
    have hn : 0 < numPrec sx lx := by omega
    have e1 : (kx + numPrec sx lx * ky) % numPrec sx lx = kx := by rw [Nat.add_mul_mod_self_left, Nat.mod_eq_of_lt x1]
    have e2 : (kx + numPrec sx lx * ky) / numPrec sx lx = ky := by
      rw [Nat.add_mul_div_left _ _ hn, Nat.div_eq_of_lt x1, Nat.zero_add]
    have hv : Valid B (kx + numPrec sx lx * ky, cy, cx) := by
      refine ⟨?_, ?_, ?_⟩
      · show _ < numPrec sx lx * numPrec sy ly
        calc kx + numPrec sx lx * ky < numPrec sx lx + numPrec sx lx * ky := by omega
          _ = numPrec sx lx * (ky + 1) := by ring
          _ ≤ _ := Nat.mul_le_mul_left _ y1
      · simp only [B, layout, e2]; exact y2
      · simp only [B, layout, e1]; exact x2
    have hy' : Has (B.get (kx + numPrec sx lx * ky, cy, cx)).ys y := by
      simp only [B, layout, Band.get, e2]; exact y3
    have hx' : Has (B.get (kx + numPrec sx lx * ky, cy, cx)).xs x := by
      simp only [B, layout, Band.get, e1]; exact x3
    exact ⟨_, hv, hy', hx', hok _ hv x hy' hx'⟩
  clear e
  clear_value B
  clear hs hsd hc
  induction ok with
  | nil => exact .nil
  | cons h1 h2 ih =>
    refine .cons (key _ _ (List.mem_cons_self ..) h1) (ih (fun y hy => hin y (List.mem_cons_of_mem _ hy)) ?_)
    exact fun y v hy => key y v (List.mem_cons_of_mem _ hy)

/-- **C66** (exactly when).  All rows of a subband can be read if and only if no code-block has rows in two strips. -/
theorem C66_all_rows_iff (h : Setup tcx tcy sx sy NL r lx ly cbx cby sr ox oy stride)
    (data : Id → Option (Nat → Nat → α)) {sched : List Id → List Id}
    (hsc : ∀ l, (sched l).Perm l) (pool : Bool) (m m' : Ring α) :
    let B := buf tcx tcy sx sy NL r lx ly cbx cby sr ox oy stride data
    let s := subbandSpan tcy sy NL r oy
    (∃ vs, readRows B sched pool (List.range' s.1 (size s)) (St.init m m') = .ok vs) ↔
      ∀ i, Valid B i → ∀ k, ¬ ((B.get i).ys.1 < s.1 + k * cby ∧ s.1 + k * cby < (B.get i).ys.2) := by
  intro B s
  have hsd : Sound B := layout_sound h.x h.y h.stride data
  have hall : ∀ q, q ∈ List.range' s.1 (size s) → Has B.ys q := by
    intro q hq
    rw [List.mem_range'_1] at hq
    unfold size at hq
    exact ⟨hq.1, by show q < s.2; omega⟩
  constructor
  · rintro ⟨vs, e⟩ i hv k ⟨h1, h2⟩
    have hbad := core_bad B hsd hsc (k := k) hv h1 h2
    refine readRows_bad B hsd pool hbad _ _ vs hall (.inl rfl) (.inl rfl) e (s.1 + k * cby) ?_ ?_
    · have := ys_in B hsd hv
      rw [List.mem_range'_1]
      unfold size
      have : (B.get i).ys.2 ≤ s.2 := this.2
      omega
    · have := ys_in B hsd hv
      have h3 : (B.get i).ys.2 ≤ s.2 := this.2
      have := h.y.cblk
      refine ⟨Nat.le_refl _, ?_⟩
      show s.1 + k * cby < min (s.1 + k * cby + cby) s.2
      omega
  · intro hs
    have hc : ∀ n a, (List.range' a n).IsChain (fun a b => b = a ∨ b = a + 1) := by
      intro n
      induction n with
      | zero => intro a; exact .nil
      | succ n ih =>
        intro a
        cases n with
        | zero => exact .singleton _
        | succ n => exact .cons_cons (.inr rfl) (ih (a + 1))
    obtain ⟨vs, e, -⟩ := readRows_ok B hsd hs hsc pool m m' _ (hc _ _) hall
    exact ⟨vs, e⟩

omit [Zero α] in
/-- **C66** (aligned).  No code-block has rows in two strips when the subband begins at a multiple of the code-block
height, or is no taller than a code-block. -/
theorem C66_aligned (h : Setup tcx tcy sx sy NL r lx ly cbx cby sr ox oy stride) (data : Id → Option (Nat → Nat → α))
    (ha : cby ∣ (subbandSpan tcy sy NL r oy).1 ∨ size (subbandSpan tcy sy NL r oy) ≤ cby) :
    NoStraddle (buf tcx tcy sx sy NL r lx ly cbx cby sr ox oy stride data) := by
  intro i hv k
  unfold buf at hv ⊢
  have hsd := layout_sound h.x h.y h.stride data
  have e := hsd.rows i hv
  have hin := ys_in _ hsd hv
  have hso := hsd.some i hv
  generalize hB : layout sx sy (subbandSpan tcx sx NL r ox) (subbandSpan tcy sy NL r oy) lx ly cbx cby sr ox oy stride
    data = B at *
  have hcb : B.cbh = cby := by rw [← hB]; rfl
  have hys : B.ys = subbandSpan tcy sy NL r oy := by rw [← hB]; rfl
  rw [hcb] at e ⊢
  rw [hys] at hin ⊢
  rintro ⟨h1, h2⟩
  rcases ha with ⟨q, hq⟩ | ha
  · rw [e] at h1 h2
    rw [hq] at h1 h2
    simp only at h1 h2
    have e1 : cby * q + k * cby = cby * (q + k) := by ring
    rw [e1] at h1 h2
    have a1 : cby * (i.2.1 + (B.pb i.1).ys.1 / cby) < cby * (q + k) := by omega
    have a2 : cby * (q + k) < cby * (i.2.1 + 1 + (B.pb i.1).ys.1 / cby) := by omega
    have := Nat.lt_of_mul_lt_mul_left a1
    have := Nat.lt_of_mul_lt_mul_left a2
    omega
  · unfold size at ha
    cases k with
    | zero => omega
    | succ k =>
      have : (k + 1) * cby = k * cby + cby := by ring
      omega

/-- **C66** (not aligned).  When precincts do not cut the subband vertically, a subband that begins off the code-block grid
and is taller than a code-block cannot be read: asking for its rows makes the decoder write outside the strip buffer. -/
theorem C66_misaligned (h : Setup tcx tcy sx sy NL r lx ly cbx cby sr ox oy stride) (data : Id → Option (Nat → Nat → α))
    (hone : numPrec sy ly = 1) (hx0 : ∃ x, Has (subbandSpan tcx sx NL r ox) x)
    (hna : ¬ cby ∣ (subbandSpan tcy sy NL r oy).1) (htall : cby < size (subbandSpan tcy sy NL r oy))
    {sched : List Id → List Id} (hsc : ∀ l, (sched l).Perm l) (pool : Bool) (m m' : Ring α) :
    let s := subbandSpan tcy sy NL r oy
    ∀ vs, readRows (buf tcx tcy sx sy NL r lx ly cbx cby sr ox oy stride data) sched pool
      (List.range' s.1 (size s)) (St.init m m') ≠ .ok vs := by
  intro s vs e
  have hcb := h.y.cblk
  have hno := (C66_all_rows_iff h data hsc pool m m').1 ⟨vs, e⟩
  obtain ⟨x, hx⟩ := hx0
  obtain ⟨kx, cx, ⟨x1, x2, -⟩, -⟩ := band_axis h.x hx
  have e1 : kx % numPrec sx lx = kx := Nat.mod_eq_of_lt x1
  have e2 : kx / numPrec sx lx = 0 := Nat.div_eq_of_lt x1
  have hp := (pband_in h.y (k := 0) (by omega)).2.2
  have hpe := hp.2 hone
  have hroom := hp.1
  have hs12 : (subbandSpan tcy sy NL r oy).1 < (subbandSpan tcy sy NL r oy).2 := by
    unfold size at htall; omega
  have hq1 : 1 < numCblk (subbandSpan tcy sy NL r oy) cby := by
    rw [hpe] at hroom
    rw [numCblk_cell, numCell_eq hcb hs12 hroom]
    have : (1 + (subbandSpan tcy sy NL r oy).1 / cby) < cdiv (subbandSpan tcy sy NL r oy).2 cby := by
      rw [lt_cdiv hcb]
      have := Nat.div_mul_le_self (subbandSpan tcy sy NL r oy).1 cby
      unfold size at htall
      rw [Nat.add_mul]
      omega
    omega
  have hv : Valid (buf tcx tcy sx sy NL r lx ly cbx cby sr ox oy stride data) (kx, 1, cx) := by
    refine ⟨?_, ?_, ?_⟩
    · show kx < numPrec sx lx * numPrec sy ly
      rw [hone]; omega
    · show 1 < numCblk (pbandSpan (precSpan sy ly (kx / numPrec sx lx)) sr oy) cby
      rw [e2, hpe]; exact hq1
    · show cx < numCblk (pbandSpan (precSpan sx lx (kx % numPrec sx lx)) sr ox) cbx
      rw [e1]; exact x2
  apply hno _ hv 1
  have hr : (Band.get (buf tcx tcy sx sy NL r lx ly cbx cby sr ox oy stride data) (kx, 1, cx)).ys =
      cblkSpan (subbandSpan tcy sy NL r oy) cby 1 := by
    show cblkSpan (pbandSpan (precSpan sy ly (kx / numPrec sx lx)) sr oy) cby 1 = _
    rw [e2, hpe]
  rw [hr, (cblk_plain hcb (by rw [← hpe]; exact hroom) hq1).1]
  have h1 := Nat.mul_div_le (subbandSpan tcy sy NL r oy).1 cby
  have h2 : cby * ((subbandSpan tcy sy NL r oy).1 / cby) ≠ (subbandSpan tcy sy NL r oy).1 := by
    intro hc; exact hna ⟨_, hc.symm⟩
  have h3 := Nat.lt_div_mul_add hcb (a := (subbandSpan tcy sy NL r oy).1)
  rw [Nat.mul_comm] at h3
  have e3 : cby * (1 + (subbandSpan tcy sy NL r oy).1 / cby) =
    cby * ((subbandSpan tcy sy NL r oy).1 / cby) + cby := by ring
  have e4 : cby * (1 + 1 + (subbandSpan tcy sy NL r oy).1 / cby) =
    cby * ((subbandSpan tcy sy NL r oy).1 / cby) + cby + cby := by ring
  rw [e3, e4]
  unfold size at htall
  simp only
  omega

/-- **C66** (power-of-two tiles).  In a tile-component whose first row is a multiple of `2 ^ e` and which has at most `2 ^ e`
rows, every subband is aligned with the code-block grid or no taller than a code-block. -/
theorem C66_pow2_tile {tc s : Span} {NL r lpp c sr o e t : Nat} (h : AxisOk tc s NL r lpp (2 ^ c) sr o)
    (h1 : tc.1 = 2 ^ e * t) (h2 : tc.2 ≤ 2 ^ e * (t + 1)) :
    2 ^ c ∣ (subbandSpan tc s NL r o).1 ∨ size (subbandSpan tc s NL r o) ≤ 2 ^ c := by
  have ho := h.orient
  have hlt : NL - r < 32 := by
    have := h.res; unfold resSpan at this; split at this
    · assumption
    · simp at this
  have hp1 : 2 ^ (NL - r + 1) = 2 * 2 ^ (NL - r) := Nat.pow_succ'
  have r1 := h.room1
  have hle := h.le
  have hse : s = (cdiv tc.1 (2 ^ (NL - r)), cdiv tc.2 (2 ^ (NL - r))) := by
    have := h.res
    rw [resSpan_eq hlt (by omega) (by omega), Option.some.injEq] at this
    exact this.symm
  have hband : subbandSpan tc s NL r o = if r = 0 then s else (half o s.1, half o s.2) := by
    unfold subbandSpan
    unfold Orient at ho
    split
    · rfl
    · rename_i hr
      rw [if_neg hr] at ho
      rw [bandSpan_eq (by omega) ho.2 (by omega) (by omega), Nat.add_sub_cancel, hse]
  have ho1 : o ≤ 1 := by
    unfold Orient at ho; split at ho <;> omega
  have hc1 : 1 ≤ 2 ^ c := Nat.one_le_two_pow
  -- a resolution
  have hres : (∃ f, s.1 = 2 ^ f * t ∧ s.2 ≤ 2 ^ f * (t + 1)) ∨ s.2 ≤ s.1 + 1 := by
    rw [hse]
    simp only
    rcases Nat.le_total (NL - r) e with hm | hm
    · left
      refine ⟨e - (NL - r), ?_, ?_⟩
      · have : 2 ^ e = 2 ^ (e - (NL - r)) * 2 ^ (NL - r) := by rw [← Nat.pow_add]; congr 1; omega
        rw [h1, this]
        apply Nat.le_antisymm
        · rw [cdiv_le (Nat.two_pow_pos _)]; apply Nat.le_of_eq; ring
        · by_contra hlt
          have hlt : cdiv (2 ^ (e - (NL - r)) * 2 ^ (NL - r) * t) (2 ^ (NL - r)) < 2 ^ (e - (NL - r)) * t := by omega
          have := (cdiv_le (Nat.two_pow_pos (NL - r))).1 (Nat.le_refl (cdiv (2 ^ (e - (NL - r)) * 2 ^ (NL - r) * t) (2 ^ (NL - r))))
          have h3 := Nat.mul_lt_mul_of_pos_right hlt (Nat.two_pow_pos (NL - r))
          have e3 : 2 ^ (e - (NL - r)) * t * 2 ^ (NL - r) = 2 ^ (e - (NL - r)) * 2 ^ (NL - r) * t := by ring
          omega
      · have : 2 ^ e = 2 ^ (e - (NL - r)) * 2 ^ (NL - r) := by rw [← Nat.pow_add]; congr 1; omega
        rw [cdiv_le (Nat.two_pow_pos _)]
        refine Nat.le_trans h2 ?_
        rw [this]
        apply Nat.le_of_eq; ring
    · right
      rw [cdiv_le (Nat.two_pow_pos _)]
      have := (cdiv_le (Nat.two_pow_pos (NL - r))).1 (Nat.le_refl (cdiv tc.1 (2 ^ (NL - r))))
      have h3 : 2 ^ e ≤ 2 ^ (NL - r) := Nat.pow_le_pow_right (by omega) hm
      rw [Nat.add_mul, Nat.one_mul]
      have e3 : 2 ^ e * (t + 1) = 2 ^ e * t + 2 ^ e := by ring
      omega
  -- aligned or short, for a span of this shape
  have hfin : ∀ (f : Nat) (u : Span), u.1 = 2 ^ f * t → u.2 ≤ 2 ^ f * (t + 1) → 2 ^ c ∣ u.1 ∨ size u ≤ 2 ^ c := by
    intro f u e1 e2
    rcases Nat.le_total c f with hcf | hcf
    · left
      rw [e1]
      exact Nat.dvd_trans (Nat.pow_dvd_pow 2 hcf) (Nat.dvd_mul_right _ _)
    · right
      have : 2 ^ f ≤ 2 ^ c := Nat.pow_le_pow_right (by omega) hcf
      have e3 : 2 ^ f * (t + 1) = 2 ^ f * t + 2 ^ f := by ring
      unfold size
      omega
  rw [hband]
  split
  · rcases hres with ⟨f, a, b⟩ | hres
    · exact hfin f s a b
    · right; unfold size; omega
  · rcases hres with ⟨f, a, b⟩ | hres
    · cases f with
      | zero =>
        right
        unfold size half
        simp only
        omega
      | succ f =>
        apply hfin f
        · simp only [half]
          have : 2 ^ (f + 1) * t = 2 * (2 ^ f * t) := by ring
          omega
        · simp only [half]
          have : 2 ^ (f + 1) * (t + 1) = 2 * (2 ^ f * (t + 1)) := by ring
          omega
    · right
      unfold size half
      simp only
      omega

/-! ## The hypotheses are met -/

/-- The vertically low, horizontally high subband of the finest level of a tile of 192 rows by 512 columns at row 192: it
begins at row 96, code-blocks are 64 by 64, precincts are of the greatest size. -/
theorem setup_192 : Setup (0, 512) (192, 384) (0, 512) (192, 384) 1 1 15 15 64 64 2 1 0 256 :=
  ⟨⟨by decide, by decide, by decide, by unfold Orient; decide, by decide, by decide, by decide, by decide⟩,
   ⟨by decide, by decide, by decide, by unfold Orient; decide, by decide, by decide, by decide, by decide⟩, by decide⟩

/-- **C66** (finding).  The second row of tiles of an image with tiles of 192 rows, one decomposition level and code-blocks
of 64 by 64 cannot be decoded: reading the rows of its HL subband writes outside the strip buffer, with any data. -/
theorem C66_tile_192 (data : Id → Option (Nat → Nat → Int)) (m m' : Ring Int) (pool : Bool) (vs : List (Nat → Int)) :
    readRows (buf (0, 512) (192, 384) (0, 512) (192, 384) 1 1 15 15 64 64 2 1 0 256 data) id pool (List.range' 96 96)
      (St.init m m') ≠ .ok vs :=
  C66_misaligned setup_192 data (by decide) ⟨0, by unfold Has; decide⟩ (by decide) (by decide) (fun l => List.Perm.refl l) pool m m' vs

/-- A tile of 256 rows at row 256: aligned. -/
example : Setup (0, 512) (256, 512) (0, 512) (256, 512) 1 1 15 15 64 64 2 1 0 256 ∧
    64 ∣ (subbandSpan (256, 512) (256, 512) 1 1 0).1 :=
  ⟨⟨⟨by decide, by decide, by decide, by unfold Orient; decide, by decide, by decide, by decide, by decide⟩,
   ⟨by decide, by decide, by decide, by unfold Orient; decide, by decide, by decide, by decide, by decide⟩, by decide⟩,
   by decide⟩

/-- A small case that is run: rows 6 to 12 of a subband with code-blocks of 4 rows; the first strip is rows 6 to 10 and
meets the code-block of rows 8 to 12, which needs rows 2 to 6 of a buffer of 5 rows. -/
example :
    let B : Band Int := buf (0, 8) (12, 24) (0, 8) (12, 24) 1 1 15 15 4 4 2 1 0 4 (fun _ => none)
    ((stripIds B 6 10).map (fun i => (B.get i).ys) = [(6, 8), (8, 12)]) ∧
    (match readRows B id false [6] (St.init (fun _ _ => 0) (fun _ _ => 0)) with
      | .error b => some b | .ok _ => none) = some Bad.oob := by
  intro B
  exact ⟨by decide, by decide⟩

end
end Verif.Tile.Strip
