import Verif.Tile.RowsLemmas
/-
C77: what the streaming decoder hands out row by row, and what reaches the file of a component.
Model: `Tile/Rows`.  Specification: `Comp.shown`, `Job.shown`, `Job.Regular`, `Columns` (in `Tile/RowsLemmas`), `Covers` below.
-/
namespace Verif.Tile.Rows
variable {ρ σ : Type}

/-! ### One tile -/

/-- **C77 (one tile).**  The callback is called once for every row asked for, in order, and with row `y` each component shows the row
that belongs there. -/
theorem C77_tile_rows (J : Job ρ σ) (h : J.Regular) :
    J.run = some ((List.range' J.rowLo (J.effectiveH - J.rowLo)).map fun y => (y, (List.range J.nc).map (J.shown y))) :=
  run_eq J h

/-- **C77 (every row of a subsampled component).**  Row `k` of a component that does not go through the colour transform is handed out
with row `k * yr` of the picture. -/
theorem C77_rows_in_time (J : Job ρ σ) (h : J.Regular) (hlo : J.rowLo = 0) {c k : Nat} (hc : c < J.nc) (hm : J.main c = false)
    (hk : k < (J.comp c).height) (he : k * (J.comp c).yr < J.effectiveH) :
    ∃ cbs rows, J.run = some cbs ∧ cbs[k * (J.comp c).yr]? = some (k * (J.comp c).yr, rows) ∧
      rows[c]? = ((J.comp c).rows[k]?).map (J.comp c).fin := by
  have hp := h.pos c hc
  refine ⟨_, (List.range J.nc).map (J.shown (k * (J.comp c).yr)), run_eq J h, ?_, ?_⟩
  · rw [hlo, List.getElem?_map, List.getElem?_range' (by omega)]
    simp
  · rw [range_map_get _ hc]
    unfold Job.shown Comp.shown
    rw [hm, hlo, Nat.mul_div_cancel _ hp, Nat.min_eq_left (by omega)]
    have : (J.comp c).rows[k]? = some ((J.comp c).rows[k]'hk) := List.getElem?_eq_getElem hk
    rw [this]
    simp

/-- Factors that divide the largest one (say 1 and 2, or 1, 2 and 4) make strips begin where rows begin. -/
theorem C77_strips_aligned (J : Job ρ σ) (hf : J.nc ≤ 16) (hp : ∀ c < J.nc, 0 < (J.comp c).yr)
    (hd : ∀ c < J.nc, (J.comp c).yr ∣ J.maxYr) : J.Regular :=
  ⟨hf, hp, fun c hc _ => Nat.dvd_trans (hd c hc) (Nat.dvd_mul_left _ _)⟩

theorem foldl_max_le (l : List Nat) (b : Nat) (hl : ∀ x ∈ l, x ≤ b) : ∀ a ≤ b, l.foldl max a ≤ b := by
  induction l with
  | nil => intro a h; exact h
  | cons x l ih =>
    intro a h
    exact ih (fun y hy => hl y (List.mem_cons_of_mem _ hy)) _ (Nat.max_le.2 ⟨h, hl x List.mem_cons_self⟩)

theorem foldl_max_mem (l : List Nat) {x : Nat} (hx : x ∈ l) : ∀ a, x ≤ l.foldl max a := by
  induction l with
  | nil => cases hx
  | cons y l ih =>
    intro a
    rcases List.mem_cons.1 hx with h | h
    · subst h; exact Nat.le_trans (Nat.le_max_right a x) (foldl_max_ge _ _)
    · exact ih h _

/-- 4:4:4, 4:2:2 and 4:2:0 pictures of at most 16 components are covered. -/
theorem C77_factors_one_two (J : Job ρ σ) (hf : J.nc ≤ 16) (hp : ∀ c < J.nc, (J.comp c).yr = 1 ∨ (J.comp c).yr = 2) : J.Regular := by
  refine C77_strips_aligned J hf (fun c hc => by rcases hp c hc with h | h <;> omega) fun c hc => ?_
  have h1 : J.maxYr ≤ 2 := by
    refine foldl_max_le _ _ (fun x hx => ?_) 1 (by omega)
    obtain ⟨d, hd, rfl⟩ := List.mem_map.1 hx
    rcases hp d (List.mem_range.1 hd) with h | h <;> omega
  have h2 : (J.comp c).yr ≤ J.maxYr := foldl_max_mem ((List.range J.nc).map fun c => (J.comp c).yr) (List.mem_map.2 ⟨c, List.mem_range.2 hc, rfl⟩) 1
  rcases hp c hc with h | h
  · rw [h]; exact Nat.one_dvd _
  · rw [h, show J.maxYr = 2 by omega]
    exact Nat.dvd_refl _

/-- **C77 refuted (17 components).**  `counts` has 16 entries; with more components it is written behind its end. -/
theorem C77_seventeen_components (J : Job ρ σ) (hn : 16 < J.nc) (hlo : J.rowLo = 0) (he : 0 < J.effectiveH) : J.run = none := by
  unfold Job.run Job.startStrip
  rw [hlo, if_neg (by omega)]
  unfold Job.strips
  rw [if_neg (by omega)]
  have : ∀ cur y1, J.buffers cur 0 y1 = none := fun cur y1 =>
    mapM_none _ (List.mem_range.2 hn) (by unfold Job.count; rw [if_pos (by omega)]; rfl)
  simp only [this]
  rfl

/-- **C77 refuted (first row).**  If the rows asked for begin inside a row of a subsampled component, the callback gets zeros for that
component until the next row of it begins. -/
theorem C77_first_row_blank (J : Job ρ σ) (h : J.Regular) {c y : Nat} (hc : c < J.nc) (hm : J.main c = false)
    (hd : ¬ (J.comp c).yr ∣ J.rowLo) (hy : J.rowLo ≤ y) (hy' : y / (J.comp c).yr = J.rowLo / (J.comp c).yr) (he : y < J.effectiveH) :
    ∃ cbs rows, J.run = some cbs ∧ (y, rows) ∈ cbs ∧ rows[c]? = some (J.comp c).blank := by
  refine ⟨_, (List.range J.nc).map (J.shown y), run_eq J h, ?_, ?_⟩
  · refine List.mem_map.2 ⟨y, List.mem_range'_1.2 ⟨hy, by omega⟩, rfl⟩
  · rw [range_map_get _ hc]
    unfold Job.shown Comp.shown
    rw [hm, hy']
    have hp := h.pos c hc
    have e := Nat.div_add_mod J.rowLo (J.comp c).yr
    have hne : J.rowLo % (J.comp c).yr ≠ 0 := fun h0 => hd (Nat.dvd_of_mod_eq_zero h0)
    have hlt : min (J.rowLo / (J.comp c).yr) ((J.comp c).height - 1) * (J.comp c).yr < J.rowLo := by
      have := Nat.mul_le_mul_right (J.comp c).yr (Nat.min_le_left (J.rowLo / (J.comp c).yr) ((J.comp c).height - 1))
      rw [Nat.mul_comm (J.rowLo / (J.comp c).yr)] at this
      omega
    simp only [Bool.false_eq_true, if_false, if_pos hlt]
    split <;> rfl

/-- **C77 refuted (component 0 subsampled).**  Rows are counted in rows of component 0 but looked up as if they were rows of the
reference grid: of a component 0 with YRsiz at least 2 only the first `⌈h / yr⌉` rows are ever handed out. -/
theorem C77_own_factor (J : Job ρ σ) (h : J.Regular) (hlo : J.rowLo = 0) (hn : 0 < J.nc) (hm : J.doMct = false) :
    ∃ cbs, J.run = some cbs ∧ ∀ p ∈ cbs, ∃ k < ((J.comp 0).height + (J.comp 0).yr - 1) / (J.comp 0).yr,
      p.2[0]? = ((J.comp 0).rows[k]?).map (J.comp 0).fin := by
  refine ⟨_, run_eq J h, fun p hp => ?_⟩
  obtain ⟨y, hy, rfl⟩ := List.mem_map.1 hp
  have hy := List.mem_range'_1.1 hy
  have hH : y < (J.comp 0).height := by
    have : J.effectiveH ≤ (J.comp 0).height := Nat.min_le_left _ _
    omega
  have hpos := h.pos 0 hn
  refine ⟨y / (J.comp 0).yr, div_lt_ceil hpos hH, ?_⟩
  have hle : y / (J.comp 0).yr < (J.comp 0).height := Nat.lt_of_le_of_lt (Nat.div_le_self _ _) hH
  simp only
  rw [range_map_get _ hn]
  unfold Job.shown Comp.shown Job.main
  rw [hm, hlo, Nat.min_eq_left (by omega)]
  have : (J.comp 0).rows[y / (J.comp 0).yr]? = some _ := List.getElem?_eq_getElem hle
  rw [this]
  simp

/-- Pictures for the examples: component `c` has the rows `100 * c + k`. -/
def demo (nc : Nat) (yr : Nat → Nat) (H lo : Nat) : Job Nat (Option Nat) where
  nc := nc
  comp c := { yr := yr c, rows := (List.range ((H + yr c - 1) / yr c)).map (1000 * c + ·), fin := some, zeros := 0, blank := none }
  cbh := 64
  mct := false
  mix a b c := (some a, some b, some c)
  rowLo := lo
  rowLimit := H

/-- A 4:2:0 picture of 5 rows. -/
example : (demo 3 (fun c => if c = 0 then 1 else 2) 5 0).Regular :=
  C77_factors_one_two _ (by decide) (by intro c _; simp only [demo]; split <;> simp)
example : (demo 3 (fun c => if c = 0 then 1 else 2) 5 0).run
    = some [(0, [some 0, some 1000, some 2000]), (1, [some 1, some 1000, some 2000]), (2, [some 2, some 1001, some 2001]),
        (3, [some 3, some 1001, some 2001]), (4, [some 4, some 1002, some 2002])] := by decide +kernel
/-- Rows from row 1 on: no chroma with the first of them. -/
example : (demo 3 (fun c => if c = 0 then 1 else 2) 5 1).run
    = some [(1, [some 1, none, none]), (2, [some 2, some 1001, some 2001]),
        (3, [some 3, some 1001, some 2001]), (4, [some 4, some 1002, some 2002])] := by decide +kernel
/-- All components with YRsiz 2 (heights are those of the components): half of the rows never come. -/
example : (demo 1 (fun _ => 2) 8 0).run = some [(0, [some 0]), (1, [some 0]), (2, [some 1]), (3, [some 1])] := by decide +kernel

/-- **C77 refuted (strips).**  With YRsiz 1, 4 and 3 the height of strips is a multiple of the largest factor only; from the third
strip on component 2 shows the wrong rows: row 44 where row 43 belongs. -/
theorem C77_misaligned_strips :
    (demo 3 (fun c => if c = 0 then 1 else if c = 1 then 4 else 3) 140 0).run.bind (·[129]?)
      = some (129, [some 129, some 1032, some 2044]) ∧ 129 / 3 = 43 := by
  constructor
  · decide +kernel
  · rfl

/-! ### One column of tiles -/

/-- The tiles of one column hold the picture `plane` (`plane c k` is row `k` of component `c`, `Y c` its YRsiz), beginning with row `a`
of the reference grid: a tile that covers rows `a` to `a + H` has the rows `⌈a / Y⌉` to `⌈(a + H) / Y⌉` of a component. -/
def Covers (plane : Nat → Nat → σ) (Y : Nat → Nat) (nc : Nat) : Nat → List (Job ρ σ) → Prop
  | _, [] => True
  | a, J :: l =>
    (J.Regular ∧ J.nc = nc ∧ J.rowLo = 0 ∧ (J.comp 0).height ≤ J.rowLimit ∧ ∀ c < nc,
      (J.main c = true → Y c = 1 ∧ ∀ y < (J.comp 0).height,
        Job.pick3 c (J.mix ((J.comp 0).src y) ((J.comp 1).src y) ((J.comp 2).src y)) = plane c (a + y)) ∧
      (J.main c = false → (J.comp c).yr = Y c ∧ (J.comp c).rows.map (J.comp c).fin
        = (List.range' ((a + Y c - 1) / Y c) ((a + (J.comp 0).height + Y c - 1) / Y c - (a + Y c - 1) / Y c)).map (plane c))) ∧
    Covers plane Y nc (a + (J.comp 0).height) l

/-- Rows of all tiles. -/
def total (l : List (Job ρ σ)) : Nat := (l.map fun J => (J.comp 0).height).sum

/-- What one tile shows of the picture. -/
theorem shown_plane {J : Job ρ σ} {plane : Nat → Nat → σ} {Y : Nat → Nat} {nc a : Nat} {l : List (Job ρ σ)}
    (h : Covers plane Y nc a (J :: l)) {c t : Nat} (hc : c < nc) (ht : t < (J.comp 0).height) (hd : Y c ∣ a + t) :
    J.shown t c = plane c ((a + t) / Y c) := by
  obtain ⟨⟨hreg, hnc, hlo, _, hall⟩, _⟩ := h
  unfold Job.shown
  cases hm : J.main c with
  | true =>
    obtain ⟨h1, h2⟩ := (hall c hc).1 hm
    rw [if_pos rfl, h2 t ht, h1, Nat.div_one]
  | false =>
    obtain ⟨h1, h2⟩ := (hall c hc).2 hm
    have hp : 0 < Y c := by rw [← h1]; exact hreg.pos c (by omega)
    simp only [Bool.false_eq_true, if_false]
    unfold Comp.shown
    have hlen : (J.comp c).height = (a + (J.comp 0).height + Y c - 1) / Y c - (a + Y c - 1) / Y c := by
      have := congrArg List.length h2
      rw [List.length_map, List.length_map, List.length_range'] at this
      exact this
    have hadd := ceil_add hp hd
    have hlt : (a + t) / Y c < (a + (J.comp 0).height + Y c - 1) / Y c := div_lt_ceil hp (by omega)
    rw [h1, hlo, Nat.min_eq_left (by omega)]
    have hget : ((J.comp c).rows[t / Y c]?).map (J.comp c).fin = some (plane c ((a + t) / Y c)) := by
      rw [← List.getElem?_map, h2, List.getElem?_map, List.getElem?_range' (by omega), hadd]
      simp
    cases hr : (J.comp c).rows[t / Y c]? with
    | none => rw [hr] at hget; simp at hget
    | some r =>
      rw [hr] at hget
      simpa using hget

/-- **C77 (one column of tiles).**  The callbacks come in order, once for each row of the picture, and whenever a row of a component
begins that row is handed out. -/
theorem C77_one_column {plane : Nat → Nat → σ} {Y : Nat → Nat} {nc : Nat} : ∀ (tiles : List (Job ρ σ)) (a : Nat),
    Covers plane Y nc a tiles →
    ∃ S : Nat → Nat → σ, oneColumn tiles a = some ((List.range' a (total tiles)).map fun y => (y, (List.range nc).map (S y))) ∧
      ∀ y, a ≤ y → y < a + total tiles → ∀ c < nc, Y c ∣ y → S y c = plane c (y / Y c)
  | [], a, _ => ⟨fun _ c => plane c 0, rfl, fun y h1 h2 => by simp [total] at h2; omega⟩
  | J :: l, a, h => by
    obtain ⟨S, h1, h2⟩ := C77_one_column l (a + (J.comp 0).height) h.2
    have ht : total (J :: l) = (J.comp 0).height + total l := by simp [total]
    have hH : J.effectiveH = (J.comp 0).height := Nat.min_eq_left h.1.2.2.2.1
    refine ⟨fun y c => if y < a + (J.comp 0).height then J.shown (y - a) c else S y c, ?_, ?_⟩
    · unfold oneColumn
      rw [run_eq J h.1.1, Option.bind_some, h1, Option.map_some, ht, hH, h.1.2.1, h.1.2.2.1, Nat.sub_zero]
      congr 1
      rw [← List.range'_append_1, List.map_append]
      congr 1
      · rw [List.map_map, show List.range' a (J.comp 0).height = (List.range' 0 (J.comp 0).height).map (a + ·) by
          rw [List.map_add_range', Nat.add_zero], List.map_map]
        refine List.map_congr_left fun y hy => ?_
        have := (List.mem_range'_1.1 hy).2
        simp only [Function.comp]
        congr 1
        refine List.map_congr_left fun c _ => ?_
        rw [if_pos (by omega), Nat.add_sub_cancel_left]
      · refine List.map_congr_left fun y hy => ?_
        have := (List.mem_range'_1.1 hy).1
        congr 1
        refine List.map_congr_left fun c _ => ?_
        show _ = if _ then _ else _
        rw [if_neg (by omega)]
    · intro y h3 h4 c hc hd
      simp only
      by_cases hy : y < a + (J.comp 0).height
      · rw [if_pos hy]
        have := shown_plane h (t := y - a) hc (by omega) (by rw [Nat.add_sub_cancel' h3]; exact hd)
        rw [this, Nat.add_sub_cancel' h3]
      · rw [if_neg hy]
        exact h2 y (by omega) (by omega) c hc hd

/-- **C77 (files).**  If the program finds the right factor, or the component has one row only, the file of a component of a picture with
one column of tiles gets all rows of the component, each once and in order. -/
theorem C77_file_rows {plane : Nat → Nat → σ} {Y : Nat → Nat} {nc : Nat} (tiles : List (Job ρ σ)) (h : Covers plane Y nc 0 tiles)
    {c hc : Nat} (hcn : c < nc) (hY : 0 < Y c) (hh : hc = (total tiles + Y c - 1) / Y c)
    (hg : guessedYr (total tiles) hc = Y c ∨ hc = 1) :
    ∃ cbs, oneColumn tiles 0 = some cbs ∧ fileRows (total tiles) hc c cbs = (List.range hc).map fun k => some (plane c k) := by
  obtain ⟨S, h1, h2⟩ := C77_one_column tiles 0 h
  refine ⟨_, h1, ?_⟩
  set G := guessedYr (total tiles) hc with hGdef
  have hGpos : 0 < G := by
    rw [hGdef]; unfold guessedYr
    split
    · rename_i hx
      exact (Nat.le_div_iff_mul_le hx.1).2 (by omega)
    · exact Nat.one_pos
  have hceil : (total tiles + G - 1) / G = hc := by
    rcases hg with hg | hg
    · rw [hg, hh]
    · have ht : 0 < total tiles := by
        rcases Nat.eq_zero_or_pos (total tiles) with h0 | h0
        · rw [h0, Nat.div_eq_of_lt (by omega)] at hh; omega
        · exact h0
      rw [hGdef]; unfold guessedYr
      rw [hg]
      split
      · rw [Nat.add_sub_cancel, Nat.div_one]
        have : total tiles + total tiles - 1 = (total tiles - 1) + total tiles := by omega
        rw [this, Nat.add_div_right _ ht, Nat.div_eq_of_lt (by omega)]
      · rw [Nat.div_one]; omega
  unfold fileRows
  rw [List.filterMap_map, ← List.range_eq_range']
  rw [← hGdef]
  have hcong : (List.range (total tiles)).filterMap ((fun p : Nat × List σ => if p.1 % G ≠ 0 then none else if hc ≤ p.1 / G then none
        else some p.2[c]?) ∘ fun y => (y, (List.range nc).map (S y)))
      = (List.range (total tiles)).filterMap fun y =>
        if y % G ≠ 0 then none else if hc ≤ y / G then none else some (some (plane c (y / G))) := by
    refine List.filterMap_congr fun y hy => ?_
    have hy := List.mem_range.1 hy
    simp only [Function.comp]
    split
    · rfl
    · rename_i h3
      split
      · rfl
      · rename_i h4
        have h3 : y % G = 0 := by omega
        rw [range_map_get _ hcn]
        rcases hg with hg | hg
        · rw [h2 y (by omega) (by omega) c hcn (by rw [← hg]; exact Nat.dvd_of_mod_eq_zero h3), hg]
        · have h5 : y / G = 0 := by rw [hg] at h4; exact Nat.lt_one_iff.1 (Nat.lt_of_not_le h4)
          have h6 : y = 0 := by
            have := Nat.div_add_mod y G
            rw [h5, h3] at this; omega
          subst h6
          rw [h2 0 (by omega) (by omega) c hcn (Nat.dvd_zero _), Nat.zero_div, Nat.zero_div]
  rw [hcong, filterMap_every hGpos (g := fun k => some (plane c k)) _ (fun _ => rfl) _ (Nat.le_of_eq hceil), hceil]

/-- **C77 (when the factor is found).**  The factor computed from the heights is the right one just when the picture is not too low. -/
theorem C77_guess_iff {h0 Y : Nat} (hY : 0 < Y) (hh : 0 < h0) :
    guessedYr h0 ((h0 + Y - 1) / Y) = Y ↔ Y = 1 ∨ ((h0 + Y - 1) / Y) * (Y - 1) < h0 ∧ 1 < h0 := by
  have e := Nat.div_add_mod (h0 + Y - 1) Y
  have m := Nat.mod_lt (h0 + Y - 1) hY
  have hc1 : 1 ≤ (h0 + Y - 1) / Y := (Nat.le_div_iff_mul_le hY).2 (by omega)
  generalize (h0 + Y - 1) / Y = q at *
  unfold guessedYr
  by_cases h1 : Y = 1
  · subst h1
    have : q = h0 := by omega
    rw [if_neg (by omega)]
    simp
  by_cases hq : q < h0
  · rw [if_pos ⟨by omega, hq⟩]
    obtain ⟨Z, rfl⟩ : ∃ Z, Y = Z + 1 := ⟨Y - 1, by omega⟩
    rw [Nat.add_sub_cancel]
    rw [Nat.add_mul, Nat.one_mul] at e
    have e2 : Z * q = q * Z := Nat.mul_comm _ _
    constructor
    · intro h
      right
      have h3 := Nat.div_mul_le_self (h0 + q - 1) q
      rw [h, Nat.add_mul, Nat.one_mul] at h3
      omega
    · intro h
      rcases h with h | h
      · omega
      · refine Nat.div_eq_of_lt_le ?_ ?_
        · rw [Nat.add_mul, Nat.one_mul]; omega
        · rw [Nat.succ_mul, Nat.add_mul, Nat.one_mul]; omega
  · rw [if_neg (by omega)]
    constructor
    · intro h; omega
    · intro h
      rcases h with h | h
      · omega
      · exfalso
        have : q * 1 ≤ q * (Y - 1) := Nat.mul_le_mul_left _ (by omega)
        omega

/-- Pictures higher than `(Y - 1)²` rows (and of two rows at least) are safe. -/
theorem C77_guess_high {h0 Y : Nat} (hY : 0 < Y) (h1 : 1 < h0) (h2 : (Y - 1) * (Y - 1) < h0) : guessedYr h0 ((h0 + Y - 1) / Y) = Y := by
  rw [C77_guess_iff hY (by omega)]
  right
  refine ⟨?_, h1⟩
  have e := Nat.div_mul_le_self (h0 + Y - 1) Y
  generalize (h0 + Y - 1) / Y = q at *
  obtain ⟨Z, rfl⟩ : ∃ Z, Y = Z + 1 := ⟨Y - 1, by omega⟩
  rw [Nat.add_sub_cancel] at *
  rw [Nat.mul_add, Nat.mul_one] at e
  refine Nat.lt_of_not_le fun hcon => ?_
  -- q * Z ≥ h0 and q * Z + q ≤ h0 + Z give q ≤ Z, so q * Z ≤ Z * Z < h0
  have hq : q ≤ Z := by omega
  have := Nat.mul_le_mul_right Z hq
  omega

/-- **C77 (files of 4:4:4, 4:2:2 and 4:2:0 pictures).**  With YRsiz 1 or 2 nothing else is needed. -/
theorem C77_file_420 {plane : Nat → Nat → σ} {Y : Nat → Nat} {nc : Nat} (tiles : List (Job ρ σ)) (h : Covers plane Y nc 0 tiles)
    (ht : 0 < total tiles) {c : Nat} (hcn : c < nc) (hY : Y c = 1 ∨ Y c = 2) :
    ∃ cbs, oneColumn tiles 0 = some cbs ∧ fileRows (total tiles) ((total tiles + Y c - 1) / Y c) c cbs
      = (List.range ((total tiles + Y c - 1) / Y c)).map fun k => some (plane c k) := by
  have hp : 0 < Y c := by omega
  refine C77_file_rows tiles h hcn hp rfl ?_
  by_cases h1 : total tiles = 1
  · right
    rw [h1]
    rcases hY with hY | hY <;> rw [hY]
  · left
    refine C77_guess_high hp (by omega) ?_
    rcases hY with hY | hY <;> rw [hY] <;> simp <;> omega

/-- Two 4:2:0 tiles of 3 and 4 rows: tile rows need not be a multiple of the factor. -/
def tile2 (a H : Nat) : Job Nat (Option Nat) where
  nc := 3
  comp c := if c = 0 then { yr := 1, rows := List.range' a H, fin := some, zeros := 0, blank := none }
    else { yr := 2, rows := List.range' ((a + 1) / 2) ((a + H + 1) / 2 - (a + 1) / 2), fin := some, zeros := 0, blank := none }
  cbh := 64
  mct := false
  mix a b c := (some a, some b, some c)
  rowLo := 0
  rowLimit := H

example : Covers (fun _ k => some k) (fun c => if c = 0 then 1 else 2) 3 0 [tile2 0 3, tile2 3 4] := by
  have hreg : ∀ a H, (tile2 a H).Regular := fun a H => C77_factors_one_two _ (Nat.le_of_ble_eq_true rfl) fun c _ => by
    simp only [tile2]; split <;> simp
  have hm : ∀ a H c, (tile2 a H).main c = false := fun a H c => by simp [tile2, Job.main, Job.doMct]
  refine ⟨⟨hreg _ _, rfl, rfl, by decide, fun c hc => ⟨fun h => by simp [hm] at h, fun _ => ?_⟩⟩, ⟨hreg _ _, rfl, rfl, by decide, fun c hc =>
    ⟨fun h => by simp [hm] at h, fun _ => ?_⟩⟩, trivial⟩
  all_goals (have hc : c = 0 ∨ c = 1 ∨ c = 2 := by omega
             rcases hc with rfl | rfl | rfl <;> decide)
example : (oneColumn [tile2 0 3, tile2 3 4] 0).map (fileRows 7 4 1) = some [some (some 0), some (some 1), some (some 2), some (some 3)] := by
  decide +kernel

/-- **C77 refuted (files).**  For a component with YRsiz 4 in a picture of 5 rows the program finds the factor 3, and the file gets row 0
twice and never row 1. -/
theorem C77_file_wrong_factor : guessedYr 5 2 = 3 ∧
    (oneColumn [demo 2 (fun c => if c = 0 then 1 else 4) 5 0] 0).map (fileRows 5 2 1) = some [some (some 1000), some (some 1000)] := by
  decide +kernel

/-! ### Many columns of tiles -/

/-- **C77 (a band of tiles).**  What is handed out for a band of tiles that stand side by side. -/
theorem C77_band_rows {α : Type} {nc : Nat} {bandH width : Nat → Nat} (z : α) {tiles : List (Job ρ (List α) × (Nat → Nat) × (Nat → Nat))}
    (gy : Nat) (h : Columns nc (bandH 0) width (fun _ => 0) tiles) (hpos : ∀ c < nc, 0 < bandH c) :
    band nc bandH width z tiles gy = some ((List.range (bandH 0)).map fun y =>
      (gy + y, (List.range nc).map fun c => (tiles.map fun t => t.1.shown (min y (bandH c - 1)) c).flatten)) :=
  band_eq z gy h hpos

/-- **C77 (a band of tiles, no vertical subsampling).**  Each row of the picture is the rows of the tiles joined together. -/
theorem C77_band_full {α : Type} {nc : Nat} {bandH width : Nat → Nat} (z : α) {tiles : List (Job ρ (List α) × (Nat → Nat) × (Nat → Nat))}
    (gy : Nat) (h : Columns nc (bandH 0) width (fun _ => 0) tiles) (hpos : 0 < bandH 0) (hsame : ∀ c < nc, bandH c = bandH 0) :
    band nc bandH width z tiles gy = some ((List.range (bandH 0)).map fun y =>
      (gy + y, (List.range nc).map fun c => (tiles.map fun t => t.1.shown y c).flatten)) := by
  rw [band_eq z gy h fun c hc => by rw [hsame c hc]; exact hpos]
  congr 1
  refine List.map_congr_left fun y hy => ?_
  have hy := List.mem_range.1 hy
  congr 1
  refine List.map_congr_left fun c hc => ?_
  rw [hsame c (List.mem_range.1 hc), Nat.min_eq_left (by omega)]

/-- **C77 refuted (several columns of tiles, vertical subsampling).**  The rows of a component with `h` rows and YRsiz `Y` are put into the
band once per row of the picture, not once per row of the component, and the band keeps `h` of them: only the rows up to `(h - 1) / Y` are
ever handed out, in whatever row of the picture. -/
theorem C77_band_frozen {α : Type} {nc : Nat} {bandH width : Nat → Nat} (z : α) {tiles : List (Job ρ (List α) × (Nat → Nat) × (Nat → Nat))}
    (gy : Nat) (h : Columns nc (bandH 0) width (fun _ => 0) tiles) (hpos : ∀ c < nc, 0 < bandH c) {c Y : Nat} (hc : c < nc)
    (ht : ∀ t ∈ tiles, t.1.main c = false ∧ (t.1.comp c).yr = Y ∧ (t.1.comp c).height = bandH c) :
    ∃ cbs, band nc bandH width z tiles gy = some cbs ∧ ∀ p ∈ cbs, ∃ k ≤ (bandH c - 1) / Y,
      p.2[c]? = some ((tiles.map fun t => (((t.1.comp c).rows[k]?).map (t.1.comp c).fin).getD []).flatten) := by
  refine ⟨_, band_eq z gy h hpos, fun p hp => ?_⟩
  obtain ⟨y, _, rfl⟩ := List.mem_map.1 hp
  refine ⟨min y (bandH c - 1) / Y, Nat.div_le_div_right (Nat.min_le_right _ _), ?_⟩
  simp only
  rw [range_map_get _ hc]
  congr 2
  have hlo : ∀ (l : List (Job ρ (List α) × (Nat → Nat) × (Nat → Nat))) (off : Nat → Nat), Columns nc (bandH 0) width off l →
      ∀ t ∈ l, t.1.rowLo = 0 := by
    intro l
    induction l with
    | nil => intro _ _ t ht; cases ht
    | cons s l ih =>
      intro off hcol t ht
      rcases List.mem_cons.1 ht with h1 | h1
      · rw [h1]; exact hcol.1.2.2.1
      · exact ih _ hcol.2 t h1
  refine List.map_congr_left fun t htm => ?_
  obtain ⟨h1, h2, h3⟩ := ht t htm
  have hb := hpos c hc
  have hle : min y (bandH c - 1) / Y ≤ bandH c - 1 := Nat.le_trans (Nat.div_le_self _ _) (Nat.min_le_right _ _)
  unfold Job.shown Comp.shown
  rw [h1, h2, h3, hlo _ _ h t htm, Nat.min_eq_left hle]
  have hlt : min y (bandH c - 1) / Y < (t.1.comp c).rows.length := by
    have : (t.1.comp c).rows.length = bandH c := h3
    omega
  rw [List.getElem?_eq_getElem hlt]
  simp

/-- Two tiles of a 4:2:0 picture of 8 rows, two and one columns of chroma. -/
def tileX (w H : Nat) : Job (List Nat) (List Nat) where
  nc := 2
  comp c :=
    { yr := c + 1
      rows := (List.range ((H + c) / (c + 1))).map fun k => List.replicate w (10 * c + k)
      fin := fun r => r
      zeros := []
      blank := List.replicate w 0 }
  cbh := 64
  mct := false
  mix a b c := (a, b, c)
  rowLo := 0
  rowLimit := H

example : Columns (ρ := List Nat) 2 8 (fun _ => 3) (fun _ => 0) [(tileX 2 8, fun _ => 0, fun _ => 2), (tileX 1 8, fun _ => 2, fun _ => 1)] := by
  have hreg : ∀ w H, (tileX w H).Regular := fun w H => C77_factors_one_two _ (Nat.le_of_ble_eq_true rfl) fun c hc => by
    simp only [tileX] at *; omega
  refine ⟨⟨hreg _ _, rfl, rfl, by decide, ?_⟩, ⟨hreg _ _, rfl, rfl, by decide, ?_⟩, fun c _ => rfl⟩ <;> decide +kernel

/-- The file of the chroma component gets rows 0, 1, 1, 1. -/
theorem C77_band_420_file :
    (band 2 (fun c => if c = 0 then 8 else 4) (fun _ => 3) 0
      [(tileX 2 8, fun _ => 0, fun _ => 2), (tileX 1 8, fun _ => 2, fun _ => 1)] 0).map (fileRows 8 4 1)
      = some [some [10, 10, 10], some [11, 11, 11], some [11, 11, 11], some [11, 11, 11]] := by decide +kernel

end Verif.Tile.Rows
