import Verif.Tile.Rows
/-
Lemmas about the rows handed out by the decoder (model in `Tile/Rows`).
-/
namespace Verif.Tile.Rows
variable {ρ σ : Type}

/-! ### Specification -/

/-- Row `k` of a component, zeros behind the last one. -/
def Comp.src (C : Comp ρ σ) (k : Nat) : ρ := C.rows.getD k C.zeros

/-- What is seen of a subsampled component while row `y` of the picture is handed out and rows from `lo` on were asked for: row
`y / yr`, or the last row of the component if there is no such row; nothing if that row begins above `lo`. -/
def Comp.shown (C : Comp ρ σ) (lo y : Nat) : σ :=
  match C.rows[min (y / C.yr) (C.height - 1)]? with
  | none => C.blank
  | some r => if min (y / C.yr) (C.height - 1) * C.yr < lo then C.blank else C.fin r

/-- What is handed out with row `y` for component `c`. -/
def Job.shown (J : Job ρ σ) (y c : Nat) : σ :=
  if J.main c then Job.pick3 c (J.mix ((J.comp 0).src y) ((J.comp 1).src y) ((J.comp 2).src y))
  else (J.comp c).shown J.rowLo y

/-- Conditions: 16 components at most, and strips begin where a row of every component begins. -/
structure Job.Regular (J : Job ρ σ) : Prop where
  few : J.nc ≤ 16
  pos : ∀ c < J.nc, 0 < (J.comp c).yr
  dvd : ∀ c < J.nc, J.main c = false → (J.comp c).yr ∣ J.stripHeight

/-! ### Lemmas -/

theorem getD_default {α : Type} {l : List α} {n : Nat} (d : α) (h : l.length ≤ n) : l.getD n d = d := by
  rw [List.getD_eq_getElem?_getD, List.getElem?_eq_none h]; rfl

theorem mapM_some_map {α β : Type} (f : α → Option β) (g : α → β) : ∀ l : List α, (∀ a ∈ l, f a = some (g a)) →
    l.mapM f = some (l.map g)
  | [], _ => rfl
  | a :: l, h => by
    rw [List.mapM_cons, h a (by simp), mapM_some_map f g l fun b hb => h b (by simp [hb])]
    rfl

theorem mapM_none {α β : Type} (f : α → Option β) {a : α} : ∀ {l : List α}, a ∈ l → f a = none → l.mapM f = none
  | b :: l, h, hn => by
    rw [List.mapM_cons]
    cases hb : f b with
    | none => rfl
    | some v =>
      rcases List.mem_cons.1 h with h | h
      · rw [h, hb] at hn; simp at hn
      · rw [mapM_none f h hn]; rfl

theorem foldl_max_ge (l : List Nat) : ∀ a, a ≤ l.foldl max a := by
  induction l with
  | nil => intro a; exact Nat.le_refl _
  | cons b l ih => intro a; exact Nat.le_trans (Nat.le_max_left a b) (ih _)

theorem maxYr_pos (J : Job ρ σ) : 1 ≤ J.maxYr := foldl_max_ge _ _

theorem stripHeight_pos (J : Job ρ σ) : 1 ≤ J.stripHeight := by
  unfold Job.stripHeight
  have h := maxYr_pos J
  generalize J.maxYr = m at *
  have h64 : 64 ≤ (if J.cbh < 64 then 64 else J.cbh) := by split <;> omega
  generalize (if J.cbh < 64 then 64 else J.cbh) = x at *
  have : 1 ≤ (x + m - 1) / m := (Nat.le_div_iff_mul_le h).2 (by omega)
  exact Nat.mul_pos this h

theorem pulled_get (C : Comp ρ σ) (cur n i : Nat) (hi : i < n) : (C.pulled cur n)[i]? = some (C.src (cur + i)) := by
  unfold Comp.pulled Comp.src
  by_cases h : cur + i < C.rows.length
  · rw [List.getElem?_append_left (by simp; omega)]
    rw [List.getElem?_take_of_lt hi, List.getElem?_drop, List.getD_eq_getElem?_getD, List.getElem?_eq_getElem h]
    rfl
  · rw [List.getElem?_append_right (by simp; omega), getD_default _ (by omega)]
    rw [List.getElem?_replicate, if_pos (by simp; omega)]

/-- Cursor at the beginning of a strip at row `y0`. -/
def Job.curAt (J : Job ρ σ) (y0 c : Nat) : Nat :=
  min (if J.main c then y0 else y0 / (J.comp c).yr) (J.comp c).height

theorem count_eq (J : Job ρ σ) (h : J.Regular) {y0 y1 c : Nat} (hc : c < J.nc) :
    J.count y0 y1 c = some (if J.main c then y1 - y0 else
      min ((y1 + (J.comp c).yr - 1) / (J.comp c).yr) (J.comp c).height - y0 / (J.comp c).yr) := by
  have := h.few
  have hp := h.pos c hc
  unfold Job.count
  rw [if_neg (by omega)]
  by_cases hm : J.main c = true
  · rw [if_pos hm, if_pos hm]
  · rw [if_neg hm, if_neg hm, if_neg (by omega)]

theorem buffers_eq (J : Job ρ σ) (h : J.Regular) (cur : Nat → Nat) (y0 y1 : Nat) :
    J.buffers cur y0 y1 = some ((List.range J.nc).map fun c => (J.comp c).pulled (cur c) ((J.count y0 y1 c).getD 0)) := by
  unfold Job.buffers
  refine mapM_some_map _ _ _ fun c hc => ?_
  rw [count_eq J h (List.mem_range.1 hc)]
  rfl

theorem range_map_get {β : Type} (f : Nat → β) {n c : Nat} (h : c < n) : ((List.range n).map f)[c]? = some (f c) := by
  rw [List.getElem?_map, List.getElem?_range h]; rfl

/-- What `put` does to a component that shows what it should show. -/
theorem put_shown (C : Comp ρ σ) (lo y : Nat) (hp : 0 < C.yr) (hlo : lo ≤ y) (old : σ)
    (hold : old = if y = lo then C.blank else C.shown lo (y - 1)) :
    (y % C.yr ≠ 0 → old = C.shown lo y) ∧
    (C.height ≤ y / C.yr → old = C.shown lo y) ∧
    (y % C.yr = 0 → y / C.yr < C.height → C.fin (C.src (y / C.yr)) = C.shown lo y) := by
  have e := Nat.div_add_mod y C.yr
  refine ⟨fun hne => ?_, fun hle => ?_, fun h0 hlt => ?_⟩
  · have hy : 0 < y := by rcases Nat.eq_zero_or_pos y with h | h; · subst h; simp at hne
                          · exact h
    have hd : (y - 1) / C.yr = y / C.yr := by
      have hm := Nat.mod_lt y hp
      refine Nat.div_eq_of_lt_le ?_ ?_
      · rw [Nat.mul_comm]; omega
      · rw [Nat.succ_mul, Nat.mul_comm]; omega
    rw [hold]
    split
    · rename_i hl
      unfold Comp.shown
      split
      · rfl
      · rw [if_pos]
        have : min (y / C.yr) (C.height - 1) * C.yr ≤ y / C.yr * C.yr := Nat.mul_le_mul_right _ (Nat.min_le_left _ _)
        rw [Nat.mul_comm] at e
        rw [Nat.mul_comm (y / C.yr)] at this
        rw [Nat.mul_comm] at e
        omega
    · unfold Comp.shown; rw [hd]
  · rw [hold]
    by_cases hh : C.height = 0
    · have hn : ∀ k : Nat, C.rows[k]? = none := fun k => List.getElem?_eq_none (by unfold Comp.height at hh; omega)
      have : ∀ z, C.shown lo z = C.blank := fun z => by unfold Comp.shown; rw [hn]
      rw [this, this]; split <;> rfl
    · have hm : min (y / C.yr) (C.height - 1) = C.height - 1 := by omega
      split
      · rename_i hl
        unfold Comp.shown
        split
        · rfl
        · rw [if_pos]
          rw [hm]
          have : (C.height - 1) * C.yr < y / C.yr * C.yr := Nat.mul_lt_mul_of_pos_right (by omega) hp
          rw [Nat.mul_comm (y / C.yr)] at this
          omega
      · have hd : C.height - 1 ≤ (y - 1) / C.yr := by
          rw [Nat.le_div_iff_mul_le hp]
          have : (C.height - 1) * C.yr < y / C.yr * C.yr := Nat.mul_lt_mul_of_pos_right (by omega) hp
          rw [Nat.mul_comm (y / C.yr)] at this
          omega
        have hm' : min ((y - 1) / C.yr) (C.height - 1) = C.height - 1 := by omega
        unfold Comp.shown
        rw [hm, hm']
  · have hm : min (y / C.yr) (C.height - 1) = y / C.yr := by omega
    unfold Comp.shown Comp.src
    have hl : y / C.yr < C.rows.length := hlt
    rw [hm, List.getElem?_eq_getElem hl, List.getD_eq_getElem?_getD, List.getElem?_eq_getElem hl]
    simp only [Option.getD_some]
    rw [if_neg]
    rw [Nat.mul_comm]; omega

/-- `out_rows` before row `y`. -/
def Job.before (J : Job ρ σ) (y : Nat) (out : List σ) : Prop :=
  ∀ c < J.nc, J.main c = false →
    out[c]? = some (if y = J.rowLo then (J.comp c).blank else (J.comp c).shown J.rowLo (y - 1))

theorem main_lt {J : Job ρ σ} {c : Nat} (h : J.main c = true) : 3 ≤ J.nc ∧ c < 3 := by
  unfold Job.main Job.doMct at h
  simp only [Bool.and_eq_true, decide_eq_true_eq] at h
  exact ⟨h.1.1, h.2⟩

theorem main_iff {J : Job ρ σ} {c : Nat} (h : J.main c = true) {d : Nat} (hd : d < 3) : J.main d = true := by
  unfold Job.main at *
  simp only [Bool.and_eq_true, decide_eq_true_eq] at *
  exact ⟨h.1, hd⟩

/-- One row of a strip. -/
theorem rowOut_eq (J : Job ρ σ) (h : J.Regular) {y0 y1 y : Nat} {out : List σ} (h0 : J.stripHeight ∣ y0) (hy0 : y0 ≤ y) (hy1 : y < y1)
    (hlo : J.rowLo ≤ y) (hb : J.before y out) :
    J.rowOut ((List.range J.nc).map fun c => (J.comp c).pulled (J.curAt y0 c) ((J.count y0 y1 c).getD 0)) y0 y out
      = some ((List.range J.nc).map (J.shown y)) := by
  unfold Job.rowOut
  refine mapM_some_map _ _ _ fun c hc => ?_
  have hc := List.mem_range.1 hc
  by_cases hm : J.main c = true
  · have h3 := main_lt hm
    have get : ∀ d < 3, ((((List.range J.nc).map fun c => (J.comp c).pulled (J.curAt y0 c) ((J.count y0 y1 c).getD 0))[d]?).bind
        (·[y - y0]?)) = some ((J.comp d).src y) := by
      intro d hd
      have hmd := main_iff hm hd
      rw [range_map_get _ (by omega), Option.bind_some, count_eq J h (by omega), if_pos hmd, Option.getD_some,
        pulled_get _ _ _ _ (by omega)]
      unfold Job.curAt
      rw [if_pos hmd]
      congr 1
      unfold Comp.src
      by_cases hle : y0 ≤ (J.comp d).height
      · rw [Nat.min_eq_left hle, Nat.add_sub_cancel' hy0]
      · rw [getD_default _ (by unfold Comp.height at *; omega),
          getD_default _ (by unfold Comp.height at *; omega)]
    rw [if_pos hm]
    unfold Job.mixed
    rw [get 0 (by omega), get 1 (by omega), get 2 (by omega)]
    unfold Job.shown
    rw [if_pos hm]
    rfl
  · rw [if_neg hm]
    have hm' : J.main c = false := by simpa using hm
    rw [hb c hc hm', Option.bind_some]
    have hp := h.pos c hc
    have key := put_shown (J.comp c) J.rowLo y hp hlo _ rfl
    have hs : J.shown y c = (J.comp c).shown J.rowLo y := by unfold Job.shown; rw [if_neg hm]
    rw [hs]
    unfold Job.put
    simp only
    rw [if_neg (by omega)]
    by_cases hr : y % (J.comp c).yr ≠ 0
    · rw [if_pos hr, key.1 hr]
    · rw [if_neg hr]
      by_cases hle : (J.comp c).height ≤ y / (J.comp c).yr
      · rw [if_pos hle, key.2.1 hle]
      · rw [if_neg hle]
        have hr : y % (J.comp c).yr = 0 := by omega
        rw [← key.2.2 hr (by omega)]
        rw [range_map_get _ hc, Option.bind_some, count_eq J h hc, if_neg hm, Option.getD_some]
        obtain ⟨k, hk⟩ := Nat.dvd_trans (h.dvd c hc hm') h0
        have hdiv : y0 / (J.comp c).yr = k := by rw [hk, Nat.mul_div_cancel_left _ hp]
        have hsub : (y - y0) / (J.comp c).yr = y / (J.comp c).yr - k := by
          rw [hk, Nat.sub_mul_div]
        have hky : k ≤ y / (J.comp c).yr := by rw [← hdiv]; exact Nat.div_le_div_right hy0
        have hup : y / (J.comp c).yr < (y1 + (J.comp c).yr - 1) / (J.comp c).yr := by
          have e := Nat.div_add_mod y (J.comp c).yr
          rw [Nat.lt_iff_add_one_le, Nat.le_div_iff_mul_le hp, Nat.add_mul, Nat.mul_comm]
          omega
        rw [hsub, hdiv, pulled_get _ _ _ _ (by omega)]
        unfold Job.curAt
        rw [if_neg hm, hdiv, Nat.min_eq_left (by omega), Nat.add_sub_cancel' hky]
        rfl

theorem before_next (J : Job ρ σ) {y : Nat} (hy : J.rowLo ≤ y) : J.before (y + 1) ((List.range J.nc).map (J.shown y)) := by
  intro c hc hm
  rw [range_map_get _ hc, if_neg (by omega)]
  unfold Job.shown
  rw [if_neg (by simp [hm])]
  rfl

/-- The rows of a strip. -/
theorem emit_eq (J : Job ρ σ) (h : J.Regular) {y0 y1 : Nat} (h0 : J.stripHeight ∣ y0) : ∀ (n y : Nat) (out : List σ),
    y0 ≤ y → n = 0 ∨ y + n ≤ y1 → J.rowLo ≤ y → J.before y out → ∃ out',
    J.emit ((List.range J.nc).map fun c => (J.comp c).pulled (J.curAt y0 c) ((J.count y0 y1 c).getD 0)) y0 n y out
      = some (out', (List.range' y n).map fun y => (y, (List.range J.nc).map (J.shown y))) ∧ J.before (y + n) out'
  | 0, y, out, _, _, _, hb => ⟨out, rfl, hb⟩
  | n + 1, y, out, hy0, hn, hlo, hb => by
    obtain ⟨out', he, hb'⟩ := emit_eq (y1 := y1) J h h0 n (y + 1) _ (by omega) (by omega) (by omega) (before_next J hlo)
    refine ⟨out', ?_, by rw [show y + (n + 1) = y + 1 + n by omega]; exact hb'⟩
    unfold Job.emit
    rw [rowOut_eq J h h0 hy0 (by omega) hlo hb, Option.bind_some, he]
    rfl

theorem advanced_eq (J : Job ρ σ) (h : J.Regular) {y0 c : Nat} (h0 : J.stripHeight ∣ y0) (hc : c < J.nc) :
    J.advanced (J.curAt y0) y0 (y0 + J.stripHeight) c = J.curAt (y0 + J.stripHeight) c := by
  unfold Job.advanced
  rw [count_eq J h hc, Option.getD_some]
  unfold Job.curAt Comp.advance
  by_cases hm : J.main c = true
  · simp only [hm, if_true]; omega
  · rw [if_neg hm, if_neg hm, if_neg hm]
    have hp := h.pos c hc
    obtain ⟨k, hk⟩ := Nat.dvd_trans (h.dvd c hc (by simpa using hm)) h0
    obtain ⟨j, hj⟩ := h.dvd c hc (by simpa using hm)
    have e1 : y0 / (J.comp c).yr = k := by rw [hk, Nat.mul_div_cancel_left _ hp]
    have e2 : (y0 + J.stripHeight) / (J.comp c).yr = k + j := by
      rw [hk, hj, ← Nat.mul_add, Nat.mul_div_cancel_left _ hp]
    have e3 : (y0 + J.stripHeight + (J.comp c).yr - 1) / (J.comp c).yr = k + j := by
      rw [hk, hj, ← Nat.mul_add]
      refine Nat.div_eq_of_lt_le ?_ ?_
      · rw [Nat.mul_comm]; omega
      · rw [Nat.succ_mul, Nat.mul_comm]; omega
    rw [e1, e2, e3]
    omega

theorem curAt_congr (J : Job ρ σ) {cur cur' : Nat → Nat} (hc : ∀ c < J.nc, cur c = cur' c) (y0 y1 : Nat) :
    J.buffers cur y0 y1 = J.buffers cur' y0 y1 := by
  unfold Job.buffers
  have : ∀ l : List Nat, (∀ c ∈ l, c < J.nc) → (l.mapM fun c => (J.count y0 y1 c).map ((J.comp c).pulled (cur c)))
      = l.mapM fun c => (J.count y0 y1 c).map ((J.comp c).pulled (cur' c)) := by
    intro l
    induction l with
    | nil => intro _; rfl
    | cons a l ih =>
      intro hl
      rw [List.mapM_cons, List.mapM_cons, ih fun c hc => hl c (by simp [hc]), hc a (hl a (by simp))]
  exact this _ fun c hc => List.mem_range.1 hc

/-- All strips. -/
theorem strips_eq (J : Job ρ σ) (h : J.Regular) : ∀ (fuel y0 : Nat) (cur : Nat → Nat) (out : List σ),
    (J.effectiveH ≤ y0 ∨ (J.stripHeight ∣ y0 ∧ J.rowLo < y0 + J.stripHeight ∧ ∀ c < J.nc, cur c = J.curAt y0 c)) →
    J.effectiveH < y0 + fuel → J.before (max y0 J.rowLo) out →
    J.strips fuel y0 cur out = some ((List.range' (max y0 J.rowLo) (J.effectiveH - max y0 J.rowLo)).map
      fun y => (y, (List.range J.nc).map (J.shown y)))
  | 0, y0, cur, out, _, hf, _ => by
    unfold Job.strips
    rw [show J.effectiveH - max y0 J.rowLo = 0 by omega]; rfl
  | fuel + 1, y0, cur, out, hd, hf, hb => by
    unfold Job.strips
    by_cases hE : J.effectiveH ≤ y0
    · rw [if_pos hE, show J.effectiveH - max y0 J.rowLo = 0 by omega]; rfl
    · rw [if_neg hE]
      have hs := stripHeight_pos J
      obtain ⟨hdv, hlo, hcur⟩ := hd.resolve_left hE
      simp only
      rw [curAt_congr J hcur, buffers_eq J h, Option.bind_some]
      obtain ⟨out', he, hb'⟩ := emit_eq J h (y0 := y0) (y1 := min (y0 + J.stripHeight) J.effectiveH) hdv
        (min (y0 + J.stripHeight) J.effectiveH - max y0 J.rowLo) (max y0 J.rowLo) out (Nat.le_max_left _ _)
        (by omega) (Nat.le_max_right _ _) hb
      rw [he, Option.bind_some]
      by_cases hlast : J.effectiveH ≤ y0 + J.stripHeight
      · have hrest : J.strips fuel (y0 + J.stripHeight) (J.advanced cur y0 (min (y0 + J.stripHeight) J.effectiveH)) out' = some [] := by
          cases fuel with
          | zero => rfl
          | succ f => unfold Job.strips; rw [if_pos hlast]
        rw [hrest, Nat.min_eq_right hlast]
        simp
      · have hmin : min (y0 + J.stripHeight) J.effectiveH = y0 + J.stripHeight := by omega
        rw [hmin] at hb' ⊢
        have hnext := strips_eq J h fuel (y0 + J.stripHeight) (J.advanced cur y0 (y0 + J.stripHeight)) out'
          (Or.inr ⟨Nat.dvd_add hdv (Nat.dvd_refl _), by omega, fun c hc => by
            rw [← advanced_eq J h hdv hc]
            unfold Job.advanced
            rw [hcur c hc]⟩)
          (by omega) (by
            rw [Nat.max_eq_left (by omega)]
            rw [Nat.add_sub_cancel' (by omega)] at hb'
            exact hb')
        rw [hnext, Nat.max_eq_left (a := y0 + J.stripHeight) (by omega)]
        simp only [Option.map_some]
        rw [← List.map_append, show J.effectiveH - max y0 J.rowLo
          = (y0 + J.stripHeight - max y0 J.rowLo) + (J.effectiveH - (y0 + J.stripHeight)) by omega, ← List.range'_append_1,
          Nat.add_sub_cancel' (by omega)]

theorem startCur_eq (J : Job ρ σ) (c : Nat) : J.startCur c = J.curAt J.startStrip c := by
  unfold Job.startCur Job.curAt Comp.advance
  split <;> rename_i h
  · generalize (if J.main c then J.startStrip else J.startStrip / (J.comp c).yr) = x
    omega
  · rw [show J.startStrip = 0 by omega]
    simp

/-- All rows that are handed out, for jobs meeting the conditions. -/
theorem run_eq (J : Job ρ σ) (h : J.Regular) :
    J.run = some ((List.range' J.rowLo (J.effectiveH - J.rowLo)).map fun y => (y, (List.range J.nc).map (J.shown y))) := by
  have hp := stripHeight_pos J
  have hle : J.startStrip ≤ J.rowLo := by
    unfold Job.startStrip
    split
    · exact Nat.le_trans (Nat.min_le_left _ _) (Nat.div_mul_le_self _ _)
    · omega
  have hm : max J.startStrip J.rowLo = J.rowLo := Nat.max_eq_right hle
  have key := strips_eq J h (J.effectiveH + 1) J.startStrip J.startCur ((List.range J.nc).map fun c => (J.comp c).blank)
  rw [hm] at key
  refine key ?_ (by omega) ?_
  · by_cases hc : J.effectiveH ≤ J.startStrip
    · exact Or.inl hc
    · right
      have hd : J.stripHeight ∣ J.startStrip ∧ J.rowLo < J.startStrip + J.stripHeight := by
        unfold Job.startStrip at hc ⊢
        split
        · rename_i hlo
          rw [if_pos hlo] at hc
          rw [Nat.min_eq_left (by omega)]
          refine ⟨Nat.dvd_mul_left _ _, ?_⟩
          have e := Nat.div_add_mod J.rowLo J.stripHeight
          have m := Nat.mod_lt J.rowLo hp
          rw [Nat.mul_comm] at e
          omega
        · exact ⟨Nat.dvd_zero _, by omega⟩
      exact ⟨hd.1, hd.2, fun c _ => startCur_eq J c⟩
  · intro c hc _
    rw [range_map_get _ hc, if_pos rfl]

/-! ### One column of tiles -/

theorem ceil_add {a Y : Nat} (hY : 0 < Y) {t : Nat} (hd : Y ∣ a + t) : (a + t) / Y = (a + Y - 1) / Y + t / Y := by
  obtain ⟨k, hk⟩ := hd
  rw [hk, Nat.mul_div_cancel_left _ hY]
  have e1 := Nat.div_add_mod (a + Y - 1) Y
  have m1 := Nat.mod_lt (a + Y - 1) hY
  have e2 := Nat.div_add_mod t Y
  have m2 := Nat.mod_lt t hY
  generalize (a + Y - 1) / Y = p at *
  generalize t / Y = q at *
  have h1 : k * Y < (p + q + 1) * Y := by
    have : (p + q + 1) * Y = Y * p + Y * q + Y := by rw [Nat.add_mul, Nat.add_mul, Nat.mul_comm p, Nat.mul_comm q]; omega
    rw [this, Nat.mul_comm]; omega
  have h2 : (p + q) * Y < (k + 1) * Y := by
    have : (p + q) * Y = Y * p + Y * q := by rw [Nat.add_mul, Nat.mul_comm p, Nat.mul_comm q]
    rw [this, Nat.add_mul, Nat.mul_comm k]; omega
  have := Nat.lt_of_mul_lt_mul_right h1
  have := Nat.lt_of_mul_lt_mul_right h2
  omega

theorem div_lt_ceil {y b Y : Nat} (hY : 0 < Y) (h : y < b) : y / Y < (b + Y - 1) / Y := by
  have e := Nat.div_add_mod y Y
  rw [Nat.lt_iff_add_one_le, Nat.le_div_iff_mul_le hY, Nat.add_mul, Nat.mul_comm]
  omega

/-- Every `Y`-th number below `n`. -/
theorem filterMap_every {β : Type} {Y hc : Nat} (hY : 0 < Y) (f : Nat → Option β) (g : Nat → β)
    (hf : ∀ y, f y = if y % Y ≠ 0 then none else if hc ≤ y / Y then none else some (g (y / Y))) : ∀ n : Nat,
    (n + Y - 1) / Y ≤ hc → (List.range n).filterMap f = (List.range ((n + Y - 1) / Y)).map g
  | 0, _ => by
    rw [show (0 + Y - 1) / Y = 0 from Nat.div_eq_of_lt (by omega)]; rfl
  | n + 1, h => by
    have hmono : (n + Y - 1) / Y ≤ (n + 1 + Y - 1) / Y := Nat.div_le_div_right (by omega)
    rw [List.range_succ, List.filterMap_append, filterMap_every hY f g hf n (by omega)]
    have e := Nat.div_add_mod n Y
    have m := Nat.mod_lt n hY
    by_cases h0 : n % Y = 0
    · have a1 : (n + Y - 1) / Y = n / Y := by
        refine Nat.div_eq_of_lt_le ?_ ?_
        · rw [Nat.mul_comm]; omega
        · rw [Nat.succ_mul, Nat.mul_comm]; omega
      have a2 : (n + 1 + Y - 1) / Y = n / Y + 1 := by
        rw [show n + 1 + Y - 1 = n + Y by omega, Nat.add_div_right _ hY]
      rw [a2] at h
      have : f n = some (g (n / Y)) := by rw [hf, if_neg (by omega), if_neg (by omega)]
      rw [a1, a2, List.range_succ, List.map_append]
      simp [List.filterMap, this]
    · have a1 : (n + 1 + Y - 1) / Y = (n + Y - 1) / Y := by
        have b1 : (n + Y - 1) / Y = n / Y + 1 := by
          refine Nat.div_eq_of_lt_le ?_ ?_
          · rw [Nat.add_mul, Nat.mul_comm]; omega
          · rw [Nat.succ_mul, Nat.succ_mul, Nat.mul_comm]; omega
        rw [b1, show n + 1 + Y - 1 = n + Y by omega, Nat.add_div_right _ hY]
      have : f n = none := by rw [hf, if_pos h0]
      rw [a1]
      simp [List.filterMap, this]

/-! ### Many columns of tiles -/

section Columns
variable {α : Type}

theorem set_range_map {β : Type} (n y : Nat) (f : Nat → β) (v : β) :
    ((List.range n).map f).set y v = (List.range n).map fun r => if r = y then v else f r := by
  apply List.ext_getElem?
  intro i
  rw [List.getElem?_set]
  by_cases hi : i < n
  · rw [range_map_get _ hi]
    by_cases hy : y = i
    · subst hy; simp [hi]
    · rw [if_neg hy, range_map_get _ hi, if_neg (fun h => hy h.symm)]
  · rw [List.getElem?_eq_none (by simp; omega), List.getElem?_eq_none (by simp; omega)]
    split
    · simp; omega
    · rfl

/-- Accumulators given by the contents of their rows. -/
def accOf (nc : Nat) (bandH : Nat → Nat) (R : Nat → Nat → List α) : List (List (List α)) :=
  (List.range nc).map fun c => (List.range (bandH c)).map (R c)

theorem patch_eq {A d : List α} {n off : Nat} (z : α) (ho : A.length = off) (h : d.length ≤ n) :
    patch (A ++ List.replicate n z) off d = some (A ++ d ++ List.replicate (n - d.length) z) := by
  subst ho
  unfold patch
  rw [if_pos (by simp; omega), List.take_left', ← List.drop_drop, List.drop_left', List.drop_replicate]
  all_goals rfl

theorem accOf_congr {nc : Nat} {bandH : Nat → Nat} {R R' : Nat → Nat → List α} (h : ∀ c < nc, ∀ r < bandH c, R c r = R' c r) :
    accOf nc bandH R = accOf nc bandH R' := by
  unfold accOf
  refine List.map_congr_left fun c hc => List.map_congr_left fun r hr => h c (List.mem_range.1 hc) r (List.mem_range.1 hr)

/-- One row of a tile. -/
theorem scatter_eq {nc : Nat} {bandH off w m : Nat → Nat} {R : Nat → Nat → List α} {A D : Nat → List α} {y : Nat} (z : α)
    (hR : ∀ c < nc, R c y = A c ++ List.replicate (m c) z) (hA : ∀ c < nc, (A c).length = off c)
    (hD : ∀ c < nc, (D c).length = w c) (hw : ∀ c < nc, w c ≤ m c) :
    scatter off w y ((List.range nc).map D) (accOf nc bandH R)
      = some (accOf nc bandH fun c r => if r = y then A c ++ D c ++ List.replicate (m c - w c) z else R c r) := by
  unfold scatter
  have hl : (accOf nc bandH R).length = nc := by simp [accOf]
  rw [hl]
  show _ = some ((List.range nc).map _)
  refine mapM_some_map _ _ _ fun c hc => ?_
  have hc := List.mem_range.1 hc
  have : (accOf nc bandH R)[c]? = some ((List.range (bandH c)).map (R c)) := by unfold accOf; rw [range_map_get _ hc]
  rw [this, Option.bind_some, range_map_get _ hc, Option.bind_some]
  unfold scatterRow
  by_cases h0 : w c = 0 ∨ ((List.range (bandH c)).map (R c)).length ≤ y
  · rw [if_pos h0]
    congr 1
    refine List.map_congr_left fun r hr => ?_
    have hr := List.mem_range.1 hr
    simp only [List.length_map, List.length_range] at h0
    show _ = if r = y then _ else _
    split
    · rename_i hy
      subst hy
      rcases h0 with h0 | h0
      · have : D c = [] := List.length_eq_zero_iff.1 (by rw [hD c hc, h0])
        rw [hR c hc, this, h0, List.append_nil, Nat.sub_zero]
      · omega
    · rfl
  · rw [if_neg h0, if_neg (by rw [hD c hc]; omega)]
    simp only [List.length_map, List.length_range] at h0
    have h0 : y < bandH c := by omega
    rw [range_map_get _ h0, Option.bind_some, ← hD c hc, List.take_length, hR c hc,
      patch_eq z (hA c hc) (by rw [hD c hc]; exact hw c hc), Option.map_some, set_range_map, hD c hc]

/-- All rows of a tile. -/
theorem scatterAll_eq {nc : Nat} {bandH off w m : Nat → Nat} {A D : Nat → Nat → List α} (z : α)
    (hw : ∀ c < nc, w c ≤ m c) : ∀ (n s : Nat) (R : Nat → Nat → List α),
    (∀ c < nc, ∀ r, s ≤ r → r < s + n → R c r = A c r ++ List.replicate (m c) z ∧ (A c r).length = off c ∧ (D r c).length = w c) →
    scatterAll off w ((List.range' s n).map fun y => (y, (List.range nc).map (D y))) (accOf nc bandH R)
      = some (accOf nc bandH fun c r =>
          if s ≤ r ∧ r < s + n then A c r ++ D r c ++ List.replicate (m c - w c) z else R c r)
  | 0, s, R, _ => by
    show some _ = some _
    congr 1
    exact accOf_congr fun c _ r _ => by rw [if_neg (by omega)]
  | n + 1, s, R, h => by
    rw [List.range'_succ, List.map_cons]
    unfold scatterAll
    rw [scatter_eq z (A := fun c => A c s) (m := m) (fun c hc => (h c hc s (by omega) (by omega)).1)
      (fun c hc => (h c hc s (by omega) (by omega)).2.1) (fun c hc => (h c hc s (by omega) (by omega)).2.2) hw, Option.bind_some]
    rw [scatterAll_eq z hw n (s + 1) _ fun c hc r h1 h2 => by
      have := h c hc r (by omega) (by omega)
      exact ⟨by rw [if_neg (by omega)]; exact this.1, this.2⟩]
    congr 1
    refine accOf_congr fun c hc r hr => ?_
    by_cases h1 : s + 1 ≤ r ∧ r < s + 1 + n
    · rw [if_pos h1, if_pos (by omega)]
    · rw [if_neg h1]
      by_cases h2 : r = s
      · subst h2; rw [if_pos rfl, if_pos (by omega)]
      · rw [if_neg h2, if_neg (by omega)]

/-- The tiles of a band stand side by side and fill the width of the picture; `off` is where the first one begins. -/
def Columns {ρ : Type} (nc H : Nat) (width : Nat → Nat) : (Nat → Nat) → List (Job ρ (List α) × (Nat → Nat) × (Nat → Nat)) → Prop
  | off, [] => ∀ c < nc, off c = width c
  | off, t :: l =>
    (t.1.Regular ∧ t.1.nc = nc ∧ t.1.rowLo = 0 ∧ t.1.effectiveH = H ∧
      ∀ c < nc, t.2.1 c = off c ∧ ∀ y < H, (t.1.shown y c).length = t.2.2 c) ∧
    Columns nc H width (fun c => off c + t.2.2 c) l

theorem columns_le {ρ : Type} {nc H : Nat} {width : Nat → Nat} : ∀ {l : List (Job ρ (List α) × (Nat → Nat) × (Nat → Nat))} {off : Nat → Nat},
    Columns nc H width off l → ∀ c < nc, off c ≤ width c
  | [], _, h, c, hc => Nat.le_of_eq (h c hc)
  | t :: l, off, h, c, hc => by have := columns_le h.2 c hc; omega

theorem bandTiles_eq {ρ : Type} {nc H : Nat} {bandH width : Nat → Nat} (z : α) :
    ∀ (l : List (Job ρ (List α) × (Nat → Nat) × (Nat → Nat))) (off : Nat → Nat) (R A : Nat → Nat → List α),
    Columns nc H width off l →
    (∀ c < nc, ∀ r < H, R c r = A c r ++ List.replicate (width c - off c) z ∧ (A c r).length = off c) →
    ∃ R', bandTiles l (accOf nc bandH R) = some (accOf nc bandH R') ∧
      ∀ c < nc, ∀ r < H, R' c r = A c r ++ (l.map fun t => t.1.shown r c).flatten
  | [], off, R, A, h, hR => ⟨R, rfl, fun c hc r hr => by
      rw [(hR c hc r hr).1, h c hc, Nat.sub_self]; rfl⟩
  | (J, o, w) :: l, off, R, A, h, hR => by
    obtain ⟨⟨hreg, hnc, hlo, hH, hc⟩, hl⟩ := h
    have hle := columns_le hl
    simp only at hreg hnc hlo hH hc hle
    unfold bandTiles
    rw [run_eq J hreg, Option.bind_some, hlo, hH, hnc, Nat.sub_zero]
    rw [scatterAll_eq z (m := fun c => width c - off c) (A := A) (D := fun y c => J.shown y c)
      (fun c h => by have := hle c h; omega) H 0 R fun c h1 r _ h2 => by
        have := hR c h1 r (by omega)
        exact ⟨this.1, by rw [this.2, (hc c h1).1], (hc c h1).2 r (by omega)⟩, Option.bind_some]
    obtain ⟨R', h1, h2⟩ := bandTiles_eq z l (fun c => off c + w c)
      (fun c r => if 0 ≤ r ∧ r < 0 + H then A c r ++ J.shown r c ++ List.replicate (width c - off c - w c) z else R c r)
      (fun c r => A c r ++ J.shown r c) hl fun c h1 r hr => by
        constructor
        · rw [if_pos (by omega), Nat.sub_sub]
        · rw [List.length_append, (hR c h1 r hr).2, (hc c h1).2 r hr]
    exact ⟨R', h1, fun c hc r hr => by rw [h2 c hc r hr, List.map_cons, List.flatten_cons, List.append_assoc]⟩

/-- A band of tiles: the rows handed out are those of the tiles joined together, but of a component with fewer rows row number
`min y (bandH c - 1)` of what the tiles hand out. -/
theorem band_eq {ρ : Type} {nc : Nat} {bandH width : Nat → Nat} (z : α) {tiles : List (Job ρ (List α) × (Nat → Nat) × (Nat → Nat))}
    (gy : Nat) (h : Columns nc (bandH 0) width (fun _ => 0) tiles) (hpos : ∀ c < nc, 0 < bandH c) :
    band nc bandH width z tiles gy = some ((List.range (bandH 0)).map fun y =>
      (gy + y, (List.range nc).map fun c => (tiles.map fun t => t.1.shown (min y (bandH c - 1)) c).flatten)) := by
  unfold band
  have h0 : ((List.range nc).map fun c => List.replicate (bandH c) (List.replicate (width c) z))
      = accOf nc bandH fun c _ => List.replicate (width c) z := by
    unfold accOf
    refine List.map_congr_left fun c _ => ?_
    rw [List.map_const', List.length_range]
  obtain ⟨R', h1, h2⟩ := bandTiles_eq (bandH := bandH) z tiles (fun _ => 0) (fun c _ => List.replicate (width c) z) (fun _ _ => []) h
    fun c hc r hr => ⟨by simp, rfl⟩
  rw [h0, h1, Option.map_some]
  congr 1
  refine List.map_congr_left fun y hy => ?_
  have hy := List.mem_range.1 hy
  congr 1
  refine List.map_congr_left fun c hc => ?_
  have hc := List.mem_range.1 hc
  have hb := hpos c hc
  unfold accOf
  rw [range_map_get _ hc, Option.getD_some, List.getD_eq_getElem?_getD, range_map_get _ (by omega), Option.getD_some, h2 c hc _ (by omega)]
  rfl

end Columns

end Verif.Tile.Rows
