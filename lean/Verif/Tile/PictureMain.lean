import Verif.Tile.PictureLemmas

namespace Verif.Tile.Pipe

/-- DC offset, smallest and largest value, when they are defined. -/
def Picture.lev (P : Picture) (c : Nat) : Int × Int × Int :=
  if P.signed c then (0, -2 ^ (P.depth c - 1), 2 ^ (P.depth c - 1) - 1) else (2 ^ (P.depth c - 1), 0, 2 ^ P.depth c - 1)

/-- A sample of a tile-component, less the DC offset. -/
def Picture.val (P : Picture) (img : Nat → List Int) (t c y x : Nat) : Int := (img c).getD (P.at t c y x) 0 - (P.lev c).1

/-- A sample of a tile-component as it goes into the wavelet transform. -/
def Picture.ycc (P : Picture) (img : Nat → List Int) (t c y x : Nat) : Int :=
  if P.mct ∧ c < 3 then pick c (Dwt.rct (P.val img t 0 y x, P.val img t 1 y x, P.val img t 2 y x)) else P.val img t c y x

/-- The planes of a tile as they go into the wavelet transform. -/
def Picture.planes (P : Picture) (img : Nat → List Int) (t c : Nat) : List (List Int) :=
  plane (size ((P.coding t).tcy c)) (size ((P.coding t).tcx c)) (P.ycc img t c)

theorem mct_comps {P : Picture} (h : P.mct = true) : 3 ≤ P.nc := by
  unfold Picture.mct at h
  simp only [Bool.and_eq_true, decide_eq_true_eq] at h
  exact h.1.2

theorem pitch_get {w y x : Nat} (hx : x < w) : (y * pitch w + x) / pitch w = y ∧ (y * pitch w + x) % pitch w = x := by
  have hp : x < pitch w := by unfold pitch; omega
  constructor
  · rw [Nat.mul_comm, Nat.mul_add_div (by omega), Nat.div_eq_of_lt hp, Nat.add_zero]
  · rw [Nat.mul_comm, Nat.mul_add_mod, Nat.mod_eq_of_lt hp]

section
variable {P : Picture} (h : P.Legal) {img : Nat → List Int} (hs : P.Samples img)
include h

theorem levels_eq {c : Nat} (hc : c < P.nc) : P.levels c = some (P.lev c) := by
  have := h.depth c hc
  unfold Picture.levels Picture.lev
  rw [if_pos (by omega)]

/-- Component 0 has at least as many rows as any other. -/
theorem rows_le {t c : Nat} (ht : t < P.tiles) (hc : c < P.nc) :
    ∀ y < size ((P.coding t).tcy c), y < size ((P.coding t).tcy 0) := by
  rw [tcy_eq h ht hc, tcy_eq h ht h.comps]
  obtain ⟨k, hk⟩ := h.rows c hc
  have hc1 := (h.sub c hc).2.1
  have h01 := (h.sub 0 h.comps).2.1
  have hk1 : 1 ≤ k := Nat.pos_of_ne_zero fun e => by subst e; omega
  rw [hk]
  generalize P.sy 0 = s at *
  have hm := tileB_mono P.ay (t / numTiles P.ax)
  generalize tileB P.ay (t / numTiles P.ax) = a at *
  generalize tileB P.ay (t / numTiles P.ax + 1) = b at *
  intro y hy
  have key : cdiv b (s * k) - cdiv a (s * k) ≤ cdiv b s - cdiv a s := by
    have ec : ∀ v, cdiv v (s * k) = cdiv (cdiv v s) k := fun v => (cdiv_mul rfl (by omega) (by omega) v).symm
    rw [ec, ec]
    have hmm : cdiv a s ≤ cdiv b s := cdiv_mono hm
    generalize cdiv b s = B at *
    generalize cdiv a s = A at *
    obtain ⟨d, rfl⟩ := Nat.exists_eq_add_of_le hmm
    unfold cdiv
    rw [Nat.add_sub_cancel_left, Nat.sub_le_iff_le_add]
    refine Nat.le_trans (Nat.div_le_div_right (c := k) (show A + d + k - 1 ≤ A + k - 1 + k * d by
      have := Nat.mul_le_mul_right d hk1; omega)) ?_
    rw [Nat.add_mul_div_left _ _ (by omega)]
    omega
  unfold size at hy ⊢
  simp only at hy ⊢
  omega

theorem same_size {t k : Nat} (hm : P.mct = true) (hk : k < 3) :
    (P.coding t).tcx k = (P.coding t).tcx 0 ∧ (P.coding t).tcy k = (P.coding t).tcy 0 := by
  obtain ⟨e1, e2⟩ := h.same hm k hk
  constructor
  · show tcSpan _ (P.sx k) = tcSpan _ (P.sx 0); rw [e1]
  · show tcSpan _ (P.sy k) = tcSpan _ (P.sy 0); rw [e2]

include hs

theorem encSamples_eq {t c : Nat} (ht : t < P.tiles) (hc : c < P.nc) :
    encSamples P img t c = some (plane (size ((P.coding t).tcy c)) (size ((P.coding t).tcx c)) (P.val img t c)) := by
  unfold encSamples
  rw [levels_eq h hc]
  simp only [Option.bind_eq_bind, Option.bind_some]
  unfold plane
  refine mapM_map' fun y hy => mapM_map' fun x hx => ?_
  rw [List.mem_range] at hx hy
  rw [if_neg (by
    rintro ⟨h1, h2⟩
    rcases h.levels with h3 | h3
    · rw [h3] at h2; cases h2
    · have := h3 c hc; omega), srcIndex_eq h ht hc hy hx]
  have hl := at_lt h ht hc hy hx
  rw [← (hs c hc).1] at hl
  unfold readAt
  rw [if_pos (by omega), Int.toNat_natCast, List.getElem?_eq_getElem hl]
  unfold Picture.val
  rw [List.getD_eq_getElem?_getD, List.getElem?_eq_getElem hl]
  rfl

theorem encPlanes_eq {t : Nat} (ht : t < P.tiles) :
    encPlanes P img t = some ((List.range P.nc).map (P.planes img t)) := by
  unfold encPlanes
  rw [mapM_map' (g := fun c => plane (size ((P.coding t).tcy c)) (size ((P.coding t).tcx c)) (P.val img t c))
    fun c hc => encSamples_eq h hs ht (List.mem_range.1 hc)]
  simp only [Option.bind_eq_bind, Option.bind_some]
  by_cases hm : P.mct = true
  · rw [if_pos hm]
    have h3 := mct_comps hm
    unfold colour
    simp only [Option.bind_eq_bind]
    rw [mapM_map' (g := fun y => (List.range (size ((P.coding t).tcx 0))).map fun x =>
        Dwt.rct (P.val img t 0 y x, P.val img t 1 y x, P.val img t 2 y x)) (by
      intro y hy
      refine mapM_map' fun x hx => ?_
      rw [List.mem_range] at hx hy
      have key : ∀ k < 3, (if (y * pitch (size ((P.coding t).tcx 0)) + x) % pitch (size ((P.coding t).tcx k)) < size ((P.coding t).tcx k)
          then ((((List.range P.nc).map fun c => plane (size ((P.coding t).tcy c)) (size ((P.coding t).tcx c)) (P.val img t c))[k]?).bind
            (·[(y * pitch (size ((P.coding t).tcx 0)) + x) / pitch (size ((P.coding t).tcx k))]?)).bind
            (·[(y * pitch (size ((P.coding t).tcx 0)) + x) % pitch (size ((P.coding t).tcx k))]?) else none) =
          some (P.val img t k y x) := by
        intro k hk
        obtain ⟨e1, e2⟩ := same_size h (t := t) hm hk
        rw [get_range_map _ (by omega), e1, e2, (pitch_get hx).1, (pitch_get hx).2, if_pos hx, Option.bind_some,
          plane_get _ hy hx]
      rw [key 0 (by omega), key 1 (by omega), key 2 (by omega)]
      rfl)]
    rw [Option.bind_some, List.length_map, List.length_range]
    refine mapM_map' fun k hk => ?_
    rw [List.mem_range] at hk
    by_cases hk3 : k < 3
    · rw [if_pos hk3]
      obtain ⟨e1, e2⟩ := same_size h (t := t) hm hk3
      unfold Picture.planes plane
      rw [e1, e2]
      refine mapM_map' fun y hy => mapM_map' fun x hx => ?_
      rw [List.mem_range] at hx hy
      rw [(pitch_get hx).1, (pitch_get hx).2, get_range_map _ hy, Option.bind_some, get_range_map _ hx]
      unfold Picture.ycc
      rw [if_pos ⟨hm, hk3⟩]
      rfl
    · rw [if_neg hk3, get_range_map _ hk]
      unfold Picture.planes
      congr 1
      congr 1
      funext y x
      unfold Picture.ycc
      rw [if_neg (by omega)]
  · rw [if_neg hm]
    congr 1
    refine List.map_congr_left fun c _ => ?_
    unfold Picture.planes
    congr 1
    funext y x
    unfold Picture.ycc
    rw [if_neg (by rintro ⟨e, -⟩; exact hm e)]

/-- The sample and its place, when a value is stored. -/
theorem clamp_val {t c y x : Nat} (ht : t < P.tiles) (hc : c < P.nc) (hy : y < size ((P.coding t).tcy c))
    (hx : x < size ((P.coding t).tcx c)) :
    Picture.clampTo (P.lev c) (P.val img t c y x) = (img c).getD (P.at t c y x) 0 := by
  have hl := at_lt h ht hc hy hx
  rw [← (hs c hc).1] at hl
  have hr := (hs c hc).2 _ (List.getElem_mem hl)
  unfold Picture.val Picture.clampTo
  simp only [Int.sub_add_cancel]
  rw [List.getD_eq_getElem?_getD, List.getElem?_eq_getElem hl, Option.getD_some]
  generalize (img c)[P.at t c y x] = v at *
  unfold Picture.lev
  split at hr
  · rename_i e
    rw [if_pos e]
    simp only
    rw [if_neg (c := v > _) (by omega), if_neg (by omega)]
  · rename_i e
    rw [if_neg e]
    simp only
    rw [if_neg (c := v > _) (by omega), if_neg (by omega)]

/-- What the stores of row `y` of a tile are. -/
structure Stored (P : Picture) (img : Nat → List Int) (t : Nat) (ys : Nat → Prop) (cs : Nat → Prop) (ws : List Store) : Prop where
  right : ∀ w ∈ ws, ∃ c y x, c < P.nc ∧ y < size ((P.coding t).tcy c) ∧ x < size ((P.coding t).tcx c) ∧
    w = (c, P.at t c y x, (img c).getD (P.at t c y x) 0)
  all : ∀ c y x, cs c → ys y → y < size ((P.coding t).tcy c) → x < size ((P.coding t).tcx c) → ∃ w ∈ ws, w.1 = c ∧ w.2.1 = P.at t c y x

omit h hs in
theorem stored_flatten {α : Type} {P : Picture} {img : Nat → List Int} {t : Nat} {ys cs : α → Nat → Prop} {l : List α} {f : α → List Store}
    (hf : ∀ a ∈ l, Stored P img t (ys a) (cs a) (f a)) {ys' cs' : Nat → Prop}
    (hc : ∀ c y, cs' c → ys' y → ∃ a ∈ l, ys a y ∧ cs a c) : Stored P img t ys' cs' (l.map f).flatten where
  right := by
    intro w hw
    rw [List.mem_flatten] at hw
    obtain ⟨_, h1, h2⟩ := hw
    obtain ⟨a, ha, rfl⟩ := List.mem_map.1 h1
    exact (hf a ha).right w h2
  all := by
    intro c y x h1 h2 h3 h4
    obtain ⟨a, ha, hy, hc'⟩ := hc c y h1 h2
    obtain ⟨w, hw, e⟩ := (hf a ha).all c y x hc' hy h3 h4
    exact ⟨w, List.mem_flatten.2 ⟨_, List.mem_map.2 ⟨a, ha, rfl⟩, hw⟩, e⟩

theorem rowStores_eq {t y c : Nat} (ht : t < P.tiles) (hc : c < P.nc) (hm : P.mct = true → 3 ≤ c) :
    ∃ ws, rowStores P t ((List.range P.nc).map (P.planes img t)) y c = some ws ∧ Stored P img t (· = y) (· = c) ws := by
  unfold rowStores
  by_cases hy : size ((P.coding t).tcy c) ≤ y
  · rw [if_pos hy]
    refine ⟨[], rfl, by simp, ?_⟩
    rintro c' y' x rfl rfl h1
    omega
  · rw [if_neg hy, levels_eq h hc, get_range_map _ hc]
    simp only [Option.bind_eq_bind, Option.bind_some]
    unfold Picture.planes
    rw [plane_row _ (by omega), Option.bind_some]
    refine ⟨_, mapM_map' (g := fun n => (c, P.at t c y n, (img c).getD (P.at t c y n) 0)) ?_, ?_, ?_⟩
    · intro n hn
      rw [List.mem_range] at hn
      rw [get_range_map _ hn, Option.bind_some, dstIndex_eq h ht hc (by omega) hn]
      have : P.ycc img t c y n = P.val img t c y n := by
        unfold Picture.ycc
        rw [if_neg (by rintro ⟨e, h2⟩; have := hm e; omega)]
      rw [this, clamp_val h hs ht hc (by omega) hn]
      rfl
    · intro w hw
      obtain ⟨n, hn, rfl⟩ := List.mem_map.1 hw
      rw [List.mem_range] at hn
      exact ⟨c, y, n, hc, by omega, hn, rfl⟩
    · rintro c' y' x rfl rfl h1 h2
      exact ⟨_, List.mem_map.2 ⟨x, List.mem_range.2 h2, rfl⟩, rfl, rfl⟩

theorem colourStores_eq {t y : Nat} (ht : t < P.tiles) (hm : P.mct = true) (hy : y < size ((P.coding t).tcy 0)) :
    ∃ ws, colourStores P t ((List.range P.nc).map (P.planes img t)) y = some ws ∧ Stored P img t (· = y) (· < 3) ws := by
  have h3 := mct_comps hm
  have hrow : ∀ k < 3, (((List.range P.nc).map (P.planes img t))[k]?).bind (·[y]?) =
      some ((List.range (size ((P.coding t).tcx 0))).map (P.ycc img t k y)) := by
    intro k hk
    obtain ⟨e1, e2⟩ := same_size h (t := t) hm hk
    rw [get_range_map _ (by omega), Option.bind_some]
    unfold Picture.planes
    rw [plane_row _ (by rw [e2]; exact hy), e1]
  unfold colourStores
  rw [levels_eq h (c := 0) (by omega), levels_eq h (c := 1) (by omega), levels_eq h (c := 2) (by omega),
    hrow 0 (by omega), hrow 1 (by omega), hrow 2 (by omega)]
  simp only [Option.bind_eq_bind, Option.bind_some]
  let st := fun n k => (k, P.at t k y n, (img k).getD (P.at t k y n) 0)
  refine ⟨_, by
    rw [mapM_map' (g := fun n => [st n 0, st n 1, st n 2])]
    · rfl
    intro n hn
    rw [List.mem_range] at hn
    rw [get_range_map _ hn, get_range_map _ hn, get_range_map _ hn]
    simp only [Option.bind_some]
    have e : (P.ycc img t 0 y n, P.ycc img t 1 y n, P.ycc img t 2 y n) =
        Dwt.rct (P.val img t 0 y n, P.val img t 1 y n, P.val img t 2 y n) := by
      unfold Picture.ycc
      rw [if_pos ⟨hm, by omega⟩, if_pos ⟨hm, by omega⟩, if_pos ⟨hm, by omega⟩]
      rfl
    rw [e, Dwt.C28_colour_round_trip]
    have hd : ∀ k < 3, y < size ((P.coding t).tcy k) ∧ n < size ((P.coding t).tcx k) := by
      intro k hk
      obtain ⟨e1, e2⟩ := same_size h (t := t) hm hk
      rw [e1, e2]; exact ⟨hy, hn⟩
    have d0 := hd 0 (by omega)
    have d1 := hd 1 (by omega)
    have d2 := hd 2 (by omega)
    simp only [clamp_val h hs ht (show 0 < P.nc by omega) d0.1 d0.2, clamp_val h hs ht (show 1 < P.nc by omega) d1.1 d1.2,
      clamp_val h hs ht (show 2 < P.nc by omega) d2.1 d2.2, dstIndex_eq h ht (show 0 < P.nc by omega) d0.1 d0.2,
      dstIndex_eq h ht (show 1 < P.nc by omega) d1.1 d1.2, dstIndex_eq h ht (show 2 < P.nc by omega) d2.1 d2.2]
    rfl, ?_, ?_⟩
  · intro w hw
    rw [List.mem_flatten] at hw
    obtain ⟨_, h1, h2⟩ := hw
    obtain ⟨n, hn, rfl⟩ := List.mem_map.1 h1
    rw [List.mem_range] at hn
    have hd : ∀ k < 3, y < size ((P.coding t).tcy k) ∧ n < size ((P.coding t).tcx k) := by
      intro k hk
      obtain ⟨e1, e2⟩ := same_size h (t := t) hm hk
      rw [e1, e2]; exact ⟨hy, hn⟩
    simp only [List.mem_cons, List.not_mem_nil, or_false] at h2
    rcases h2 with rfl | rfl | rfl
    · exact ⟨0, y, n, by omega, (hd 0 (by omega)).1, (hd 0 (by omega)).2, rfl⟩
    · exact ⟨1, y, n, by omega, (hd 1 (by omega)).1, (hd 1 (by omega)).2, rfl⟩
    · exact ⟨2, y, n, by omega, (hd 2 (by omega)).1, (hd 2 (by omega)).2, rfl⟩
  · rintro c y' x hc rfl h1 h2
    obtain ⟨e1, e2⟩ := same_size h (t := t) hm hc
    rw [e1] at h2
    refine ⟨st x c, List.mem_flatten.2 ⟨_, List.mem_map.2 ⟨x, List.mem_range.2 h2, rfl⟩, ?_⟩, rfl, rfl⟩
    interval_cases c <;> simp

theorem lineStores_eq {t y : Nat} (ht : t < P.tiles) (hy : y < size ((P.coding t).tcy 0)) :
    ∃ ws, lineStores P t ((List.range P.nc).map (P.planes img t)) y = some ws ∧ Stored P img t (· = y) (· < P.nc) ws := by
  have hrow : ∀ c, ∃ ws, (c < P.nc → (P.mct = true → 3 ≤ c) →
      rowStores P t ((List.range P.nc).map (P.planes img t)) y c = some ws ∧ Stored P img t (· = y) (· = c) ws) := by
    intro c
    by_cases hc : c < P.nc ∧ (P.mct = true → 3 ≤ c)
    · obtain ⟨ws, h1⟩ := rowStores_eq h hs (y := y) ht hc.1 hc.2
      exact ⟨ws, fun _ _ => h1⟩
    · exact ⟨[], fun h1 h2 => absurd ⟨h1, h2⟩ hc⟩
  choose f hf using hrow
  unfold lineStores
  by_cases hm : P.mct = true
  · rw [if_pos hm]
    obtain ⟨ws, e, hst⟩ := colourStores_eq h hs ht hm hy
    have hin : ∀ c ∈ List.range' 3 (P.nc - 3), c < P.nc ∧ 3 ≤ c := by
      intro c hc; rw [List.mem_range'_1] at hc; omega
    rw [e, mapM_map' (g := f) fun c hc => (hf c (hin c hc).1 fun _ => (hin c hc).2).1]
    refine ⟨_, rfl, ?_⟩
    have hfl := stored_flatten (ys := fun _ => (· = y)) (cs := fun c => (· = c)) (ys' := (· = y)) (cs' := fun c => 3 ≤ c ∧ c < P.nc)
      (fun c hc => (hf c (hin c hc).1 fun _ => (hin c hc).2).2)
      (fun c y' h1 h2 => ⟨c, by rw [List.mem_range'_1]; omega, h2, rfl⟩)
    refine ⟨?_, ?_⟩
    · intro w hw
      rcases List.mem_append.1 hw with hw | hw
      · exact hst.right w hw
      · exact hfl.right w hw
    · intro c y' x h1 h2 h3 h4
      by_cases hc3 : c < 3
      · obtain ⟨w, hw, e⟩ := hst.all c y' x hc3 h2 h3 h4
        exact ⟨w, List.mem_append_left _ hw, e⟩
      · obtain ⟨w, hw, e⟩ := hfl.all c y' x ⟨by omega, h1⟩ h2 h3 h4
        exact ⟨w, List.mem_append_right _ hw, e⟩
  · rw [if_neg hm]
    have hin : ∀ c ∈ List.range P.nc, c < P.nc := fun c hc => List.mem_range.1 hc
    rw [mapM_map' (g := f) fun c hc => (hf c (hin c hc) fun e => absurd e hm).1]
    refine ⟨_, rfl, ?_⟩
    exact stored_flatten (ys := fun _ => (· = y)) (cs := fun c => (· = c))
      (fun c hc => (hf c (hin c hc) fun e => absurd e hm).2) (fun c y' h1 h2 => ⟨c, List.mem_range.2 h1, h2, rfl⟩)

theorem tileStores_eq {t : Nat} (ht : t < P.tiles) :
    ∃ ws, tileStores P t ((List.range P.nc).map (P.planes img t)) = some ws ∧ Stored P img t (fun _ => True) (· < P.nc) ws := by
  have hl : ∀ y, ∃ ws, y < size ((P.coding t).tcy 0) → lineStores P t ((List.range P.nc).map (P.planes img t)) y = some ws ∧
      Stored P img t (· = y) (· < P.nc) ws := by
    intro y
    by_cases hy : y < size ((P.coding t).tcy 0)
    · obtain ⟨ws, h1⟩ := lineStores_eq h hs ht hy
      exact ⟨ws, fun _ => h1⟩
    · exact ⟨[], fun e => absurd e hy⟩
  choose f hf using hl
  unfold tileStores
  rw [mapM_map' (g := f) fun y hy => (hf y (List.mem_range.1 hy)).1]
  refine ⟨_, rfl, ?_, ?_⟩
  · exact (stored_flatten (ys := fun y => (· = y)) (cs := fun _ => (· < P.nc)) (ys' := (· < size ((P.coding t).tcy 0)))
      (fun y hy => (hf y (List.mem_range.1 hy)).2) (cs' := (· < P.nc))
      (fun c y h1 h2 => ⟨y, List.mem_range.2 h2, rfl, h1⟩)).right
  · intro c y x h1 _ h3 h4
    exact (stored_flatten (ys := fun y => (· = y)) (cs := fun _ => (· < P.nc)) (ys' := (· < size ((P.coding t).tcy 0)))
      (fun y hy => (hf y (List.mem_range.1 hy)).2) (cs' := (· < P.nc))
      (fun c y h1 h2 => ⟨y, List.mem_range.2 h2, rfl, h1⟩)).all c y x h1 (rows_le h ht h1 y h3) h3 h4

omit hs in
/-- Every sample of a component is in a tile. -/
theorem covered_by_tile {c i : Nat} (hc : c < P.nc) (hi : i < P.width c * P.height c) :
    ∃ t y x, t < P.tiles ∧ y < size ((P.coding t).tcy c) ∧ x < size ((P.coding t).tcx c) ∧ P.at t c y x = i := by
  have hw : 0 < P.width c := Nat.pos_of_ne_zero fun e => by rw [e, Nat.zero_mul] at hi; omega
  have h1 : i / P.width c < P.height c := Nat.div_lt_of_lt_mul hi
  have h2 : i % P.width c < P.width c := Nat.mod_lt _ hw
  have hqr : P.width c * (i / P.width c) + i % P.width c = i := Nat.div_add_mod i _
  generalize i / P.width c = q at *
  generalize i % P.width c = r at *
  have hsb := h.sub c hc
  have := h.sizx; have := h.sizy
  obtain ⟨t, ⟨ht, hx, hy⟩, -⟩ := C25_tile_component_unique h.ax h.ay (sx := P.sx c) (sy := P.sy c) hsb.1.1 hsb.2.1 (by omega) (by omega)
    (u := cdiv P.ax.osiz (P.sx c) + r) (v := cdiv P.ay.osiz (P.sy c) + q)
    ⟨by simp only; omega, by simp only; unfold Picture.width at h2; omega⟩
    ⟨by simp only; omega, by simp only; unfold Picture.height at h1; omega⟩
  change Has ((P.coding t).tcx c) _ at hx
  change Has ((P.coding t).tcy c) _ at hy
  have hx1 := hx.1; have hx2 := hx.2; have hy1 := hy.1; have hy2 := hy.2
  refine ⟨t, cdiv P.ay.osiz (P.sy c) + q - ((P.coding t).tcy c).1,
    cdiv P.ax.osiz (P.sx c) + r - ((P.coding t).tcx c).1, by rw [h.tiles]; exact ht, by unfold size; omega,
    by unfold size; omega, ?_⟩
  unfold Picture.at
  rw [show ((P.coding t).tcy c).1 + (cdiv P.ay.osiz (P.sy c) + q - ((P.coding t).tcy c).1) - cdiv P.ay.osiz (P.sy c) = q by omega,
    show ((P.coding t).tcx c).1 + (cdiv P.ax.osiz (P.sx c) + r - ((P.coding t).tcx c).1) - cdiv P.ax.osiz (P.sx c) = r by omega,
    Nat.mul_comm, hqr]

/-- What is asked of tile `t` besides: see C67. -/
structure TileGood (P : Picture) (img : Nat → List Int) (t : Nat) : Prop where
  wide : ∀ c < P.nc, Wide (P.coding t) c
  covered : Covered (P.coding t) (P.planes img t)
  aligned : Aligned (P.coding t)

omit h hs in
theorem planes_fit {t : Nat} : Fits (P.coding t) (P.planes img t) := by
  intro c _
  unfold Picture.planes plane
  refine ⟨by simp, ?_⟩
  intro r hr
  obtain ⟨y, -, rfl⟩ := List.mem_map.1 hr
  simp

omit h hs in
theorem subband_congr {C : Coding} {f g : Nat → List (List Int)} {c : Nat} (e : f c = g c) (r b : Nat) :
    subband C f c r b = subband C g c r b := by
  unfold subband; rw [e]

omit h hs in
theorem fits_congr {C : Coding} {f g : Nat → List (List Int)} (e : ∀ c < C.T.ncomp, f c = g c) (h : Fits C g) : Fits C f := by
  intro c hc; rw [e c hc]; exact h c hc

omit h hs in
theorem covered_congr {C : Coding} {f g : Nat → List (List Int)} (e : ∀ c < C.T.ncomp, f c = g c) (h : Covered C g) :
    Covered C f := by
  intro c hc r hr b hb rows er
  rw [subband_congr (e c hc)] at er
  exact h c hc r hr b hb rows er

/-- One tile there and back. -/
theorem tile_round {t : Nat} (ht : t < P.tiles) (hg : TileGood P img t) {E : Env} (hE : E.Sane) {fuel : Nat} (hf : 256 ≤ fuel) :
    ∃ bytes ws, ((encPlanes P img t).bind fun s => encodeTile (P.coding t) fun c => s.getD c []) = some bytes ∧
      (∀ tail, ((decodeTile (P.coding t) E fuel (bytes ++ tail)).bind fun s => tileStores P t s) = some ws) ∧
      Stored P img t (fun _ => True) (· < P.nc) ws := by
  rw [encPlanes_eq h hs ht, Option.bind_some]
  have e : ∀ c < (P.coding t).T.ncomp, ((List.range P.nc).map (P.planes img t)).getD c [] = P.planes img t c := by
    intro c hc
    rw [List.getD_eq_getElem?_getD, get_range_map _ (show c < P.nc from hc)]; rfl
  obtain ⟨ws, ew, hst⟩ := tileStores_eq h hs ht
  have key := fun tail => C67_lossless (P.coding t) (h.tile t (by rw [← h.tiles]; exact ht))
    (fun c => ((List.range P.nc).map (P.planes img t)).getD c []) (fits_congr e planes_fit) hg.wide (covered_congr e hg.covered)
    hg.aligned E hE tail fuel hf
  obtain ⟨bytes, eb, -⟩ := key []
  refine ⟨bytes, ws, eb, ?_, hst⟩
  intro tail
  obtain ⟨b', eb', ed⟩ := key tail
  rw [eb] at eb'
  cases eb'
  rw [ed, Option.bind_some, ← ew]
  congr 1
  exact List.map_congr_left fun c hc => e c (List.mem_range.1 hc)

end

end Verif.Tile.Pipe
