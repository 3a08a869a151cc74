import Verif.Tile.Picture
import Verif.Tile.PropsPipeline
import Verif.Dwt.PropsDwt

namespace Verif.Tile.Pipe

/-! ## Lists -/

theorem mapM_map' {α β : Type} {f : α → Option β} {g : α → β} : ∀ {l : List α}, (∀ a ∈ l, f a = some (g a)) →
    l.mapM f = some (l.map g) := by
  intro l
  induction l with
  | nil => intro _; rfl
  | cons a l ih =>
    intro h
    rw [List.mapM_cons, h a List.mem_cons_self, ih fun b hb => h b (List.mem_cons_of_mem _ hb)]
    rfl

theorem get_range_map {β : Type} (g : Nat → β) {n k : Nat} (h : k < n) : ((List.range n).map g)[k]? = some (g k) := by
  rw [List.getElem?_map, List.getElem?_range h]; rfl

/-- Rows given by a function. -/
def plane (h w : Nat) (g : Nat → Nat → Int) : List (List Int) := (List.range h).map fun y => (List.range w).map (g y)

theorem plane_get {h w : Nat} (g : Nat → Nat → Int) {y x : Nat} (hy : y < h) (hx : x < w) :
    ((plane h w g)[y]?).bind (·[x]?) = some (g y x) := by
  unfold plane
  rw [get_range_map _ hy, Option.bind_some, get_range_map _ hx]

theorem plane_row {h w : Nat} (g : Nat → Nat → Int) {y : Nat} (hy : y < h) :
    (plane h w g)[y]? = some ((List.range w).map (g y)) := get_range_map _ hy

/-- Stores that all write what `g` says leave it wherever one of them went, in any order. -/
theorem runStores_spec {bufSize : Nat → Nat} {g : Output} : ∀ {ws : List Store}, (∀ w ∈ ws, w.2.1 < bufSize w.1 ∧ w.2.2 = g w.1 w.2.1) →
    ∀ o : Output, ∃ o', runStores bufSize ws o = some o' ∧
      ∀ c i, ((∃ w ∈ ws, w.1 = c ∧ w.2.1 = i) → o' c i = g c i) ∧ ((¬ ∃ w ∈ ws, w.1 = c ∧ w.2.1 = i) → o' c i = o c i) := by
  intro ws
  induction ws with
  | nil => intro _ o; exact ⟨o, rfl, fun c i => ⟨by rintro ⟨w, h, -⟩; simp at h, fun _ => rfl⟩⟩
  | cons w ws ih =>
    intro h o
    obtain ⟨h1, h2⟩ := h w List.mem_cons_self
    obtain ⟨o', e, ho⟩ := ih (fun v hv => h v (List.mem_cons_of_mem _ hv)) fun c i => if c = w.1 ∧ i = w.2.1 then w.2.2 else o c i
    refine ⟨o', by rw [runStores, if_pos h1]; exact e, fun c i => ⟨?_, ?_⟩⟩
    · rintro ⟨v, hv, e1, e2⟩
      by_cases hm : ∃ w ∈ ws, w.1 = c ∧ w.2.1 = i
      · exact (ho c i).1 hm
      · rw [(ho c i).2 hm]
        rcases List.mem_cons.1 hv with rfl | hv
        · simp only [e1, e2, and_self, if_true]; rw [h2, e1, e2]
        · exact absurd ⟨v, hv, e1, e2⟩ hm
    · intro hn
      rw [(ho c i).2 fun ⟨v, hv, e⟩ => hn ⟨v, List.mem_cons_of_mem _ hv, e⟩]
      rw [if_neg]
      rintro ⟨rfl, rfl⟩
      exact hn ⟨w, List.mem_cons_self, rfl, rfl⟩

/-! ## What a picture has to satisfy -/

/-- Columns of component `c`. -/
def Picture.width (P : Picture) (c : Nat) : Nat := cdiv P.ax.siz (P.sx c) - cdiv P.ax.osiz (P.sx c)
/-- Rows of component `c`. -/
def Picture.height (P : Picture) (c : Nat) : Nat := cdiv P.ay.siz (P.sy c) - cdiv P.ay.osiz (P.sy c)

/-- Legal parameters, and the conditions under which the code addresses samples correctly. -/
structure Picture.Legal (P : Picture) : Prop where
  ax : Tile.Legal P.ax
  ay : Tile.Legal P.ay
  count : numTiles P.ax * numTiles P.ay ≤ 65535
  comps : 0 < P.nc
  tile : ∀ t < numTiles P.ax * numTiles P.ay, (P.coding t).Legal
  sizx : P.ax.siz ≤ 2 ^ 31
  sizy : P.ay.siz ≤ 2 ^ 31
  sub : ∀ c < P.nc, (1 ≤ P.sx c ∧ P.sx c ≤ 255) ∧ 1 ≤ P.sy c ∧ P.sy c ≤ 255
  depth : ∀ c < P.nc, 1 ≤ P.depth c ∧ P.depth c ≤ 24
  area : ∀ c < P.nc, P.width c * P.height c < 2 ^ 32
  /-- Columns: not subsampled, or the width can be divided and the origin is 0 or 1. -/
  straightx : ∀ c < P.nc, P.sx c = 1 ∨ (P.ax.osiz ≤ 1 ∧ P.sx c ∣ P.ax.siz)
  /-- Rows: not subsampled, or the origin is 0 or 1. -/
  straighty : ∀ c < P.nc, P.sy c = 1 ∨ P.ay.osiz ≤ 1
  /-- Without the colour transform there is at least one decomposition level. -/
  levels : P.mct = true ∨ ∀ c < P.nc, 0 < (P.base.T.comp c).NL
  /-- No component has rows between those of component 0. -/
  rows : ∀ c < P.nc, P.sy 0 ∣ P.sy c
  /-- The colour transform is for components of the same size. -/
  same : P.mct = true → ∀ k < 3, P.sx k = P.sx 0 ∧ P.sy k = P.sy 0

/-- Samples as declared in SIZ: as many as the component has, within the range of the bit depth. -/
def Picture.Samples (P : Picture) (img : Nat → List Int) : Prop :=
  ∀ c < P.nc, (img c).length = P.width c * P.height c ∧ ∀ v ∈ img c,
    if P.signed c then -2 ^ (P.depth c - 1) ≤ v ∧ v < 2 ^ (P.depth c - 1) else 0 ≤ v ∧ v < 2 ^ P.depth c

section
variable {P : Picture} (h : P.Legal)
include h

theorem Picture.Legal.tiles : P.tiles = numTiles P.ax * numTiles P.ay := w32_eq (by have := h.count; omega)

/-- The tile-component in coordinates of the component. -/
theorem tcx_eq {t c : Nat} (ht : t < P.tiles) (hc : c < P.nc) :
    (P.coding t).tcx c = (cdiv (tileB P.ax (t % numTiles P.ax)) (P.sx c), cdiv (tileB P.ax (t % numTiles P.ax + 1)) (P.sx c)) := by
  rw [h.tiles] at ht
  have hn : 0 < numTiles P.ax := Nat.pos_of_ne_zero fun e => by rw [e, Nat.zero_mul] at ht; omega
  have hk := Nat.mod_lt t hn
  have hcnt : numTiles P.ax ≤ 65536 := by rw [numTiles_eq h.ax]; exact h.ax.count
  have hs := (h.sub c hc).1
  have := h.sizx; have := h.ax.img
  have b : ∀ i, tileB P.ax i ≤ P.ax.siz := by intro i; unfold tileB; omega
  have b1 := b (t % numTiles P.ax); have b2 := b (t % numTiles P.ax + 1)
  show tcSpan (tileSpan P.ax (tileX P.ax t)) (P.sx c) = _
  unfold tileX
  rw [Nat.mod_eq_of_lt (a := t % numTiles P.ax) (by omega), tileSpan_eq h.ax hk]
  unfold tcSpan
  rw [ceilInt_eq hs.1 (by simp only; omega), ceilInt_eq hs.1 (by simp only; omega)]

theorem tcy_eq {t c : Nat} (ht : t < P.tiles) (hc : c < P.nc) :
    (P.coding t).tcy c = (cdiv (tileB P.ay (t / numTiles P.ax)) (P.sy c), cdiv (tileB P.ay (t / numTiles P.ax + 1)) (P.sy c)) := by
  rw [h.tiles] at ht
  have hn : 0 < numTiles P.ax := Nat.pos_of_ne_zero fun e => by rw [e, Nat.zero_mul] at ht; omega
  have hk : t / numTiles P.ax < numTiles P.ay := Nat.div_lt_of_lt_mul ht
  have hcnt : numTiles P.ay ≤ 65536 := by rw [numTiles_eq h.ay]; exact h.ay.count
  have hs := (h.sub c hc).2
  have := h.sizy; have := h.ay.img
  have b : ∀ i, tileB P.ay i ≤ P.ay.siz := by intro i; unfold tileB; omega
  have b1 := b (t / numTiles P.ax); have b2 := b (t / numTiles P.ax + 1)
  show tcSpan (tileSpan P.ay (tileY P.ax t)) (P.sy c) = _
  unfold tileY
  rw [Nat.mod_eq_of_lt (a := t / numTiles P.ax) (by omega), tileSpan_eq h.ay hk]
  unfold tcSpan
  rw [ceilInt_eq hs.1 (by simp only; omega), ceilInt_eq hs.1 (by simp only; omega)]

/-- A tile-component lies within its component. -/
theorem tcx_in {t c : Nat} (ht : t < P.tiles) (hc : c < P.nc) :
    cdiv P.ax.osiz (P.sx c) ≤ ((P.coding t).tcx c).1 ∧ ((P.coding t).tcx c).2 ≤ cdiv P.ax.siz (P.sx c) := by
  rw [tcx_eq h ht hc]
  have := h.ax.img
  exact ⟨cdiv_mono (by unfold tileB; omega), cdiv_mono (by unfold tileB; omega)⟩

theorem tcy_in {t c : Nat} (ht : t < P.tiles) (hc : c < P.nc) :
    cdiv P.ay.osiz (P.sy c) ≤ ((P.coding t).tcy c).1 ∧ ((P.coding t).tcy c).2 ≤ cdiv P.ay.siz (P.sy c) := by
  rw [tcy_eq h ht hc]
  have := h.ay.img
  exact ⟨cdiv_mono (by unfold tileB; omega), cdiv_mono (by unfold tileB; omega)⟩

end

theorem cdiv_one (a : Nat) : cdiv a 1 = a := by unfold cdiv; omega

theorem cdiv_small {a b : Nat} (hb : 1 ≤ b) (ha : a ≤ 1) : cdiv a b = a := by
  unfold cdiv
  interval_cases a
  · rw [Nat.zero_add]; exact Nat.div_eq_of_lt (by omega)
  · rw [show 1 + b - 1 = b by omega]; exact Nat.div_self (by omega)

theorem cdiv_dvd {a b : Nat} (hb : 1 ≤ b) (h : b ∣ a) : cdiv a b = a / b := by
  obtain ⟨k, rfl⟩ := h
  unfold cdiv
  rw [Nat.mul_div_cancel_left _ (by omega), show b * k + b - 1 = (b - 1) + b * k by omega, Nat.add_mul_div_left _ _ (by omega),
    Nat.div_eq_of_lt (by omega), Nat.zero_add]

/-- Where the sample in row `y` and column `x` of a tile-component is in the buffer of its component. -/
def Picture.at (P : Picture) (t c y x : Nat) : Nat :=
  (((P.coding t).tcy c).1 + y - cdiv P.ay.osiz (P.sy c)) * P.width c + (((P.coding t).tcx c).1 + x - cdiv P.ax.osiz (P.sx c))

section
variable {P : Picture} (h : P.Legal)
include h

theorem at_lt {t c y x : Nat} (ht : t < P.tiles) (hc : c < P.nc) (hy : y < size ((P.coding t).tcy c))
    (hx : x < size ((P.coding t).tcx c)) : P.at t c y x < P.width c * P.height c := by
  have h1 := tcx_in h ht hc
  have h2 := tcy_in h ht hc
  unfold size at hx hy
  unfold Picture.at
  have e1 : ((P.coding t).tcy c).1 + y - cdiv P.ay.osiz (P.sy c) + 1 ≤ P.height c := by unfold Picture.height; omega
  have e2 : ((P.coding t).tcx c).1 + x - cdiv P.ax.osiz (P.sx c) < P.width c := by unfold Picture.width; omega
  have := Nat.mul_le_mul_left (P.width c) e1
  rw [Nat.mul_add, Nat.mul_one] at this
  rw [Nat.mul_comm _ (P.width c)]
  omega

theorem srcStride_eq {c : Nat} (hc : c < P.nc) : P.srcStride c = P.width c ∧ cdiv P.ax.osiz (P.sx c) = P.ax.osiz := by
  have hs := (h.sub c hc).1
  have := h.ax.img
  unfold Picture.srcStride Picture.width
  rcases h.straightx c hc with e | ⟨e1, e2⟩
  · rw [e, cdiv_one, cdiv_one, Nat.div_one, usub_eq (by omega)]; exact ⟨rfl, rfl⟩
  · rw [cdiv_small hs.1 e1, cdiv_dvd hs.1 e2]
    refine ⟨usub_eq ?_, rfl⟩
    have : 1 ≤ P.ax.siz / P.sx c := (Nat.le_div_iff_mul_le (by omega)).2 (by
      rw [Nat.one_mul]; exact Nat.le_of_dvd (by omega) e2)
    omega

/-- The encoder takes every sample from its place. -/
theorem srcIndex_eq {t c y x : Nat} (ht : t < P.tiles) (hc : c < P.nc) (hy : y < size ((P.coding t).tcy c))
    (hx : x < size ((P.coding t).tcx c)) : P.srcIndex t c y x = (P.at t c y x : Nat) := by
  have hlt := at_lt h ht hc hy hx
  have har := h.area c hc
  obtain ⟨es, ex⟩ := srcStride_eq h hc
  have ey : cdiv P.ay.osiz (P.sy c) = P.ay.osiz := by
    rcases h.straighty c hc with e | e
    · rw [e, cdiv_one]
    · exact cdiv_small (h.sub c hc).2.1 e
  have h1 := tcx_in h ht hc
  have h2 := tcy_in h ht hc
  unfold Picture.at at hlt ⊢
  unfold Picture.srcIndex Picture.srcBase
  rw [es]
  rw [ex] at h1 hlt ⊢
  rw [ey] at h2 hlt ⊢
  generalize ((P.coding t).tcy c).1 = b at *
  generalize ((P.coding t).tcx c).1 = a at *
  generalize P.width c = w at *
  rw [show b + y - P.ay.osiz = (b - P.ay.osiz) + y by omega, Nat.add_mul] at hlt ⊢
  rw [usub_eq h2.1, w32_eq (n := (b - P.ay.osiz) * w) (by omega)]
  generalize (b - P.ay.osiz) * w = m at *
  rw [w32_eq (n := y * w) (by omega), ite_self]
  generalize y * w = k at *
  push_cast
  omega

theorem outWidth_eq {c : Nat} (hc : c < P.nc) : P.outWidth c = P.width c ∧ P.x0 c = cdiv P.ax.osiz (P.sx c) := by
  have hs := (h.sub c hc).1
  have h1 := h.ax.img
  have h2 := h.sizx
  have hm : cdiv P.ax.osiz (P.sx c) ≤ cdiv P.ax.siz (P.sx c) := cdiv_mono (by omega)
  have hle : cdiv P.ax.siz (P.sx c) ≤ 2 ^ 31 + 255 := by
    unfold cdiv; exact (Nat.div_le_self _ _).trans (by omega)
  unfold Picture.outWidth Picture.width Picture.x0
  rw [ceilInt_eq hs.1 (by omega), ceilInt_eq hs.1 (by omega), usub_eq hm, ceilInt_eq (by omega) (by omega), cdiv_one]
  exact ⟨rfl, rfl⟩

theorem outHeight_eq {c : Nat} (hc : c < P.nc) : P.outHeight c = P.height c ∧ P.y0 c = cdiv P.ay.osiz (P.sy c) := by
  have hs := (h.sub c hc).2
  have h1 := h.ay.img
  have h2 := h.sizy
  have hm : cdiv P.ay.osiz (P.sy c) ≤ cdiv P.ay.siz (P.sy c) := cdiv_mono (by omega)
  have hle : cdiv P.ay.siz (P.sy c) ≤ 2 ^ 31 + 255 := by
    unfold cdiv; exact (Nat.div_le_self _ _).trans (by omega)
  unfold Picture.outHeight Picture.height Picture.y0
  rw [ceilInt_eq hs.1 (by omega), ceilInt_eq hs.1 (by omega), usub_eq hm, ceilInt_eq (by omega) (by omega), cdiv_one]
  exact ⟨rfl, rfl⟩

theorem outSize_eq {c : Nat} (hc : c < P.nc) : P.outSize c = P.width c * P.height c := by
  unfold Picture.outSize
  rw [(outWidth_eq h hc).1, (outHeight_eq h hc).1, w32_eq (h.area c hc)]

/-- The decoder puts every sample in its place. -/
theorem dstIndex_eq {t c y x : Nat} (ht : t < P.tiles) (hc : c < P.nc) (hy : y < size ((P.coding t).tcy c))
    (hx : x < size ((P.coding t).tcx c)) : P.dstIndex t c y x = P.at t c y x := by
  have hlt := at_lt h ht hc hy hx
  have har := h.area c hc
  have h1 := tcx_in h ht hc
  have h2 := tcy_in h ht hc
  have h3 : ((P.coding t).tcy c).2 ≤ 2 ^ 31 + 255 := by
    refine h2.2.trans ?_
    have := h.sizy; have := (h.sub c hc).2
    unfold cdiv; exact (Nat.div_le_self _ _).trans (by omega)
  unfold size at hx hy
  unfold Picture.at at hlt ⊢
  unfold Picture.dstIndex
  rw [(outWidth_eq h hc).1, (outWidth_eq h hc).2, (outHeight_eq h hc).2]
  generalize ((P.coding t).tcy c).1 = b at *
  generalize ((P.coding t).tcx c).1 = a at *
  generalize cdiv P.ax.osiz (P.sx c) = p at *
  generalize cdiv P.ay.osiz (P.sy c) = q at *
  generalize P.width c = w at *
  rw [usub_eq h1.1, usub_eq h2.1, w32_eq (n := y + (b - q)) (by omega), show y + (b - q) = b + y - q by omega,
    w32_eq (n := (b + y - q) * w) (by omega)]
  omega

end

end Verif.Tile.Pipe
