import Verif.Jpip.ViewLemmas2
import Verif.Jpip.PropsIndex
import Verif.Dwt.Image

/-!
# View windows (C13, C14)
-/

namespace Verif.Jpip

/-! ## C13 -/

/-- The largest number of decomposition levels the index reports is the largest of its components. -/
theorem C13_max_levels (h : MainHdr) (lg : Legal h) (hc : h.comps ≠ []) (i : Index) (e : buildIndex h = some i) :
    (∀ cp ∈ h.comps, cp.NL ≤ i.maxNL) ∧ ∃ cp ∈ h.comps, cp.NL = i.maxNL := by
  obtain ⟨i', e', h1, h2, h3, h4, h5⟩ := buildIndex_ok lg
  rw [e, Option.some.injEq] at e'
  subst e'
  have nx : 0 < i.ntx := by rw [h2, lt_cdiv (by have := lg.x3; have := lg.x1; omega)]; have := lg.x1; have := lg.x2; omega
  have ny : 0 < i.nty := by rw [h3, lt_cdiv (by have := lg.y3; have := lg.y1; omega)]; have := lg.y1; have := lg.y2; omega
  have n0 : 0 < i.ntx * i.nty := Nat.mul_pos nx ny
  have low : ∀ cp ∈ h.comps, cp.NL ≤ i.maxNL := by
    intro cp hcp
    obtain ⟨c, hcl, hc'⟩ := List.getElem_of_mem hcp
    obtain ⟨row, r1, r2, r3⟩ := h5 0 n0
    obtain ⟨info, r4, r5, -⟩ := r3 c cp (by rw [List.getElem?_eq_getElem hcl, hc'])
    have a : cp.NL ≤ (row.map TcInfo.NL).foldl max 0 :=
      le_foldl_max _ _ _ (Or.inl (List.mem_map.2 ⟨info, List.mem_of_getElem? r4, r5⟩))
    have b : (row.map TcInfo.NL).foldl max 0 ≤ i.maxNL :=
      le_foldl_max _ 0 _ (Or.inl (List.mem_map.2 ⟨row, List.mem_of_getElem? r1, rfl⟩))
    omega
  refine ⟨low, ?_⟩
  -- the maximum is 0 or attained
  have att : i.maxNL = 0 ∨ ∃ cp ∈ h.comps, cp.NL = i.maxNL := by
    unfold Index.maxNL
    rcases foldl_max_mem (i.tcs.map fun l => (l.map TcInfo.NL).foldl max 0) 0 with hm | hm
    · exact Or.inl hm
    · obtain ⟨row, m1, m2⟩ := List.mem_map.1 hm
      rcases foldl_max_mem (row.map TcInfo.NL) 0 with hm' | hm'
      · left; rw [← m2, hm']
      · right
        rw [m2] at hm'
        obtain ⟨info, m3, m4⟩ := List.mem_map.1 hm'
        obtain ⟨t, tl, te⟩ := List.getElem_of_mem m1
        obtain ⟨c, cl, ce⟩ := List.getElem_of_mem m3
        obtain ⟨row', r1, r2, r3⟩ := h5 t (by omega)
        rw [List.getElem?_eq_getElem tl, te, Option.some.injEq] at r1
        subst r1
        obtain ⟨info', r4, r5, -⟩ := r3 c h.comps[c] (List.getElem?_eq_getElem (by omega))
        rw [List.getElem?_eq_getElem cl, ce, Option.some.injEq] at r4
        subst r4
        exact ⟨_, List.getElem_mem _, by rw [← r5, m4]⟩
  rcases att with h0 | h0
  · obtain ⟨cp, hcp⟩ := List.exists_mem_of_ne_nil _ hc
    exact ⟨cp, hcp, by have := low cp hcp; omega⟩
  · exact h0

theorem maxNL_le (h : MainHdr) (lg : Legal h) (hc : h.comps ≠ []) (i : Index) (e : buildIndex h = some i) :
    i.maxNL ≤ 31 := by
  obtain ⟨cp, hcp, h1⟩ := (C13_max_levels h lg hc i e).2
  have := (lg.comps cp hcp).2.2.2.2.1
  omega

/-- The frame size a request asks for: a missing side means the canvas size. -/
def reqFrame (h : MainHdr) (vw : ViewWindow) : Nat × Nat :=
  (if vw.fx ≠ 0 then vw.fx else h.xsiz, if vw.fy ≠ 0 then vw.fy else h.ysiz)

/-- Both sides at most / at least those of the request. -/
def within (a b : Nat × Nat) : Prop := a.1 ≤ b.1 ∧ a.2 ≤ b.2

/-- Discarding more levels never enlarges the frame, so the smallest admissible discard level is the largest
admissible frame. -/
theorem C13_frames_shrink (h : MainHdr) (r r' : Nat) (hr : r ≤ r') : within (frame h r') (frame h r) :=
  ⟨cdiv_sub_anti hr, cdiv_sub_anti hr⟩

/-- C13, round down: the chosen level is the first whose frame fits the request; when none fits it is the
last one. -/
theorem C13_round_down (h : MainHdr) (lg : Legal h) (hc : h.comps ≠ []) (i : Index) (e : buildIndex h = some i)
    (vw : ViewWindow) (hv : vw.round = .down) :
    ∃ r, pickDiscard i vw = some r ∧ r ≤ i.maxNL ∧
      ((within (frame h r) (reqFrame h vw) ∧ ∀ r' ≤ i.maxNL, within (frame h r') (reqFrame h vw) → r ≤ r') ∨
       (r = i.maxNL ∧ ∀ r' ≤ i.maxNL, ¬within (frame h r') (reqFrame h vw))) := by
  have hm := maxNL_le h lg hc i e
  have hh : i.hdr = h := (buildIndex_spec e).1
  have hf : ∀ r ≤ i.maxNL, i.fsizAt r = some (frame h r) := fun r hr => by
    rw [fsizAt_eq (hh ▸ lg) (by omega), hh]
  obtain ⟨q, h1, h2⟩ := downLoop_spec (rx := (reqFrame h vw).1) (ry := (reqFrame h vw).2) hf (i.maxNL + 1) 0 rfl
  refine ⟨q, ?_, ?_, ?_⟩
  · unfold pickDiscard; rw [hv, hh]; exact h1
  · rcases h2 with ⟨-, a, -⟩ | ⟨a, -⟩ <;> omega
  · rcases h2 with ⟨a, b, c, d⟩ | ⟨a, b⟩
    · refine Or.inl ⟨c, fun r' e1 e2 => ?_⟩
      by_contra hlt
      exact d r' (by omega) (by omega) e2
    · exact Or.inr ⟨a, fun r' hr => b r' (by omega) hr⟩

/-- C13, round up: the chosen level is the last whose frame contains the request; when none does it is level 0. -/
theorem C13_round_up (h : MainHdr) (lg : Legal h) (hc : h.comps ≠ []) (i : Index) (e : buildIndex h = some i)
    (vw : ViewWindow) (hv : vw.round = .up) :
    ∃ r, pickDiscard i vw = some r ∧ r ≤ i.maxNL ∧
      ((within (reqFrame h vw) (frame h r) ∧ ∀ r' ≤ i.maxNL, within (reqFrame h vw) (frame h r') → r' ≤ r) ∨
       (r = 0 ∧ ∀ r' ≤ i.maxNL, ¬within (reqFrame h vw) (frame h r'))) := by
  have hm := maxNL_le h lg hc i e
  have hh : i.hdr = h := (buildIndex_spec e).1
  have hf : ∀ r < i.maxNL + 1, i.fsizAt r = some (frame h r) := fun r hr => by
    rw [fsizAt_eq (hh ▸ lg) (by omega), hh]
  obtain ⟨q, h1, h2⟩ := upLoop_spec (rx := (reqFrame h vw).1) (ry := (reqFrame h vw).2) (i.maxNL + 1) hf
  refine ⟨q, ?_, ?_, ?_⟩
  · unfold pickDiscard; rw [hv, hh]; exact h1
  · rcases h2 with ⟨a, -⟩ | ⟨a, -⟩ <;> omega
  · rcases h2 with ⟨a, b, c⟩ | ⟨a, b⟩
    · exact Or.inl ⟨b, fun r' e1 e2 => c r' (by omega) e2⟩
    · exact Or.inr ⟨a, fun r' hr => b r' (by omega)⟩

/-- C13, closest: the chosen level minimises the difference between the frame area and the requested area, and is
the smallest such level. -/
theorem C13_round_closest (h : MainHdr) (lg : Legal h) (hc : h.comps ≠ []) (i : Index) (e : buildIndex h = some i)
    (vw : ViewWindow) (hv : vw.round = .closest) (hx : vw.fx < 2 ^ 32) (hy : vw.fy < 2 ^ 32) :
    ∃ r, pickDiscard i vw = some r ∧ r ≤ i.maxNL ∧
      ∀ r' ≤ i.maxNL,
        let cost := fun q => |((frame h q).1 * (frame h q).2 : Int) - (reqFrame h vw).1 * (reqFrame h vw).2|
        cost r ≤ cost r' ∧ (cost r = cost r' → r ≤ r') := by
  have hm := maxNL_le h lg hc i e
  have hh : i.hdr = h := (buildIndex_spec e).1
  have hf : ∀ r ≤ i.maxNL, i.fsizAt r = some (frame h r) := fun r hr => by
    rw [fsizAt_eq (hh ▸ lg) (by omega), hh]
  have hcost : ∀ a b : Nat, (absDiff a b : Int) = |(a : Int) - b| := by
    intro a b
    unfold absDiff
    split_ifs with hlt
    · rw [abs_of_nonneg (by omega)]; omega
    · rw [abs_of_nonpos (by omega)]; omega
  generalize hT : (reqFrame h vw).1 * (reqFrame h vw).2 = T
  have r1 : (reqFrame h vw).1 ≤ 2 ^ 32 - 1 := by simp only [reqFrame]; have := lg.x4; split_ifs <;> omega
  have r2 : (reqFrame h vw).2 ≤ 2 ^ 32 - 1 := by simp only [reqFrame]; have := lg.y4; split_ifs <;> omega
  have Tle : T ≤ (2 ^ 32 - 1) * (2 ^ 32 - 1) := by rw [← hT]; exact Nat.mul_le_mul r1 r2
  have f1 : (frame h 0).1 ≤ 2 ^ 32 - 1 := by
    have := lg.x4
    have := cdiv_le_self (a := h.xsiz) (show 0 < 2 ^ 0 by decide)
    simp only [frame]; omega
  have f2 : (frame h 0).2 ≤ 2 ^ 32 - 1 := by
    have := lg.y4
    have := cdiv_le_self (a := h.ysiz) (show 0 < 2 ^ 0 by decide)
    simp only [frame]; omega
  have fle : (frame h 0).1 * (frame h 0).2 ≤ (2 ^ 32 - 1) * (2 ^ 32 - 1) := Nat.mul_le_mul f1 f2
  have hlt : absDiff ((frame h 0).1 * (frame h 0).2) T < 2 ^ 64 - 1 := by
    unfold absDiff
    split_ifs <;> omega
  obtain ⟨q, h1, h2, h3⟩ := closestLoop_spec (T := T) (f := i.fsizAt) (g := frame h) i.maxNL 1
    (absDiff ((frame h 0).1 * (frame h 0).2) T) 0 (fun r' hr => hf r' (by omega)) (by omega) rfl
    (fun r' hr => by
      have : r' = 0 := by omega
      subst this; exact ⟨Nat.le_refl _, fun _ => Nat.le_refl _⟩)
  refine ⟨q, ?_, by omega, fun r' hr => ?_⟩
  · unfold pickDiscard; rw [hv, hh]
    have e0 : closestLoop i.fsizAt T (i.maxNL + 1) 0 (2 ^ 64 - 1) 0 = some q := by
      rw [closestLoop, hf 0 (by omega)]
      simp only [Option.bind_eq_bind, Option.bind_some]
      rw [if_pos hlt]
      exact h1
    rw [← hT] at e0
    exact e0
  · obtain ⟨a, b⟩ := h3 r' (by omega)
    have c1 := hcost ((frame h q).1 * (frame h q).2) T
    have c2 := hcost ((frame h r').1 * (frame h r').2) T
    rw [← hT] at c1 c2 a b
    push_cast at c1 c2
    simp only []
    rw [← c1, ← c2]
    exact ⟨by exact_mod_cast a, fun hh => b (by exact_mod_cast hh)⟩

/-- A 4000 × 3000 image with five levels and an offset origin. -/
def hdrView : MainHdr := ⟨4100, 3050, 100, 50, 1024, 1024, 0, 0, [plainComp 5 8, plainComp 3 8, plainComp 3 8], 1, 2, false, false, false⟩

theorem hdrView_legal : Legal hdrView := by
  refine ⟨by decide, by decide, by decide, by decide, by decide, by decide, by decide, by decide, by decide, by decide, ?_⟩
  intro cp hcp
  simp only [hdrView, List.mem_cons, List.not_mem_nil, or_false, or_self] at hcp
  rcases hcp with rfl | rfl | rfl <;> simp [plainComp]

example : (List.range 6).map (frame hdrView) =
    [(4000, 3000), (2000, 1500), (1000, 750), (500, 375), (250, 187), (125, 94)] := by decide +kernel

example : ((buildIndex hdrView).map fun i => [Round.down, .up, .closest].map fun r =>
    pickDiscard i { fx := 900, fy := 700, round := r }) = some [some 3, some 2, some 2] := by decide +kernel

/-- Beyond 2^31 the arithmetic wraps: an image of 2^32 - 1 columns in a single tile has no tile column, and half its
frame is empty. -/
theorem C13_huge_canvas_wraps :
    (buildIndex ⟨2 ^ 32 - 1, 1, 0, 0, 2 ^ 32 - 1, 1, 0, 0, [plainComp 1 15], 1, 0, false, false, false⟩).map
      (fun i => (i.ntx, i.fsizAt 1)) = some (0, some (0, 1)) := by decide +kernel

/-! ## C14 -/

/-- Lexicographic order on (tile, component, resolution, precinct). -/
def keyLt (a b : Key) : Prop :=
  a.t < b.t ∨ a.t = b.t ∧ (a.c < b.c ∨ a.c = b.c ∧ (a.r < b.r ∨ a.r = b.r ∧ a.p < b.p))

/-- The canvas coordinate `X` lies in the requested interval: offset `o` and size `s` on a frame `r` levels down from
a canvas with origin `org`; a request without sizes has no upper end. -/
def requested (whole : Bool) (o s r org X : Nat) : Prop :=
  o * 2 ^ r + org ≤ X ∧ (whole = true ∨ X < (o + s) * 2 ^ r + org)

/-- The component is requested: a request without a list means all. -/
def wanted (vw : ViewWindow) (c : Nat) : Prop := vw.comps = [] ∨ c ∈ vw.comps

/-- C14: for every legal image and every request whose region does not exceed 32-bit canvas coordinates, the resolver
is defined and returns
 * only precincts of the image;
 * no precinct twice, unless a component is requested twice; in (tile, component, resolution, precinct) order when the
   components are;
 * for every sample `(x, y)` of a requested component whose canvas position is in the region and in tile
   `(tx, ty)`, every resolution `r` kept after discarding `rstar` levels and every position `(u, v)` of that resolution
   within reach of the sample, the precinct that holds `(u, v)`.
Partial because `reach` is 0 at full resolution, where the synthesis filters reach further: the full claim, with the
reach of the filter there, is false (`C14_boundary_precinct_missing`). -/
theorem C14_resolves_region_partial (h : MainHdr) (lg : Legal h) (i : Index) (e : buildIndex h = some i) (lim : Limits i)
    (vw : ViewWindow) (rstar : Nat) (hp : pickDiscard i vw = some rstar)
    (hx : (vw.ox + vw.sx) * 2 ^ rstar + h.xosiz < 2 ^ 32) (hy : (vw.oy + vw.sy) * 2 ^ rstar + h.yosiz < 2 ^ 32) :
    ∃ keys, resolveView i vw = some keys ∧
      (∀ k ∈ keys, IsPrecinct i k) ∧
      (vw.comps.Nodup → keys.Nodup) ∧
      (vw.comps.Pairwise (· < ·) → keys.Pairwise keyLt) ∧
      ∀ tx ty c cp r x y u v, tx < i.ntx → ty < i.nty → wanted vw c → h.comps[c]? = some cp →
        (r = 0 ∨ r + rstar ≤ cp.NL) → r ≤ cp.NL →
        requested (vw.sx = 0 ∧ vw.sy = 0) vw.ox vw.sx rstar h.xosiz (x * cp.subX) →
        requested (vw.sx = 0 ∧ vw.sy = 0) vw.oy vw.sy rstar h.yosiz (y * cp.subY) →
        inSpan (tileX h tx) (x * cp.subX) → inSpan (tileY h ty) (y * cp.subY) →
        Near h.irreversible (cp.NL - r) x u → Near h.irreversible (cp.NL - r) y v →
        inSpan (resSpan (tileX h tx) cp.subX (cp.NL - r)) u → inSpan (resSpan (tileY h ty) cp.subY (cp.NL - r)) v →
        precKey h i.ntx cp tx ty c r u v ∈ keys := by
  have im := img_of lg e lim
  obtain ⟨x1, x2, x3, x4, x5, y1, y2, y3, y4, y5, hc⟩ := lg
  have hcc : i.nC = h.comps.length := by rw [Index.nC, im.eh]
  unfold resolveView
  by_cases h0 : i.nC = 0 ∨ i.nT = 0
  · rw [if_pos h0]
    refine ⟨[], rfl, by simp, fun _ => List.nodup_nil, fun _ => List.Pairwise.nil, ?_⟩
    intro tx ty c cp r x y u v htx hty _ hcp
    have hn : i.nT = i.ntx * i.nty := nT_eq lim
    have := tile_lt htx hty
    rcases h0 with h0 | h0
    · rw [hcc] at h0
      rw [List.getElem?_eq_none (by omega)] at hcp
      simp at hcp
    · omega
  rw [if_neg h0]
  have hne : h.comps ≠ [] := fun hz => h0 (Or.inl (by rw [hcc, hz]; rfl))
  have hr31 : rstar ≤ 31 := by
    have := maxNL_le h im.lg hne i e
    have := pickDiscard_le hp
    omega
  have p0 : 0 < 2 ^ rstar := Nat.two_pow_pos _
  have ax : vw.ox * 2 ^ rstar ≤ (vw.ox + vw.sx) * 2 ^ rstar := Nat.mul_le_mul_right _ (by omega)
  have ay : vw.oy * 2 ^ rstar ≤ (vw.oy + vw.sy) * 2 ^ rstar := Nat.mul_le_mul_right _ (by omega)
  have bx : vw.ox + vw.sx ≤ (vw.ox + vw.sx) * 2 ^ rstar := Nat.le_mul_of_pos_right _ p0
  have b_y : vw.oy + vw.sy ≤ (vw.oy + vw.sy) * 2 ^ rstar := Nat.le_mul_of_pos_right _ p0
  have regX : regionAxis vw.ox vw.sx (2 ^ rstar) h.xosiz h.xsiz (decide (vw.sx = 0 ∧ vw.sy = 0)) =
      (min (vw.ox * 2 ^ rstar + h.xosiz) h.xsiz, min (if decide (vw.sx = 0 ∧ vw.sy = 0) then h.xsiz
        else (vw.ox + vw.sx) * 2 ^ rstar + h.xosiz) h.xsiz) := by
    unfold regionAxis mul32 add32
    rw [Nat.mod_eq_of_lt (show vw.ox + vw.sx < 2 ^ 32 by omega), Nat.mod_eq_of_lt (show vw.ox * 2 ^ rstar < 2 ^ 32 by omega),
      Nat.mod_eq_of_lt (show (vw.ox + vw.sx) * 2 ^ rstar < 2 ^ 32 by omega),
      Nat.mod_eq_of_lt (show vw.ox * 2 ^ rstar + h.xosiz < 2 ^ 32 by omega), Nat.mod_eq_of_lt hx]
  have regY : regionAxis vw.oy vw.sy (2 ^ rstar) h.yosiz h.ysiz (decide (vw.sx = 0 ∧ vw.sy = 0)) =
      (min (vw.oy * 2 ^ rstar + h.yosiz) h.ysiz, min (if decide (vw.sx = 0 ∧ vw.sy = 0) then h.ysiz
        else (vw.oy + vw.sy) * 2 ^ rstar + h.yosiz) h.ysiz) := by
    unfold regionAxis mul32 add32
    rw [Nat.mod_eq_of_lt (show vw.oy + vw.sy < 2 ^ 32 by omega), Nat.mod_eq_of_lt (show vw.oy * 2 ^ rstar < 2 ^ 32 by omega),
      Nat.mod_eq_of_lt (show (vw.oy + vw.sy) * 2 ^ rstar < 2 ^ 32 by omega),
      Nat.mod_eq_of_lt (show vw.oy * 2 ^ rstar + h.yosiz < 2 ^ 32 by omega), Nat.mod_eq_of_lt hy]
  simp only [hp, shl1_eq (show rstar < 32 by omega), Option.bind_eq_bind, Option.bind_some, im.eh]
  generalize regionAxis vw.ox vw.sx (2 ^ rstar) h.xosiz h.xsiz (decide (vw.sx = 0 ∧ vw.sy = 0)) = RX at regX ⊢
  generalize regionAxis vw.oy vw.sy (2 ^ rstar) h.yosiz h.ysiz (decide (vw.sx = 0 ∧ vw.sy = 0)) = RY at regY ⊢
  have inX : ∀ X k, requested (vw.sx = 0 ∧ vw.sy = 0) vw.ox vw.sx rstar h.xosiz X → inSpan (tileX h k) X → inSpan RX X := by
    intro X k q1 q2
    rw [regX]
    simp only [requested, inSpan, tileX, spanSpec] at q1 q2 ⊢
    by_cases hw : decide (vw.sx = 0 ∧ vw.sy = 0) = true
    · rw [if_pos hw]; omega
    · rw [if_neg hw]
      have : X < (vw.ox + vw.sx) * 2 ^ rstar + h.xosiz := q1.2.resolve_left hw
      omega
  have inY : ∀ X k, requested (vw.sx = 0 ∧ vw.sy = 0) vw.oy vw.sy rstar h.yosiz X → inSpan (tileY h k) X → inSpan RY X := by
    intro X k q1 q2
    rw [regY]
    simp only [requested, inSpan, tileY, spanSpec] at q1 q2 ⊢
    by_cases hw : decide (vw.sx = 0 ∧ vw.sy = 0) = true
    · rw [if_pos hw]; omega
    · rw [if_neg hw]
      have : X < (vw.oy + vw.sy) * 2 ^ rstar + h.yosiz := q1.2.resolve_left hw
      omega
  have RX1 : h.xosiz ≤ RX.1 ∧ RX.2 ≤ h.xsiz := by rw [regX]; simp only []; omega
  have RY1 : h.yosiz ≤ RY.1 ∧ RY.2 ≤ h.ysiz := by rw [regY]; simp only []; omega
  by_cases hemp : RX.2 ≤ RX.1 ∨ RY.2 ≤ RY.1
  · rw [if_pos hemp]
    refine ⟨[], rfl, by simp, fun _ => List.nodup_nil, fun _ => List.Pairwise.nil, ?_⟩
    intro tx ty c cp r x y u v htx hty _ hcp _ _ q1 q2 q3 q4
    have := inX _ _ q1 q3
    have := inY _ _ q2 q4
    simp only [inSpan] at *
    omega
  rw [if_neg hemp, tileAxis_eq (show 0 < h.xtsiz by omega) (show h.xtosiz ≤ RX.2 by omega) (by omega) x5,
    tileAxis_eq (show 0 < h.ytsiz by omega) (show h.ytosiz ≤ RY.2 by omega) (by omega) y5]
  simp only [Option.bind_some]
  generalize hcomps : (if vw.comps = [] then List.range i.nC else vw.comps) = comps
  have htile : ∀ ty tx, ty ∈ between ((RY.1 - h.ytosiz) / h.ytsiz) (min i.nty (cdiv (RY.2 - h.ytosiz) h.ytsiz)) →
      tx ∈ between ((RX.1 - h.xtosiz) / h.xtsiz) (min i.ntx (cdiv (RX.2 - h.xtosiz) h.xtsiz)) → _ := fun ty tx m1 m2 =>
    tileKeys_spec (rstar := rstar) (comps := comps) (rx := RX) (ry := RY) im
      (show tx < i.ntx by rw [mem_between] at m2; omega) (show ty < i.nty by rw [mem_between] at m1; omega)
  have hrow : ∀ ty ∈ between ((RY.1 - h.ytosiz) / h.ytsiz) (min i.nty (cdiv (RY.2 - h.ytosiz) h.ytsiz)), ∃ o,
      concatM (between ((RX.1 - h.xtosiz) / h.xtsiz) (min i.ntx (cdiv (RX.2 - h.xtosiz) h.xtsiz)))
        (fun tcol => tileKeys i rstar comps RX RY ty tcol) = some o := fun ty m1 =>
    concatM_total fun tx m2 => by
      obtain ⟨o, eo, -⟩ := htile ty tx m1 m2
      exact ⟨o, eo⟩
  obtain ⟨keys, hk⟩ := concatM_total hrow
  -- the order of the keys
  have order : ∀ S R, KeyRel S R → comps.Pairwise S → keys.Pairwise R := by
    intro S R hR hS
    refine concatM_pairwise hk (between_sorted _ _) ?_ ?_
    · intro ty m1 ys hys
      refine concatM_pairwise hys (between_sorted _ _) ?_ ?_
      · intro tx m2 zs hzs
        obtain ⟨o, eo, -, g, -⟩ := htile ty tx m1 m2
        rw [hzs, Option.some.injEq] at eo
        subst eo
        exact g S R hR hS
      · intro tx m2 tx' m2' hlt ys zs hys hzs a ha b hb
        obtain ⟨o, eo, g, -⟩ := htile ty tx m1 m2
        rw [hys, Option.some.injEq] at eo
        subst eo
        obtain ⟨o', eo', g', -⟩ := htile ty tx' m1 m2'
        rw [hzs, Option.some.injEq] at eo'
        subst eo'
        refine hR.t _ _ ?_
        rw [(g a ha).1, (g' b hb).1]
        omega
    · intro ty m1 ty' m1' hlt ys zs hys hzs a ha b hb
      obtain ⟨tx, m2, ws, w1, w2⟩ := (concatM_mem hys a).1 ha
      obtain ⟨tx', m2', ws', w1', w2'⟩ := (concatM_mem hzs b).1 hb
      obtain ⟨o, eo, g, -⟩ := htile ty tx m1 m2
      rw [w1, Option.some.injEq] at eo
      subst eo
      obtain ⟨o', eo', g', -⟩ := htile ty' tx' m1' m2'
      rw [w1', Option.some.injEq] at eo'
      subst eo'
      refine hR.t _ _ ?_
      rw [(g a w2).1, (g' b w2').1]
      rw [mem_between] at m2
      exact grid_order (show tx < i.ntx by omega) hlt
  refine ⟨keys, hk, fun k hkm => ?_, fun hnd => ?_, fun hst => ?_, ?_⟩
  · obtain ⟨ty, m1, ys, w1, w2⟩ := (concatM_mem hk k).1 hkm
    obtain ⟨tx, m2, zs, w3, w4⟩ := (concatM_mem w1 k).1 w2
    obtain ⟨o, eo, g, -⟩ := htile ty tx m1 m2
    rw [w3, Option.some.injEq] at eo
    subst eo
    exact (g k w4).2.2
  · refine order (· ≠ ·) (· ≠ ·) ⟨fun a b hh hab => ?_, fun a b _ hh hab => hh (by rw [hab]), fun a b _ _ hh hab => ?_,
      fun a b _ _ _ hh hab => ?_⟩ ?_
    · rw [hab] at hh; omega
    · rw [hab] at hh; omega
    · rw [hab] at hh; omega
    · rw [← hcomps]
      by_cases hz : vw.comps = []
      · rw [if_pos hz]; exact List.nodup_range
      · rw [if_neg hz]; exact hnd
  · refine order (· < ·) keyLt ⟨fun a b hh => Or.inl hh, fun a b h1 hh => Or.inr ⟨h1, Or.inl hh⟩,
      fun a b h1 h2 hh => Or.inr ⟨h1, Or.inr ⟨h2, Or.inl hh⟩⟩,
      fun a b h1 h2 h3 hh => Or.inr ⟨h1, Or.inr ⟨h2, Or.inr ⟨h3, hh⟩⟩⟩⟩ ?_
    rw [← hcomps]
    by_cases hz : vw.comps = []
    · rw [if_pos hz]; exact List.pairwise_lt_range
    · rw [if_neg hz]; exact hst
  · intro tx ty c cp r x y u v htx hty hw hcp hr1 hr2 q1 q2 q3 q4 n1 n2 s1 s2
    have jx := inX _ _ q1 q3
    have jy := inY _ _ q2 q4
    have cx := tileAxis_covers (show 0 < h.xtsiz by omega) jx.1 jx.2 q3 x1
    have cy := tileAxis_covers (show 0 < h.ytsiz by omega) jy.1 jy.2 q4 y1
    have m1 : ty ∈ between ((RY.1 - h.ytosiz) / h.ytsiz) (min i.nty (cdiv (RY.2 - h.ytosiz) h.ytsiz)) :=
      mem_between.2 ⟨cy.1, by omega⟩
    have m2 : tx ∈ between ((RX.1 - h.xtosiz) / h.xtsiz) (min i.ntx (cdiv (RX.2 - h.xtosiz) h.xtsiz)) :=
      mem_between.2 ⟨cx.1, by omega⟩
    have hcl : c < h.comps.length := by
      by_contra hge
      rw [List.getElem?_eq_none (by omega)] at hcp
      simp at hcp
    have hmem : c ∈ comps := by
      rw [← hcomps]
      by_cases hz : vw.comps = []
      · rw [if_pos hz, List.mem_range]; omega
      · rw [if_neg hz]; exact hw.resolve_left hz
    obtain ⟨o, eo⟩ := hrow ty m1
    obtain ⟨o', eo', -, -, g⟩ := htile ty tx m1 m2
    exact (concatM_mem hk _).2 ⟨ty, m1, o, eo, (concatM_mem eo _).2 ⟨tx, m2, o', eo',
      g c cp hmem hcp r x y u v hr1 hr2 jx jy q3 q4 n1 n2 s1 s2⟩⟩

/-- A 16 × 16 image with one level and 8 × 8 precincts. -/
def hdrSmall : MainHdr := ⟨16, 16, 0, 0, 16, 16, 0, 0, [plainComp 1 3, plainComp 1 3], 1, 0, false, false, false⟩

theorem hdrSmall_legal : Legal hdrSmall := by
  refine ⟨by decide, by decide, by decide, by decide, by decide, by decide, by decide, by decide, by decide, by decide, ?_⟩
  intro cp hcp
  simp only [hdrSmall, List.mem_cons, List.not_mem_nil, or_false, or_self] at hcp
  subst hcp
  simp [plainComp]

/-- The hypotheses are met by an ordinary request: the right half of the small image. -/
example (i : Index) (e : buildIndex hdrSmall = some i) :
    Limits i ∧ pickDiscard i { ox := 8, sx := 8, sy := 16, comps := [0] } = some 0 ∧
    resolveView i { ox := 8, sx := 8, sy := 16, comps := [0] } = some [⟨0, 0, 0, 0⟩, ⟨0, 0, 1, 1⟩, ⟨0, 0, 1, 3⟩] := by
  have hh : ∀ x, buildIndex hdrSmall = some x →
      (x.ntx * x.nty ≤ 65535 ∧ x.nC ≤ 16384 ∧ x.tcs.all (fun l => l.all fun tc => tc.precincts < 40) = true) ∧
      pickDiscard x { ox := 8, sx := 8, sy := 16, comps := [0] } = some 0 ∧
      resolveView x { ox := 8, sx := 8, sy := 16, comps := [0] } = some [⟨0, 0, 0, 0⟩, ⟨0, 0, 1, 1⟩, ⟨0, 0, 1, 3⟩] := by
    have : ((buildIndex hdrSmall).all fun x => decide (
      (x.ntx * x.nty ≤ 65535 ∧ x.nC ≤ 16384 ∧ x.tcs.all (fun l => l.all fun tc => tc.precincts < 40) = true) ∧
      pickDiscard x { ox := 8, sx := 8, sy := 16, comps := [0] } = some 0 ∧
      resolveView x { ox := 8, sx := 8, sy := 16, comps := [0] } =
        some [⟨0, 0, 0, 0⟩, ⟨0, 0, 1, 1⟩, ⟨0, 0, 1, 3⟩])) = true := by decide +kernel
    intro x hx
    rw [hx] at this
    exact of_decide_eq_true this
  obtain ⟨⟨a, b, c⟩, d⟩ := hh i e
  refine ⟨⟨a, b, fun t k info hi => ?_⟩, d⟩
  unfold Index.tc at hi
  by_cases hc : i.nT ≤ t ∨ i.nC ≤ k
  · rw [if_pos hc] at hi; simp at hi
  rw [if_neg hc, Option.bind_eq_some_iff] at hi
  obtain ⟨row, h1, h2⟩ := hi
  have := of_decide_eq_true (List.all_eq_true.1 (List.all_eq_true.1 c row (List.mem_of_getElem? h1)) info
    (List.mem_of_getElem? h2))
  omega

example : buildIndex hdrSmall ≠ none := by
  have : (buildIndex hdrSmall).isSome = true := by decide +kernel
  intro h
  rw [h] at this
  simp at this

/-- C14 fails at full resolution.  The right half of the small image is requested: columns 8 to 15.  The precincts sent
for the finest level are those of the right half only, yet sample 8 also depends on the high-pass coefficient at
position 7 of its row, which the omitted precinct column 0 holds: synthesising the row with that coefficient zeroed,
which is what a client without the precinct does, changes sample 8. -/
theorem C14_boundary_precinct_missing :
    ((buildIndex hdrSmall).bind fun i => resolveView i { ox := 8, sx := 8, sy := 16, comps := [0] }) =
        some [⟨0, 0, 0, 0⟩, ⟨0, 0, 1, 1⟩, ⟨0, 0, 1, 3⟩] ∧
      precKey hdrSmall 1 (plainComp 1 3) 0 0 0 1 7 0 = ⟨0, 0, 1, 0⟩ ∧
      (Dwt.synthesiseRow Dwt.rev53Inv Dwt.halve 0 [0, 0, 0, 0, 0, 0, 0, 40, 0, 0, 0, 0, 0, 0, 0, 0]).map (·[8]?) =
        some (some (-10)) ∧
      (Dwt.synthesiseRow Dwt.rev53Inv Dwt.halve 0 [0, 0, 0, 0, 0, 0, 0, 0, 0, 0, 0, 0, 0, 0, 0, 0]).map (·[8]?) =
        some (some 0) := by decide +kernel

/-- A component requested twice is returned twice, although the header promises that duplicates never appear. -/
theorem C14_repeated_component_duplicates :
    ((buildIndex hdrSmall).bind fun i => resolveView i { sx := 1, sy := 1, comps := [1, 1] }) =
      some [⟨0, 1, 0, 0⟩, ⟨0, 1, 1, 0⟩, ⟨0, 1, 0, 0⟩, ⟨0, 1, 1, 0⟩] := by decide +kernel

/-- Without the bound on the region, it wraps: a region of 2^31 columns on the half-size frame is empty. -/
theorem C14_wide_region_wraps :
    ((buildIndex hdrSmall).bind fun i => resolveView i { fx := 8, fy := 8, sx := 2 ^ 31, sy := 16, comps := [0] }) =
      some [] := by decide +kernel

end Verif.Jpip
