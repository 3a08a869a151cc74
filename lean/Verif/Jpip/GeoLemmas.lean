import Verif.Jpip.GeoSpec
import Verif.Jpip.IndexLemmas
/-
The index arithmetic agrees with the specification of the geometry.
-/
namespace Verif.Jpip

theorem cdiv_le {a b k : Nat} (hb : 0 < b) : cdiv a b ≤ k ↔ a ≤ k * b := by
  unfold cdiv
  rw [← Nat.lt_succ_iff, Nat.div_lt_iff_lt_mul hb, Nat.succ_mul]
  omega

theorem lt_cdiv {a b k : Nat} (hb : 0 < b) : k < cdiv a b ↔ k * b < a := by
  rw [← Nat.not_le, ← Nat.not_le, cdiv_le hb]

theorem cdiv_mono {a a' b : Nat} (h : a ≤ a') : cdiv a b ≤ cdiv a' b := Nat.div_le_div_right (by omega)

theorem cdiv_le_self {a b : Nat} (hb : 0 < b) : cdiv a b ≤ a := by
  rw [cdiv_le hb]
  exact Nat.le_mul_of_pos_right _ hb

theorem ceilDiv32_eq {a b : Nat} (hb : 0 < b) (h : a + b ≤ 2 ^ 32) : ceilDiv32 a b = some (cdiv a b) := by
  unfold ceilDiv32 cdiv add32
  rw [if_neg (by omega), Nat.mod_eq_of_lt (by omega), show a + (b - 1) = a + b - 1 by omega]

theorem sub32_eq {a b : Nat} (h : b ≤ a) (ha : a < 2 ^ 32) : sub32 a b = a - b := by
  unfold sub32
  rw [show a + (2 ^ 32 - b) = a - b + 2 ^ 32 by omega, Nat.add_mod_right, Nat.mod_eq_of_lt (by omega)]

theorem shl1_eq {n : Nat} (h : n < 32) : shl1 n = some (2 ^ n) := if_pos h

theorem two_pow_le {n m : Nat} (h : n ≤ m) : 2 ^ n ≤ 2 ^ m := Nat.pow_le_pow_right (by omega) h

/-- `levelGeo` computes the number of precincts and the start of the resolution. -/
theorem levelGeo_eq {NL c0 c1 lpp r : Nat} (hNL : NL ≤ 31) (hpp : lpp ≤ 15) (h0 : c0 < 2 ^ 31) (h1 : c1 < 2 ^ 31) :
    levelGeo NL c0 c1 lpp r = some (numPrec (cdiv c0 (2 ^ (NL - r)), cdiv c1 (2 ^ (NL - r))) lpp,
      cdiv c0 (2 ^ (NL - r))) := by
  have hs : 2 ^ (NL - r) ≤ 2 ^ 31 := two_pow_le (by omega)
  have hp : 2 ^ lpp ≤ 2 ^ 15 := two_pow_le hpp
  have ps : 0 < 2 ^ (NL - r) := Nat.two_pow_pos _
  have pp : 0 < 2 ^ lpp := Nat.two_pow_pos _
  have l0 := cdiv_le_self (a := c0) ps
  have l1 := cdiv_le_self (a := c1) ps
  have l2 := cdiv_le_self (a := cdiv c1 (2 ^ (NL - r))) pp
  simp only [levelGeo, shl1_eq (show NL - r < 32 by omega), shl1_eq (show lpp < 32 by omega), Option.bind_eq_bind,
    Option.bind_some, Option.pure_def]
  rw [ceilDiv32_eq ps (by omega), ceilDiv32_eq ps (by omega), Option.bind_some, Option.bind_some,
    ceilDiv32_eq pp (by omega), Option.bind_some]
  simp only [numPrec]
  by_cases hlt : cdiv c0 (2 ^ (NL - r)) < cdiv c1 (2 ^ (NL - r))
  · rw [if_pos hlt, if_pos hlt, sub32_eq _ (by omega)]
    refine Nat.div_le_of_le_mul ?_
    have := (cdiv_le pp (a := cdiv c1 (2 ^ (NL - r)))).1 (Nat.le_refl _)
    rw [Nat.mul_comm]
    omega
  · rw [if_neg hlt, if_neg hlt]

/-- What `build_tile_component` stores for resolution `r`, as the specification has it. -/
def LevelOk (cp : CompHdr) (sx sy : Nat × Nat) (r : Nat) (l : Level) : Prop :=
  l.npw = numPrec (resSpan sx cp.subX (cp.NL - r)) (cp.ppx r) ∧
  l.nph = numPrec (resSpan sy cp.subY (cp.NL - r)) (cp.ppy r) ∧ l.lppx = cp.ppx r ∧ l.lppy = cp.ppy r ∧
  l.rx0 = (resSpan sx cp.subX (cp.NL - r)).1 ∧ l.ry0 = (resSpan sy cp.subY (cp.NL - r)).1

theorem buildLevels_ok {cp : CompHdr} {x0 y0 x1 y1 : Nat} (hNL : cp.NL ≤ 31)
    (hpp : ∀ r, cp.ppx r ≤ 15 ∧ cp.ppy r ≤ 15) (hx0 : x0 < 2 ^ 31) (hy0 : y0 < 2 ^ 31) (hx1 : x1 < 2 ^ 31)
    (hy1 : y1 < 2 ^ 31) : ∀ n r cum, ∃ res, buildLevels cp x0 y0 x1 y1 n r cum = some res ∧
      ∀ (k : Nat) (l : Level), res.1[k]? = some l →
        l.npw = numPrec (cdiv x0 (2 ^ (cp.NL - (r + k))), cdiv x1 (2 ^ (cp.NL - (r + k)))) (cp.ppx (r + k)) ∧
        l.nph = numPrec (cdiv y0 (2 ^ (cp.NL - (r + k))), cdiv y1 (2 ^ (cp.NL - (r + k)))) (cp.ppy (r + k)) ∧
        l.lppx = cp.ppx (r + k) ∧ l.lppy = cp.ppy (r + k) ∧
        l.rx0 = cdiv x0 (2 ^ (cp.NL - (r + k))) ∧ l.ry0 = cdiv y0 (2 ^ (cp.NL - (r + k)))
  | 0, r, cum => ⟨([], cum), rfl, by simp⟩
  | n + 1, r, cum => by
    obtain ⟨rest, h1, h2⟩ := buildLevels_ok hNL hpp hx0 hy0 hx1 hy1 n (r + 1)
      (add32 cum (mul32 (numPrec (cdiv x0 (2 ^ (cp.NL - r)), cdiv x1 (2 ^ (cp.NL - r))) (cp.ppx r))
        (numPrec (cdiv y0 (2 ^ (cp.NL - r)), cdiv y1 (2 ^ (cp.NL - r))) (cp.ppy r))))
    refine ⟨_, by simp only [buildLevels, levelGeo_eq hNL (hpp r).1 hx0 hx1, levelGeo_eq hNL (hpp r).2 hy0 hy1,
      Option.bind_eq_bind, Option.bind_some, h1, Option.pure_def]; rfl, fun k l hl => ?_⟩
    cases k with
    | zero =>
      simp only [List.getElem?_cons_zero, Option.some.injEq] at hl
      subst hl
      exact ⟨rfl, rfl, rfl, rfl, rfl, rfl⟩
    | succ k =>
      simp only [List.getElem?_cons_succ] at hl
      have := h2 k l hl
      rw [show r + 1 + k = r + (k + 1) by omega] at this
      exact this

theorem buildTc_ok {cp : CompHdr} {sx sy : Nat × Nat} (hc : 0 < cp.subX ∧ cp.subX < 256 ∧ 0 < cp.subY ∧ cp.subY < 256 ∧
    cp.NL ≤ 31 ∧ ∀ r, cp.ppx r ≤ 15 ∧ cp.ppy r ≤ 15) (hx1 : sx.1 < 2 ^ 31) (hx2 : sx.2 < 2 ^ 31)
    (hy1 : sy.1 < 2 ^ 31) (hy2 : sy.2 < 2 ^ 31) :
    ∃ info, buildTc cp sx.1 sy.1 sx.2 sy.2 = some info ∧ info.NL = cp.NL ∧ info.levels.length = cp.NL + 1 ∧
      ∀ (r : Nat) (l : Level), info.levels[r]? = some l → LevelOk cp sx sy r l := by
  obtain ⟨c1, c2, c3, c4, c5, c6⟩ := hc
  have l1 := cdiv_le_self (a := sx.1) c1
  have l2 := cdiv_le_self (a := sx.2) c1
  have l3 := cdiv_le_self (a := sy.1) c3
  have l4 := cdiv_le_self (a := sy.2) c3
  obtain ⟨res, h1, h2⟩ := buildLevels_ok c5 c6 (x0 := cdiv sx.1 cp.subX) (y0 := cdiv sy.1 cp.subY)
    (x1 := cdiv sx.2 cp.subX) (y1 := cdiv sy.2 cp.subY) (by omega) (by omega) (by omega) (by omega) (cp.NL + 1) 0 0
  have e : buildTc cp sx.1 sy.1 sx.2 sy.2 = some ⟨cp.NL, res.1, res.2⟩ := by
    simp only [buildTc, ceilDiv32_eq c1 (show sx.1 + cp.subX ≤ 2 ^ 32 by omega),
      ceilDiv32_eq c1 (show sx.2 + cp.subX ≤ 2 ^ 32 by omega), ceilDiv32_eq c3 (show sy.1 + cp.subY ≤ 2 ^ 32 by omega),
      ceilDiv32_eq c3 (show sy.2 + cp.subY ≤ 2 ^ 32 by omega), Option.bind_eq_bind, Option.bind_some, h1,
      Option.pure_def]
  refine ⟨_, e, rfl, (buildTc_spec e).2.1, fun r l hl => ?_⟩
  have := h2 r l hl
  simp only [Nat.zero_add] at this
  exact this

/-- The tile spans of the code do not wrap. -/
theorem tileSpan_eq {org ts o siz k : Nat} (hk : org + k * ts < siz) (hs : siz < 2 ^ 31) (ht : ts ≤ 2 ^ 31) (ho : o < siz)
    (hts : 0 < ts) :
    tileSpan org ts o siz k = spanSpec org ts o siz k ∧ (spanSpec org ts o siz k).1 < 2 ^ 31 ∧
      (spanSpec org ts o siz k).2 < 2 ^ 31 := by
  have hkk : k ≤ k * ts := Nat.le_mul_of_pos_right _ hts
  have e1 : mul32 k ts = k * ts := Nat.mod_eq_of_lt (by omega)
  have e2 : add32 k 1 = k + 1 := Nat.mod_eq_of_lt (by omega)
  have e3 : mul32 (k + 1) ts = (k + 1) * ts := Nat.mod_eq_of_lt (by rw [Nat.succ_mul]; omega)
  have e4 : add32 org (k * ts) = org + k * ts := Nat.mod_eq_of_lt (by omega)
  have e5 : add32 org ((k + 1) * ts) = org + (k + 1) * ts := Nat.mod_eq_of_lt (by rw [Nat.succ_mul]; omega)
  refine ⟨by rw [tileSpan, spanSpec, e1, e2, e3, e4, e5], ?_, ?_⟩ <;> simp only [spanSpec] <;> omega

theorem mapM_total {α β : Type} {f : α → Option β} : ∀ {l : List α}, (∀ a ∈ l, ∃ b, f a = some b) →
    ∃ r, l.mapM f = some r
  | [], _ => ⟨[], by simp⟩
  | a :: l, h => by
    obtain ⟨b, hb⟩ := h a (by simp)
    obtain ⟨r, hr⟩ := mapM_total (l := l) fun x hx => h x (by simp [hx])
    exact ⟨b :: r, by simp [List.mapM_cons, hb, hr]⟩

/-- Number of tile columns (rows) of a legal image. -/
theorem numTiles_eq {org ts siz : Nat} (h1 : org ≤ siz) (h2 : siz < 2 ^ 31) (ht : 0 < ts) (h3 : ts ≤ 2 ^ 31) :
    ceilDiv32 (sub32 siz org) ts = some (cdiv (siz - org) ts) := by
  rw [sub32_eq h1 (by omega), ceilDiv32_eq ht (by omega)]

theorem tile_in {org ts siz k : Nat} (ht : 0 < ts) (hk : k < cdiv (siz - org) ts) : org + k * ts < siz := by
  rw [lt_cdiv ht] at hk
  omega

/-- Every legal header has an index, whose tile-components are those of the specification. -/
theorem buildIndex_ok {h : MainHdr} (lg : Legal h) : ∃ i, buildIndex h = some i ∧ i.hdr = h ∧
    i.ntx = cdiv (h.xsiz - h.xtosiz) h.xtsiz ∧ i.nty = cdiv (h.ysiz - h.ytosiz) h.ytsiz ∧
    i.tcs.length = i.ntx * i.nty ∧
    ∀ (t : Nat), t < i.ntx * i.nty → ∃ row, i.tcs[t]? = some row ∧ row.length = h.comps.length ∧
      ∀ (c : Nat) (cp : CompHdr), h.comps[c]? = some cp → ∃ info, row[c]? = some info ∧ info.NL = cp.NL ∧
        info.levels.length = cp.NL + 1 ∧ ∀ (r : Nat) (l : Level), info.levels[r]? = some l →
          LevelOk cp (tileX h (t % i.ntx)) (tileY h (t / i.ntx)) r l := by
  obtain ⟨x1, x2, x3, x4, x5, y1, y2, y3, y4, y5, hc⟩ := lg
  have key : ∀ t, t < cdiv (h.xsiz - h.xtosiz) h.xtsiz * cdiv (h.ysiz - h.ytosiz) h.ytsiz → ∀ cp ∈ h.comps,
      ∃ info, buildTc cp
        (tileSpan h.xtosiz h.xtsiz h.xosiz h.xsiz (t % cdiv (h.xsiz - h.xtosiz) h.xtsiz)).1
        (tileSpan h.ytosiz h.ytsiz h.yosiz h.ysiz (t / cdiv (h.xsiz - h.xtosiz) h.xtsiz)).1
        (tileSpan h.xtosiz h.xtsiz h.xosiz h.xsiz (t % cdiv (h.xsiz - h.xtosiz) h.xtsiz)).2
        (tileSpan h.ytosiz h.ytsiz h.yosiz h.ysiz (t / cdiv (h.xsiz - h.xtosiz) h.xtsiz)).2 = some info ∧
      info.NL = cp.NL ∧ info.levels.length = cp.NL + 1 ∧ ∀ (r : Nat) (l : Level), info.levels[r]? = some l →
        LevelOk cp (tileX h (t % cdiv (h.xsiz - h.xtosiz) h.xtsiz))
          (tileY h (t / cdiv (h.xsiz - h.xtosiz) h.xtsiz)) r l := by
    intro t ht cp hcp
    have n0 : 0 < cdiv (h.xsiz - h.xtosiz) h.xtsiz := Nat.pos_of_ne_zero fun hz => by simp [hz] at ht
    have hx := tile_in (org := h.xtosiz) (siz := h.xsiz) (show 0 < h.xtsiz by omega) (Nat.mod_lt t n0)
    have hy := tile_in (org := h.ytosiz) (siz := h.ysiz) (show 0 < h.ytsiz by omega)
      (Nat.div_lt_of_lt_mul (show t < cdiv (h.xsiz - h.xtosiz) h.xtsiz * cdiv (h.ysiz - h.ytosiz) h.ytsiz from ht))
    obtain ⟨ex, bx1, bx2⟩ := tileSpan_eq hx x4 x5 x2 (by omega)
    obtain ⟨ey, by1, by2⟩ := tileSpan_eq hy y4 y5 y2 (by omega)
    rw [ex, ey]
    exact buildTc_ok (hc cp hcp) bx1 bx2 by1 by2
  have hrow : ∀ t ∈ List.range (cdiv (h.xsiz - h.xtosiz) h.xtsiz * cdiv (h.ysiz - h.ytosiz) h.ytsiz), ∃ row,
      (h.comps.mapM fun cp => buildTc cp
        (tileSpan h.xtosiz h.xtsiz h.xosiz h.xsiz (t % cdiv (h.xsiz - h.xtosiz) h.xtsiz)).1
        (tileSpan h.ytosiz h.ytsiz h.yosiz h.ysiz (t / cdiv (h.xsiz - h.xtosiz) h.xtsiz)).1
        (tileSpan h.xtosiz h.xtsiz h.xosiz h.xsiz (t % cdiv (h.xsiz - h.xtosiz) h.xtsiz)).2
        (tileSpan h.ytosiz h.ytsiz h.yosiz h.ysiz (t / cdiv (h.xsiz - h.xtosiz) h.xtsiz)).2) = some row := by
    intro t ht
    refine mapM_total fun cp hcp => ?_
    obtain ⟨info, hi, -⟩ := key t (List.mem_range.1 ht) cp hcp
    exact ⟨info, hi⟩
  obtain ⟨tcs, htcs⟩ := mapM_total hrow
  refine ⟨⟨h, cdiv (h.xsiz - h.xtosiz) h.xtsiz, cdiv (h.ysiz - h.ytosiz) h.ytsiz, tcs⟩, ?_, rfl, rfl, rfl, by simpa using mapM_some_length htcs, fun t ht => ?_⟩
  · simp only [buildIndex, numTiles_eq (show h.xtosiz ≤ h.xsiz by omega) x4 (show 0 < h.xtsiz by omega) x5,
      numTiles_eq (show h.ytosiz ≤ h.ysiz by omega) y4 (show 0 < h.ytsiz by omega) y5, Option.bind_eq_bind,
      Option.bind_some, Option.pure_def]
    rw [htcs]
    rfl
  · have hlen := mapM_some_length htcs
    simp only [List.length_range] at hlen
    obtain ⟨row, hr⟩ : ∃ row, tcs[t]? = some row := ⟨tcs[t]'(by simp only [] at ht; omega), List.getElem?_eq_getElem _⟩
    obtain ⟨t', h1, h2⟩ := mapM_some_mem htcs t row hr
    simp only [] at ht
    rw [List.getElem?_range ht, Option.some.injEq] at h1
    subst h1
    refine ⟨row, hr, mapM_some_length h2, fun c cp hcp => ?_⟩
    have hcl : c < row.length := by
      rw [mapM_some_length h2]
      by_contra hge
      rw [List.getElem?_eq_none (by omega)] at hcp
      simp at hcp
    obtain ⟨cp', h3, h4⟩ := mapM_some_mem h2 c row[c] (List.getElem?_eq_getElem hcl)
    rw [hcp, Option.some.injEq] at h3
    subst h3
    obtain ⟨info, k1, k2⟩ := key t ht cp (List.mem_of_getElem? hcp)
    rw [h4, Option.some.injEq] at k1
    subst k1
    exact ⟨_, List.getElem?_eq_getElem hcl, k2⟩

end Verif.Jpip
