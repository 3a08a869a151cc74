import Verif.Jpip.Index
/-
Lemmas about the precinct index.
-/
namespace Verif.Jpip

/-- Number of precincts of the listed resolutions. -/
def countAll (ls : List Level) : Nat := (ls.map fun l => l.npw * l.nph).sum

theorem countAll_cons (l : Level) (ls : List Level) : countAll (l :: ls) = l.npw * l.nph + countAll ls := by
  simp [countAll]

/-- Running offsets: each entry's `sOff` is `cum` plus the precincts before it. -/
def OffOk : Nat → List Level → Prop
  | _, [] => True
  | cum, l :: ls => l.sOff = cum ∧ OffOk (cum + l.npw * l.nph) ls

theorem buildLevels_spec {cp : CompHdr} {x0 y0 x1 y1 : Nat} : ∀ (n r cum : Nat) (res : List Level × Nat),
    buildLevels cp x0 y0 x1 y1 n r cum = some res → res.1.length = n ∧
      (cum + countAll res.1 < 2 ^ 32 → OffOk cum res.1 ∧ res.2 = cum + countAll res.1)
  | 0, r, cum, res, h => by
    simp only [buildLevels, Option.some.injEq] at h
    subst h
    simp [OffOk, countAll]
  | n + 1, r, cum, res, h => by
    simp only [buildLevels, Option.bind_eq_bind, Option.bind_eq_some_iff, Option.pure_def, Option.some.injEq] at h
    obtain ⟨gx, -, gy, -, rest, h3, rfl⟩ := h
    obtain ⟨l, ih⟩ := buildLevels_spec n _ _ _ h3
    refine ⟨by simp [l], fun hlt => ?_⟩
    rw [countAll_cons] at hlt ⊢
    simp only [] at hlt
    have e1 : mul32 gx.1 gy.1 = gx.1 * gy.1 := Nat.mod_eq_of_lt (by omega)
    have e2 : add32 cum (mul32 gx.1 gy.1) = cum + gx.1 * gy.1 := by
      rw [e1]; exact Nat.mod_eq_of_lt (by omega)
    rw [e2] at ih
    obtain ⟨i1, i2⟩ := ih (by omega)
    exact ⟨⟨rfl, i1⟩, by simp only [] at i2 ⊢; omega⟩

theorem OffOk.get : ∀ {cum : Nat} {ls : List Level} {r : Nat} {l : Level}, OffOk cum ls → ls[r]? = some l →
    cum ≤ l.sOff ∧ l.sOff + l.npw * l.nph ≤ cum + countAll ls
  | _, [], _, _, _, h => by simp at h
  | cum, m :: ls, 0, l, ⟨h1, _⟩, h => by
    simp only [List.getElem?_cons_zero, Option.some.injEq] at h
    subst h
    rw [countAll_cons]
    omega
  | cum, m :: ls, r + 1, l, ⟨h1, h2⟩, h => by
    rw [List.getElem?_cons_succ] at h
    have := OffOk.get h2 h
    rw [countAll_cons]
    omega

/-- The search finds the only resolution whose range holds `s`. -/
theorem findLevel_spec : ∀ {cum : Nat} {ls : List Level} {r0 : Nat} (s : Nat), OffOk cum ls →
    cum + countAll ls < 2 ^ 32 → ∀ r p, findLevel s r0 ls = some (r, p) ↔
      ∃ k l, r = r0 + k ∧ ls[k]? = some l ∧ p < l.npw * l.nph ∧ s = l.sOff + p
  | cum, [], r0, s, _, _, r, p => by simp [findLevel]
  | cum, m :: ls, r0, s, ⟨h1, h2⟩, hlt, r, p => by
    rw [countAll_cons] at hlt
    have e1 : mul32 m.npw m.nph = m.npw * m.nph := Nat.mod_eq_of_lt (by omega)
    have e2 : add32 m.sOff (mul32 m.npw m.nph) = m.sOff + m.npw * m.nph := by
      rw [e1]; exact Nat.mod_eq_of_lt (by omega)
    simp only [findLevel, e2]
    by_cases hc : m.sOff ≤ s ∧ s < m.sOff + m.npw * m.nph
    · rw [if_pos hc]
      simp only [Option.some.injEq, Prod.mk.injEq]
      constructor
      · rintro ⟨rfl, rfl⟩
        exact ⟨0, m, rfl, rfl, by omega, by omega⟩
      · rintro ⟨k, l, rfl, hk, hp, hs⟩
        cases k with
        | zero =>
          simp only [List.getElem?_cons_zero, Option.some.injEq] at hk
          subst hk
          exact ⟨rfl, by omega⟩
        | succ k =>
          rw [List.getElem?_cons_succ] at hk
          have := OffOk.get h2 hk
          omega
    · rw [if_neg hc, findLevel_spec s h2 (by omega)]
      constructor
      · rintro ⟨k, l, rfl, hk, hp, hs⟩
        exact ⟨k + 1, l, by omega, by rw [List.getElem?_cons_succ]; exact hk, hp, hs⟩
      · rintro ⟨k, l, rfl, hk, hp, hs⟩
        cases k with
        | zero =>
          simp only [List.getElem?_cons_zero, Option.some.injEq] at hk
          subst hk
          omega
        | succ k =>
          rw [List.getElem?_cons_succ] at hk
          exact ⟨k, l, by omega, hk, hp, hs⟩

theorem mapM_some_mem {α β : Type} {f : α → Option β} : ∀ {l : List α} {r : List β}, l.mapM f = some r →
    ∀ (k : Nat) (b : β), r[k]? = some b → ∃ a, l[k]? = some a ∧ f a = some b
  | [], r, h, k, b, hb => by
    simp only [List.mapM_nil, Option.pure_def, Option.some.injEq] at h
    subst h
    simp at hb
  | a :: l, r, h, k, b, hb => by
    simp only [List.mapM_cons, Option.bind_eq_bind, Option.bind_eq_some_iff, Option.pure_def,
      Option.some.injEq] at h
    obtain ⟨b0, h0, r', h1, rfl⟩ := h
    cases k with
    | zero =>
      simp only [List.getElem?_cons_zero, Option.some.injEq] at hb
      subst hb
      exact ⟨a, rfl, h0⟩
    | succ k =>
      rw [List.getElem?_cons_succ] at hb ⊢
      exact mapM_some_mem h1 k b hb

theorem mapM_some_length {α β : Type} {f : α → Option β} : ∀ {l : List α} {r : List β}, l.mapM f = some r →
    r.length = l.length
  | [], r, h => by
    simp only [List.mapM_nil, Option.pure_def, Option.some.injEq] at h
    subst h
    rfl
  | a :: l, r, h => by
    simp only [List.mapM_cons, Option.bind_eq_bind, Option.bind_eq_some_iff, Option.pure_def,
      Option.some.injEq] at h
    obtain ⟨b0, h0, r', h1, rfl⟩ := h
    simp [mapM_some_length h1]

/-- The parts of `buildIndex`. -/
theorem buildIndex_spec {h : MainHdr} {i : Index} (e : buildIndex h = some i) :
    i.hdr = h ∧ ceilDiv32 (sub32 h.xsiz h.xtosiz) h.xtsiz = some i.ntx ∧
    ceilDiv32 (sub32 h.ysiz h.ytosiz) h.ytsiz = some i.nty ∧ i.tcs.length = i.ntx * i.nty ∧
    ∀ (t c : Nat) (info : TcInfo), (i.tcs[t]?).bind (·[c]?) = some info → t < i.ntx * i.nty ∧ ∃ cp, h.comps[c]? = some cp ∧
      buildTc cp (tileSpan h.xtosiz h.xtsiz h.xosiz h.xsiz (t % i.ntx)).1
        (tileSpan h.ytosiz h.ytsiz h.yosiz h.ysiz (t / i.ntx)).1
        (tileSpan h.xtosiz h.xtsiz h.xosiz h.xsiz (t % i.ntx)).2
        (tileSpan h.ytosiz h.ytsiz h.yosiz h.ysiz (t / i.ntx)).2 = some info := by
  simp only [buildIndex, Option.bind_eq_bind, Option.bind_eq_some_iff, Option.pure_def, Option.some.injEq] at e
  obtain ⟨nx, e1, ny, e2, tcs, e3, rfl⟩ := e
  refine ⟨rfl, e1, e2, by simpa using mapM_some_length e3, fun t c info ht => ?_⟩
  rw [Option.bind_eq_some_iff] at ht
  obtain ⟨row, h1, h2⟩ := ht
  obtain ⟨t', h3, h4⟩ := mapM_some_mem e3 t row h1
  have hlt : t < nx * ny := by
    by_contra hge
    rw [List.getElem?_eq_none (by simpa using hge)] at h3
    simp at h3
  rw [List.getElem?_range hlt, Option.some.injEq] at h3
  subst h3
  obtain ⟨cp, h5, h6⟩ := mapM_some_mem h4 c info h2
  exact ⟨hlt, cp, h5, h6⟩

/-- The parts of `buildTc`. -/
theorem buildTc_spec {cp : CompHdr} {x0 y0 x1 y1 : Nat} {info : TcInfo}
    (e : buildTc cp x0 y0 x1 y1 = some info) :
    info.NL = cp.NL ∧ info.levels.length = cp.NL + 1 ∧
    (countAll info.levels < 2 ^ 32 → OffOk 0 info.levels ∧ info.total = countAll info.levels) := by
  simp only [buildTc, Option.bind_eq_bind, Option.bind_eq_some_iff, Option.pure_def, Option.some.injEq] at e
  obtain ⟨a, -, b, -, c, -, d, -, l, e, rfl⟩ := e
  obtain ⟨h1, h2⟩ := buildLevels_spec _ _ _ _ e
  refine ⟨rfl, h1, fun hlt => ?_⟩
  have := h2 (by simpa using hlt)
  simpa using this

theorem Index.tc_spec {h : MainHdr} {i : Index} (e : buildIndex h = some i) {t c : Nat} {info : TcInfo}
    (ht : i.tc t c = some info) : t < i.nT ∧ c < i.nC ∧ info.levels.length = info.NL + 1 ∧
      (countAll info.levels < 2 ^ 32 → OffOk 0 info.levels) := by
  unfold Index.tc at ht
  by_cases hc : i.nT ≤ t ∨ i.nC ≤ c
  · rw [if_pos hc] at ht; simp at ht
  rw [if_neg hc] at ht
  obtain ⟨-, -, -, -, hall⟩ := buildIndex_spec e
  obtain ⟨-, cp, -, hb⟩ := hall t c info ht
  obtain ⟨h1, h2, h3⟩ := buildTc_spec hb
  exact ⟨by omega, by omega, by rw [h2, h1], fun hlt => (h3 hlt).1⟩

end Verif.Jpip
