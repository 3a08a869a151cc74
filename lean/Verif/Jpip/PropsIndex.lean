import Verif.Jpip.IndexLemmas

/-!
# Precinct identifiers (C12)

`IsPrecinct` says in plain terms that a (tile, component, resolution, number) names a precinct of the image;
`precincts` is the number of precincts of a tile-component, as a natural number (no wrap-around).
-/

namespace Verif.Jpip

/-- Number of precincts of a tile-component. -/
def TcInfo.precincts (tc : TcInfo) : Nat := (tc.levels.map fun l => l.npw * l.nph).sum

/-- `k` names a precinct: its resolution exists and has more than `k.p` precincts. -/
def IsPrecinct (i : Index) (k : Key) : Prop :=
  ∃ info l, i.tc k.t k.c = some info ∧ info.levels[k.r]? = some l ∧ k.p < l.npw * l.nph

/-- The limits of the standard and of the identifier arithmetic: at most 65535 tiles and 16384 components, and
fewer than 2^32 precincts in each tile-component. -/
structure Limits (i : Index) : Prop where
  tiles : i.ntx * i.nty ≤ 65535
  comps : i.nC ≤ 16384
  count : ∀ t c info, i.tc t c = some info → info.precincts < 2 ^ 32

theorem id_lt {t c s nT nC B : Nat} (ht : t < nT) (hc : c < nC) (hs : s < B) : t + (c + s * nC) * nT < nT * nC * B := by
  have h1 : c + s * nC + 1 ≤ B * nC := by nlinarith
  nlinarith

theorem id_split {t c s nT nC : Nat} (ht : t < nT) (hc : c < nC) :
    (t + (c + s * nC) * nT) % nT = t ∧ (t + (c + s * nC) * nT) / nT % nC = c ∧
      (t + (c + s * nC) * nT) / nT / nC = s := by
  have e1 : (t + (c + s * nC) * nT) / nT = c + s * nC := by
    rw [Nat.add_mul_div_right _ _ (by omega), Nat.div_eq_of_lt ht, Nat.zero_add]
  refine ⟨by rw [Nat.add_mul_mod_self_right, Nat.mod_eq_of_lt ht], ?_, ?_⟩
  · rw [e1, Nat.add_mul_mod_self_right, Nat.mod_eq_of_lt hc]
  · rw [e1, Nat.add_mul_div_right _ _ (by omega), Nat.div_eq_of_lt hc, Nat.zero_add]

theorem Index.s_iff {h : MainHdr} {i : Index} (e : buildIndex h = some i) (lim : Limits i) (k : Key) (s : Nat) :
    i.s k = some s ↔ ∃ info l, i.tc k.t k.c = some info ∧ info.levels[k.r]? = some l ∧ k.p < l.npw * l.nph ∧
      s = l.sOff + k.p := by
  unfold Index.s
  simp only [Option.bind_eq_bind, Option.bind_eq_some_iff]
  constructor
  · rintro ⟨info, h1, h2⟩
    by_cases hr : info.NL < k.r
    · simp [hr] at h2
    rw [if_neg hr, Option.bind_eq_some_iff] at h2
    obtain ⟨l, h3, h4⟩ := h2
    have hcnt := lim.count _ _ _ h1
    obtain ⟨-, -, -, off⟩ := Index.tc_spec e h1
    have hoff := (off hcnt).get h3
    have hcnt' : countAll info.levels < 2 ^ 32 := hcnt
    have e1 : mul32 l.npw l.nph = l.npw * l.nph := Nat.mod_eq_of_lt (by omega)
    rw [e1] at h4
    by_cases hp : l.npw * l.nph ≤ k.p
    · simp [hp] at h4
    rw [if_neg hp, Option.some.injEq] at h4
    have e2 : add32 l.sOff k.p = l.sOff + k.p := Nat.mod_eq_of_lt (by omega)
    exact ⟨info, l, h1, h3, by omega, by rw [← h4, e2]⟩
  · rintro ⟨info, l, h1, h3, hp, rfl⟩
    have hcnt := lim.count _ _ _ h1
    obtain ⟨-, -, hlen, off⟩ := Index.tc_spec e h1
    have hoff := (off hcnt).get h3
    have hcnt' : countAll info.levels < 2 ^ 32 := hcnt
    have e1 : mul32 l.npw l.nph = l.npw * l.nph := Nat.mod_eq_of_lt (by omega)
    have e2 : add32 l.sOff k.p = l.sOff + k.p := Nat.mod_eq_of_lt (by omega)
    have hlt : k.r < info.levels.length := by
      by_contra hge
      rw [List.getElem?_eq_none (by omega)] at h3
      simp at h3
    refine ⟨info, h1, ?_⟩
    rw [if_neg (by omega), h3, Option.bind_some, e1, if_neg (by omega), e2]

theorem nT_eq {i : Index} (lim : Limits i) : i.nT = i.ntx * i.nty :=
  Nat.mod_eq_of_lt (by have := lim.tiles; omega)

/-- C12: for every main header within the limits, every precinct `k` of the image has an identifier; it is below
`tiles × components × B` for every bound `B` on the precincts of a tile-component; and decomposing it gives `k`
back. -/
theorem C12_identifier_inverts (h : MainHdr) (i : Index) (e : buildIndex h = some i) (lim : Limits i)
    (k : Key) (hk : IsPrecinct i k) :
    ∃ id, i.I k = some id ∧ i.decompose id = some k ∧
      ∀ B, (∀ t c info, i.tc t c = some info → info.precincts ≤ B) → id < i.ntx * i.nty * i.nC * B := by
  obtain ⟨info, l, h1, h2, h3⟩ := hk
  obtain ⟨ht, hc, hlen, off⟩ := Index.tc_spec e h1
  have hcnt := lim.count _ _ _ h1
  have hcnt' : countAll info.levels < 2 ^ 32 := hcnt
  have hoff := (off hcnt).get h2
  have hnT := nT_eq lim
  have l1 := lim.tiles
  have l2 := lim.comps
  have hs : i.s k = some (l.sOff + k.p) := (Index.s_iff e lim k _).2 ⟨info, l, h1, h2, h3, rfl⟩
  have hid : k.t + (k.c + (l.sOff + k.p) * i.nC) * i.nT < 2 ^ 64 := by
    have a := id_lt (s := l.sOff + k.p) (B := 2 ^ 32) ht hc (by omega)
    have b : i.nT * i.nC ≤ 65535 * 16384 := Nat.mul_le_mul (by omega) l2
    have c := Nat.mul_le_mul_right (2 ^ 32) b
    omega
  refine ⟨k.t + (k.c + (l.sOff + k.p) * i.nC) * i.nT, ?_, ?_, fun B hB => ?_⟩
  · rw [Index.I, hs, Option.map_some, Nat.mod_eq_of_lt hid]
  · obtain ⟨s1, s2, s3⟩ := id_split (s := l.sOff + k.p) ht hc
    unfold Index.decompose
    rw [if_neg (by omega)]
    simp only [s1, s2, s3]
    rw [Nat.mod_eq_of_lt (show k.t < 2 ^ 16 by omega), Nat.mod_eq_of_lt (show k.c < 2 ^ 16 by omega),
      Nat.mod_eq_of_lt (show l.sOff + k.p < 2 ^ 32 by omega), h1]
    have hf : findLevel (l.sOff + k.p) 0 (info.levels.take (info.NL + 1)) = some (k.r, k.p) := by
      rw [List.take_of_length_le (by omega)]
      exact (findLevel_spec (l.sOff + k.p) (off hcnt) (by omega) _ _).2 ⟨k.r, l, by omega, h2, h3, rfl⟩
    simp [hf]
  · have := hB _ _ _ h1
    have h4 : countAll info.levels ≤ B := this
    rw [← hnT]
    exact id_lt ht hc (by omega)

/-- C12: different precincts have different identifiers. -/
theorem C12_identifier_injective (h : MainHdr) (i : Index) (e : buildIndex h = some i) (lim : Limits i)
    (k k' : Key) (hk : IsPrecinct i k) (hk' : IsPrecinct i k') (heq : i.I k = i.I k') : k = k' := by
  obtain ⟨id, h1, h2, -⟩ := C12_identifier_inverts h i e lim k hk
  obtain ⟨id', h1', h2', -⟩ := C12_identifier_inverts h i e lim k' hk'
  rw [h1, h1', Option.some.injEq] at heq
  subst heq
  rw [h2, Option.some.injEq] at h2'
  exact h2'

/-- C12, hostile identifiers: whatever 64-bit identifier a server sends, a successful decomposition names a
precinct of the image; and unless the sequence number part exceeds 32 bits, the precinct has that identifier. -/
theorem C12_decompose_sound (h : MainHdr) (i : Index) (e : buildIndex h = some i) (lim : Limits i)
    (id : Nat) (k : Key) (hd : i.decompose id = some k) :
    IsPrecinct i k ∧ (id < i.ntx * i.nty * i.nC * 2 ^ 32 → i.I k = some id) := by
  have hnT := nT_eq lim
  have l1 := lim.tiles
  have l2 := lim.comps
  unfold Index.decompose at hd
  by_cases hz : i.nT = 0 ∨ i.nC = 0
  · rw [if_pos hz] at hd; simp at hd
  rw [if_neg hz] at hd
  simp only [Option.bind_eq_bind, Option.bind_eq_some_iff, Option.pure_def, Option.some.injEq] at hd
  obtain ⟨info, h1, ⟨r, p⟩, h2, rfl⟩ := hd
  have ht : id % i.nT < i.nT := Nat.mod_lt _ (by omega)
  have hc : id / i.nT % i.nC < i.nC := Nat.mod_lt _ (by omega)
  rw [Nat.mod_eq_of_lt (show id % i.nT < 2 ^ 16 by omega), Nat.mod_eq_of_lt (show id / i.nT % i.nC < 2 ^ 16 by omega)] at h1 ⊢
  obtain ⟨-, -, hlen, off⟩ := Index.tc_spec e h1
  have hcnt := lim.count _ _ _ h1
  have hcnt' : countAll info.levels < 2 ^ 32 := hcnt
  rw [List.take_of_length_le (by omega)] at h2
  obtain ⟨r', l, hr, h3, h4, h5⟩ := (findLevel_spec _ (off hcnt) (by omega) _ _).1 h2
  simp only [Nat.zero_add] at hr
  subst hr
  refine ⟨⟨info, l, h1, h3, h4⟩, fun hlt => ?_⟩
  have hs : i.s ⟨id % i.nT, id / i.nT % i.nC, r, p⟩ = some (id / i.nT / i.nC) := by
    refine (Index.s_iff e lim _ _).2 ⟨info, l, h1, h3, h4, ?_⟩
    rw [← h5, Nat.mod_eq_of_lt]
    rw [← hnT] at hlt
    exact Nat.div_lt_of_lt_mul (Nat.div_lt_of_lt_mul (by rw [← Nat.mul_assoc]; exact hlt))
  rw [Index.I, hs, Option.map_some]
  have e3 : id % i.nT + (id / i.nT % i.nC + id / i.nT / i.nC * i.nC) * i.nT = id := by
    have a := Nat.mod_add_div (id / i.nT) i.nC
    have b := Nat.mod_add_div id i.nT
    have c : id / i.nT % i.nC + id / i.nT / i.nC * i.nC = id / i.nT := by rw [Nat.mul_comm (id / i.nT / i.nC)]; exact a
    rw [c, Nat.mul_comm (id / i.nT)]
    exact b
  have hb : id < 2 ^ 64 := by
    have b : i.ntx * i.nty * i.nC ≤ 65535 * 16384 := Nat.mul_le_mul (by omega) l2
    have c := Nat.mul_le_mul_right (2 ^ 32) b
    omega
  rw [e3, Nat.mod_eq_of_lt hb]

/-- The index covers: the precincts of a tile-component are numbered `0, 1, …` without a gap. -/
theorem C12_sequence_numbers_dense (h : MainHdr) (i : Index) (e : buildIndex h = some i) (lim : Limits i)
    (t c : Nat) (info : TcInfo) (htc : i.tc t c = some info) :
    info.total = info.precincts ∧ ∀ s, s < info.precincts ↔ ∃ r p, i.s ⟨t, c, r, p⟩ = some s := by
  have hcnt := lim.count _ _ _ htc
  have hcnt' : countAll info.levels < 2 ^ 32 := hcnt
  obtain ⟨-, -, hlen, off⟩ := Index.tc_spec e htc
  constructor
  · unfold Index.tc at htc
    by_cases hc : i.nT ≤ t ∨ i.nC ≤ c
    · rw [if_pos hc] at htc; simp at htc
    rw [if_neg hc] at htc
    obtain ⟨-, -, -, -, hall⟩ := buildIndex_spec e
    obtain ⟨-, cp, -, hb⟩ := hall t c info htc
    exact ((buildTc_spec hb).2.2 hcnt).2
  · have key : ∀ (ls : List Level) (cum s : Nat), OffOk cum ls → cum ≤ s → s < cum + countAll ls →
        ∃ (r : Nat) (l : Level), ls[r]? = some l ∧ l.sOff ≤ s ∧ s < l.sOff + l.npw * l.nph := by
      intro ls
      induction ls with
      | nil => intro cum s _ h1 h2; simp [countAll] at h2; omega
      | cons m ls ih =>
        rintro cum s ⟨h1, h2⟩ h3 h4
        rw [countAll_cons] at h4
        by_cases hs : s < cum + m.npw * m.nph
        · exact ⟨0, m, rfl, by omega, by omega⟩
        · obtain ⟨r, l, a, b⟩ := ih _ s h2 (by omega) (by omega)
          exact ⟨r + 1, l, by rw [List.getElem?_cons_succ]; exact a, b⟩
    intro s
    constructor
    · intro hs
      obtain ⟨r, l, a, b, c'⟩ := key info.levels 0 s (off hcnt) (by omega) (by rw [Nat.zero_add]; exact hs)
      exact ⟨r, s - l.sOff, (Index.s_iff e lim _ _).2 ⟨info, l, htc, a, by simp only []; omega, by simp only []; omega⟩⟩
    · rintro ⟨r, p, hs⟩
      obtain ⟨info', l, a, b, c', rfl⟩ := (Index.s_iff e lim _ _).1 hs
      simp only [] at a b c' ⊢
      rw [htc, Option.some.injEq] at a
      subst a
      have := (off hcnt).get b
      have h4 : info.precincts = countAll info.levels := rfl
      omega

/-- One component without subsampling, `NL` levels, all precincts `2^pp × 2^pp`. -/
def plainComp (NL pp : Nat) : CompHdr := ⟨1, 1, NL, fun _ => pp, fun _ => pp⟩

/-- Two tiles of width 2, the first cut to width 1 by the image origin; precincts of one sample. -/
def hdrTwoTiles : MainHdr := ⟨4, 1, 1, 0, 2, 1, 0, 0, [plainComp 0 0], 1, 0, false, false, false⟩

/-- A 37 × 21 image at (3, 2) in tiles of 16 × 16 at (1, 0), two components, precincts of 4 × 4. -/
def hdrExample : MainHdr :=
  ⟨40, 23, 3, 2, 16, 16, 1, 0, [plainComp 2 2, ⟨2, 2, 1, fun _ => 2, fun _ => 2⟩], 1, 0, false, false, false⟩

example : ((buildIndex hdrExample).bind fun i => i.I ⟨4, 1, 1, 2⟩) = some 58 ∧
    ((buildIndex hdrExample).bind fun i => i.decompose 58) = some ⟨4, 1, 1, 2⟩ := by decide +kernel

example : ∀ i, buildIndex hdrExample = some i → i.ntx * i.nty = 6 ∧ i.nC = 2 ∧
    i.tcs.all (fun l => l.all fun tc => tc.precincts < 40) = true := by
  intro i hi
  have : (buildIndex hdrExample).map (fun i => (i.ntx * i.nty, i.nC,
    i.tcs.all (fun l => l.all fun tc => tc.precincts < 40))) = some (6, 2, true) := by decide +kernel
  rw [hi] at this
  simpa using this

/-- Not every identifier is below the total number of precincts: with three precincts in all, the second precinct
of the second tile has identifier 3. -/
theorem C12_identifiers_not_dense :
    ((buildIndex hdrTwoTiles).map fun i => (i.I ⟨1, 0, 0, 1⟩, (i.tcs.flatten.map TcInfo.total).sum)) =
      some (some 3, 3) := by decide +kernel

/-- The decomposition keeps 32 bits of the sequence number, so identifiers beyond that range alias. -/
theorem C12_huge_identifier_aliases :
    ((buildIndex hdrTwoTiles).map fun i => (i.decompose 3, i.decompose (3 + 2 * 2 ^ 32))) =
      some (some ⟨1, 0, 0, 1⟩, some ⟨1, 0, 0, 1⟩) := by decide +kernel

/-- A tile-component with 2^32 precincts at its two lower resolutions: the offset of the next one wraps to 0. -/
def hdrWrap : MainHdr :=
  ⟨2 ^ 18, 2 ^ 17, 0, 0, 2 ^ 18, 2 ^ 17, 0, 0, [⟨1, 1, 2, fun r => r, fun r => r⟩], 1, 0, false, false, false⟩

/-- Without the bound on the number of precincts identifiers collide. -/
theorem C12_wrap_collides :
    ((buildIndex hdrWrap).map fun i => (i.I ⟨0, 0, 0, 0⟩, i.I ⟨0, 0, 2, 0⟩)) = some (some 0, some 0) := by
  decide +kernel

/-- A zero tile size is not rejected by the SIZ parser and divides by zero here. -/
theorem C12_zero_tile_size_undefined (h : MainHdr) (hz : h.xtsiz = 0) : buildIndex h = none := by
  simp [buildIndex, ceilDiv32, hz]

end Verif.Jpip
