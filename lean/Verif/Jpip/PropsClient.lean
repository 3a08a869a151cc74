import Verif.Jpip.PropsAssembler
/-
C41, client side: sorting the delivered precincts into rows and emitting them is the same as asking, in LRCP order, for
each precinct of each resolution and component whether it was delivered; and patching the COD segment changes the
progression byte only.
-/
namespace Verif.Jpip

/-! ### Specification -/

/-- Number of precincts of resolution `r` of a tile-component; 0 when the component has no such resolution. -/
def numPrecincts (i : Index) (t c r : Nat) : Nat :=
  match i.tc t c with
  | none => 0
  | some info => match info.levels[r]? with
    | none => 0
    | some l => l.npw * l.nph

/-- The packets of a tile in LRCP order: the delivered bin of a precinct, or an empty packet. -/
def clientSpec (set : DataBinSet) (i : Index) (t : Nat) : List UInt8 :=
  (List.range i.hdr.layers).flatMap fun _ => (List.range (i.maxNL + 1)).flatMap fun r => (List.range i.nC).flatMap fun c =>
    (List.range (numPrecincts i t c r)).flatMap fun p => precinctSpec set i 1 ⟨t, c, r, p⟩

/-- The keys of a set, each once, as `set.keys()` returns them; precinct identifiers below the range where they alias. -/
structure KeysOf (set : DataBinSet) (i : Index) (ks : List (Nat × Nat)) : Prop where
  nodup : ks.Nodup
  mem : ∀ c id, (c, id) ∈ ks ↔ (set.bins c id).isSome
  small : ∀ id, (kMsgClassPrecinct, id) ∈ ks → id < i.ntx * i.nty * i.nC * 2 ^ 32

/-! ### Rows -/

theorem flatMap_zero (n cur : Nat) (f : Nat → List UInt8) (h : ∀ p, cur ≤ p → p < cur + n → f p = [0]) :
    (List.range' cur n).flatMap f = List.replicate n 0 := by
  induction n generalizing cur with
  | zero => rfl
  | succ n ih =>
    rw [List.range'_succ, List.flatMap_cons, ih (cur + 1) (fun p h1 h2 => h p (by omega) (by omega)), h cur (by omega) (by omega)]
    rfl

theorem emitRow_spec (np : Nat) (f : Nat → List UInt8) : ∀ (l : List (Nat × List UInt8)) (cur : Nat),
    l.Pairwise (fun a b => a.1 < b.1) → (∀ a ∈ l, cur ≤ a.1 ∧ a.1 < np ∧ f a.1 = a.2) →
    (∀ p, cur ≤ p → p < np → (∀ a ∈ l, a.1 ≠ p) → f p = [0]) →
    emitRow np l cur = (List.range' cur (np - cur)).flatMap f
  | [], cur, _, _, h3 => by
    rw [emitRow, flatMap_zero _ _ _ fun p a b => h3 p a (by omega) (by simp)]
    split_ifs with h
    · rfl
    · rw [show np - cur = 0 by omega]; rfl
  | (p, b) :: rest, cur, h1, h2, h3 => by
    rw [List.pairwise_cons] at h1
    obtain ⟨h4, h5⟩ := h1
    obtain ⟨a1, a2, a3⟩ := h2 (p, b) (by simp)
    simp only at a1 a2 a3
    have ih := emitRow_spec np f rest (p + 1) h5
      (fun a ha => ⟨h4 a ha, (h2 a (List.mem_cons_of_mem _ ha)).2⟩)
      (fun q hq1 hq2 hq3 => h3 q (by omega) hq2 (by
        intro a ha
        rcases List.mem_cons.1 ha with rfl | ha
        · simp only; omega
        · exact hq3 a ha))
    rw [emitRow, ih]
    have hz : (List.range' cur (p - cur)).flatMap f = List.replicate (p - cur) 0 :=
      flatMap_zero _ _ _ fun q q1 q2 => h3 q q1 (by omega) (by
        intro a ha
        rcases List.mem_cons.1 ha with rfl | ha
        · simp only; omega
        · have := h4 a ha; simp only at this; omega)
    have e : List.range' cur (np - cur) = List.range' cur (p - cur) ++ p :: List.range' (p + 1) (np - (p + 1)) := by
      rw [← List.range'_succ, show np - (p + 1) + 1 = np - p by omega]
      conv => rhs; arg 2; rw [show p = cur + (p - cur) by omega]
      rw [List.range'_append_1]
      congr 1; omega
    rw [e, List.flatMap_append, List.flatMap_cons, hz, a3]
    split_ifs with h
    · simp
    · rw [show p - cur = 0 by omega]; simp

theorem delivered_spec (h : MainHdr) (i : Index) (e : buildIndex h = some i) (lim : Limits i) (set : DataBinSet)
    (ks : List (Nat × Nat)) (hks : KeysOf set i ks) (t c r : Nat) :
    (delivered set i ks t c r).Pairwise (fun a b => a.1 < b.1) ∧
    ∀ a, a ∈ delivered set i ks t c r ↔
      ∃ id, IsPrecinct i ⟨t, c, r, a.1⟩ ∧ i.I ⟨t, c, r, a.1⟩ = some id ∧ (set.bins kMsgClassPrecinct id).isSome ∧
        a.2 = set.get kMsgClassPrecinct id := by
  set F : Nat × Nat → Option (Nat × List UInt8) := fun kv =>
    if kv.1 ≠ kMsgClassPrecinct then none
    else (i.decompose kv.2).bind fun pk =>
      if pk.t = t ∧ pk.c = c ∧ pk.r = r then some (pk.p, set.get kMsgClassPrecinct kv.2) else none with hF
  have hFs : ∀ kv a, kv ∈ ks → (F kv = some a ↔ kv.1 = kMsgClassPrecinct ∧ IsPrecinct i ⟨t, c, r, a.1⟩ ∧
      i.I ⟨t, c, r, a.1⟩ = some kv.2 ∧ a.2 = set.get kMsgClassPrecinct kv.2) := by
    rintro ⟨cl, id⟩ ⟨p, b⟩ hm
    by_cases hc : cl = kMsgClassPrecinct
    · subst hc
      simp only [hF, ne_eq, not_true_eq_false, if_false, Option.bind_eq_some_iff, true_and]
      constructor
      · rintro ⟨⟨pt, pc, pr, pp⟩, hd, hif⟩
        simp only at hif
        split_ifs at hif with hh
        obtain ⟨rfl, rfl, rfl⟩ := hh
        simp only [Option.some.injEq, Prod.mk.injEq] at hif
        obtain ⟨rfl, rfl⟩ := hif
        obtain ⟨d1, d2⟩ := C12_decompose_sound h i e lim id _ hd
        exact ⟨d1, d2 (hks.small id hm), rfl⟩
      · rintro ⟨h1, h2, rfl⟩
        obtain ⟨id', g1, g2, -⟩ := C12_identifier_inverts h i e lim _ h1
        rw [h2, Option.some.injEq] at g1
        subst g1
        exact ⟨_, g2, by simp⟩
    · simp only [hF]
      rw [if_pos hc]
      simp [hc]
  have hp : (ks.filterMap F).Pairwise (fun a b => a.1 ≠ b.1) := by
    rw [List.pairwise_filterMap]
    have := hks.nodup
    rw [List.nodup_iff_pairwise_ne] at this
    refine this.imp_of_mem ?_
    rintro x y hx hy hne a ha b hb heq
    have h1 := (hFs x a hx).1 ha
    have h2 := (hFs y b hy).1 hb
    rw [← heq] at h2
    have h3 := h1.2.2.1
    rw [h2.2.2.1, Option.some.injEq] at h3
    exact hne (Prod.ext (h1.1.trans h2.1.symm) h3.symm)
  have hperm : (delivered set i ks t c r).Perm (ks.filterMap F) := List.perm_insertionSort _ _
  have hs : (delivered set i ks t c r).Pairwise (fun a b => a.1 ≤ b.1) := by
    haveI : Std.Total (fun a b : Nat × List UInt8 => a.1 ≤ b.1) := ⟨fun a b => le_total a.1 b.1⟩
    haveI : IsTrans (Nat × List UInt8) (fun a b => a.1 ≤ b.1) := ⟨fun a b c => le_trans⟩
    exact List.pairwise_insertionSort _ _
  refine ⟨?_, fun a => ?_⟩
  · have h2 := (hperm.pairwise_iff (R := fun a b : Nat × List UInt8 => a.1 ≠ b.1) (fun h => Ne.symm h)).2 hp
    refine (hs.and h2).imp ?_
    rintro a b ⟨h1, h2⟩
    omega
  · rw [hperm.mem_iff, List.mem_filterMap]
    constructor
    · rintro ⟨⟨cl, id⟩, hm, ha⟩
      obtain ⟨rfl, g1, g2, g3⟩ := (hFs _ a hm).1 ha
      exact ⟨id, g1, g2, (hks.mem _ _).1 hm, g3⟩
    · rintro ⟨id, g1, g2, g3, g4⟩
      have hm := (hks.mem kMsgClassPrecinct id).2 g3
      exact ⟨_, hm, (hFs _ a hm).2 ⟨rfl, g1, g2, g4⟩⟩

theorem row_spec (h : MainHdr) (i : Index) (e : buildIndex h = some i) (lim : Limits i) (set : DataBinSet)
    (ks : List (Nat × Nat)) (hks : KeysOf set i ks) (t c r : Nat) :
    emitRow (numPrecincts i t c r) (delivered set i ks t c r) 0 =
      (List.range (numPrecincts i t c r)).flatMap fun p => precinctSpec set i 1 ⟨t, c, r, p⟩ := by
  obtain ⟨h1, h2⟩ := delivered_spec h i e lim set ks hks t c r
  have hip : ∀ p, IsPrecinct i ⟨t, c, r, p⟩ ↔ p < numPrecincts i t c r := by
    intro p
    unfold IsPrecinct numPrecincts
    simp only
    cases i.tc t c with
    | none => simp
    | some info =>
      cases hl : info.levels[r]? with
      | none => simp [hl]
      | some l => simp [hl]
  rw [List.range_eq_range', emitRow_spec (numPrecincts i t c r) (fun p => precinctSpec set i 1 ⟨t, c, r, p⟩) _ 0 h1]
  · simp
  · intro a ha
    obtain ⟨id, g1, g2, g3, g4⟩ := (h2 a).1 ha
    refine ⟨by omega, (hip _).1 g1, ?_⟩
    obtain ⟨eb, heb⟩ := Option.isSome_iff_exists.1 g3
    simp only [precinctSpec, g2, g4, DataBinSet.get, heb]
  · intro p _ hp hne
    have hpp := (hip p).2 hp
    obtain ⟨id, g1, -⟩ := C12_identifier_inverts h i e lim _ hpp
    have : set.bins kMsgClassPrecinct id = none := by
      by_contra hb
      exact hne (p, set.get kMsgClassPrecinct id) ((h2 _).2 ⟨id, hpp, g1, Option.isSome_iff_ne_none.2 hb, rfl⟩) rfl
    simp [precinctSpec, g1, this]

/-- Every tile-component of the image has an entry in the index. -/
theorem tc_exists (h : MainHdr) (i : Index) (e : buildIndex h = some i) (lim : Limits i) (t c : Nat) (ht : t < i.nT)
    (hc : c < i.nC) : ∃ info, i.tc t c = some info := by
  have hnT := nT_eq lim
  unfold Index.tc
  rw [if_neg (by omega)]
  simp only [buildIndex, Option.bind_eq_bind, Option.bind_eq_some_iff, Option.pure_def, Option.some.injEq] at e
  obtain ⟨nx, e1, ny, e2, tcs, e3, rfl⟩ := e
  simp only [Index.nC] at hc
  have h1 : tcs.length = nx * ny := by simpa using mapM_some_length e3
  simp only at hnT
  have hlt : t < tcs.length := by rw [h1]; omega
  obtain ⟨t', -, h4⟩ := mapM_some_mem e3 t _ (List.getElem?_eq_getElem hlt)
  have h5 : (tcs[t]).length = h.comps.length := mapM_some_length h4
  refine ⟨tcs[t][c]'(by omega), ?_⟩
  simp only [List.getElem?_eq_getElem hlt, Option.bind_some]
  exact List.getElem?_eq_getElem _

theorem concatM_eq {α β : Type} (l : List α) (f : α → Option (List β)) (g : α → List β) (hf : ∀ a ∈ l, f a = some (g a)) :
    concatM l f = some (l.flatMap g) :=
  (concatM_iff l f g (fun a ha => Or.inr (hf a ha)) _).2 ⟨fun a ha => by rw [hf a ha]; rfl, rfl⟩

theorem clientBody_eq (h : MainHdr) (i : Index) (e : buildIndex h = some i) (lim : Limits i) (set : DataBinSet)
    (ks : List (Nat × Nat)) (hks : KeysOf set i ks) (t : Nat) (ht : t < i.nT) :
    clientBody set i ks t = some (clientSpec set i t) := by
  have hnT := nT_eq lim
  have := lim.tiles
  unfold clientBody clientSpec
  refine concatM_eq _ _ _ fun _ _ => concatM_eq _ _ _ fun r _ => concatM_eq _ _ _ fun c hc => ?_
  rw [List.mem_range] at hc
  obtain ⟨info, hi⟩ := tc_exists h i e lim t c ht hc
  obtain ⟨-, -, hlen, off⟩ := Index.tc_spec e hi
  rw [Nat.mod_eq_of_lt (by omega : t < 2 ^ 16)]
  rw [← row_spec h i e lim set ks hks]
  have hcnt : countAll info.levels < 2 ^ 32 := lim.count _ _ _ hi
  simp only [hi, Option.bind_eq_bind, Option.bind_some, numPrecincts]
  by_cases hr : info.NL < r
  · have hl : info.levels[r]? = none := List.getElem?_eq_none (by omega)
    rw [if_pos hr]
    simp only [hl]
    have hd : delivered set i ks t c r = [] := by
      rw [List.eq_nil_iff_forall_not_mem]
      intro a ha
      obtain ⟨id, ⟨info', l, g1, g2, -⟩, -⟩ := ((delivered_spec h i e lim set ks hks t c r).2 a).1 ha
      simp only at g1 g2
      rw [hi, Option.some.injEq] at g1
      subst g1
      rw [hl] at g2
      simp at g2
    rw [hd]
    rfl
  · have hlt : r < info.levels.length := by omega
    rw [if_neg hr]
    simp only [List.getElem?_eq_getElem hlt, Option.bind_some]
    have hg := (off hcnt).get (List.getElem?_eq_getElem hlt)
    rw [mul32, Nat.mod_eq_of_lt (by omega)]

theorem clientTiles_iff (h : MainHdr) (i : Index) (e : buildIndex h = some i) (lim : Limits i) (set : DataBinSet)
    (ks : List (Nat × Nat)) (hks : KeysOf set i ks) (ts : List Nat) (hts : ∀ t ∈ ts, t < i.nT) (pre out : List UInt8) :
    clientTiles set i ks ts pre = some (out, .ok) ↔
      (∀ t ∈ ts, (set.get kMsgClassTileHeader t).length + (clientSpec set i t).length + 14 < 2 ^ 32) ∧
      out = pre ++ ts.flatMap (fun t => wirePart t (set.get kMsgClassTileHeader t) (clientSpec set i t)) ++ be16 mEOC := by
  induction ts generalizing pre with
  | nil =>
    rw [clientTiles, putU16_eq]
    constructor
    · intro h
      cases h
      exact ⟨by simp, by simp⟩
    · rintro ⟨-, rfl⟩
      simp
  | cons t ts ih =>
    have ih := fun pre => ih (fun x hx => hts x (List.mem_cons_of_mem _ hx)) pre
    have ht := hts t (by simp)
    have hnT := nT_eq lim
    have := lim.tiles
    rw [clientTiles, clientBody_eq h i e lim set ks hks t ht]
    simp only [Option.bind_eq_bind, Option.bind_some]
    rw [tilePartOut_eq _ _ _ (by omega)]
    simp only [List.mem_cons, forall_eq_or_imp, List.flatMap_cons]
    by_cases hl : (set.get kMsgClassTileHeader t).length + (clientSpec set i t).length + 14 < 2 ^ 32
    · rw [if_pos hl]
      simp only
      rw [ih, and_iff_right hl]
      simp
    · rw [if_neg hl]
      simp only [Option.some.injEq, Prod.mk.injEq, reduceCtorEq, and_false, false_iff]
      rintro ⟨⟨h, -⟩, -⟩
      exact hl h

/-- C41, client: reassembly succeeds exactly when there is a main header with a COD segment and every tile fits in Psot;
the output is the patched main header, one tile-part per tile with its declared length equal to its actual length, whose
packets in LRCP order are the delivered bins and an empty packet for each precinct that is absent; and EOC. -/
theorem C41_client_frame (h : MainHdr) (i : Index) (e : buildIndex h = some i) (lim : Limits i) (set : DataBinSet)
    (ks : List (Nat × Nat)) (hks : KeysOf set i ks) (out : List UInt8) :
    reassembleClient set i ks [] = some (out, .ok) ↔
      set.contains kMsgClassMainHeader 0 = true ∧ ∃ main, patchCod (set.get kMsgClassMainHeader 0) = some main ∧
        (∀ t < i.nT, (set.get kMsgClassTileHeader t).length + (clientSpec set i t).length + 14 < 2 ^ 32) ∧
        out = framed main i.nT (set.get kMsgClassTileHeader) (clientSpec set i) := by
  unfold reassembleClient
  by_cases hm : set.contains kMsgClassMainHeader 0 = false
  · rw [if_pos hm]
    simp [hm]
  · rw [if_neg hm]
    have hm' : set.contains kMsgClassMainHeader 0 = true := by simpa using hm
    cases hp : patchCod (set.get kMsgClassMainHeader 0) with
    | none => simp
    | some main =>
      simp only [List.nil_append, Option.some.injEq, exists_eq_left', hm', true_and]
      rw [clientTiles_iff h i e lim set ks hks _ (fun t ht => List.mem_range.1 ht)]
      simp only [List.mem_range, framed]

/-! ### The COD patch -/

/-- The patch never changes the length nor any byte but one. -/
theorem C41_patch_changes_one_byte (m p : List UInt8) (h : patchCod m = some p) :
    p.length = m.length ∧ ∃ k, k < m.length ∧ p[k]? = some 0 ∧ ∀ j, j ≠ k → p[j]? = m[j]? := by
  have key : ∀ f i, patchLoop m f i = some p → ∃ k, k < m.length ∧ p = m.set k 0 := by
    intro f
    induction f with
    | zero => intro i h; simp [patchLoop] at h
    | succ f ih =>
      intro i h
      rw [patchLoop] at h
      simp only at h
      split_ifs at h with h1 h2 h3 h4 h5
      · exact ih _ h
      · exact ih _ h
      · exact ⟨i + 5, by omega, by simpa using h.symm⟩
      · exact ih _ h
  obtain ⟨k, hk, rfl⟩ := key _ _ h
  refine ⟨by simp, k, hk, by simp [List.getElem?_set, hk], fun j hj => ?_⟩
  rw [List.getElem?_set_ne (Ne.symm hj)]

theorem getD_at (a b : List UInt8) (x d : UInt8) (n : Nat) (h : n = a.length) : (a ++ x :: b).getD n d = x := by
  subst h; simp

theorem u8_eq (n : Nat) (h : n < 256) (k : Nat) (hk : k < 256) : UInt8.ofNat n = UInt8.ofNat k ↔ n = k := by
  constructor
  · intro he
    have := congrArg UInt8.toNat he
    simpa [UInt8.toNat_ofNat', Nat.mod_eq_of_lt h, Nat.mod_eq_of_lt hk] using this
  · rintro rfl; rfl

/-- A marker code FFxx. -/
def IsMarker (c : Nat) : Prop := 0xFF00 ≤ c ∧ c < 0x10000

theorem patch_segs (segs : List Seg) (hs : ∀ s ∈ segs, IsMarker s.code ∧ s.code ≠ 0xFF4F ∧ s.code ≠ 0xFF52 ∧ s.body.length + 2 < 65536)
    (cod : List UInt8) (scod po x : UInt8) (lcod : Nat) (rest : List UInt8) : ∀ (pre : List UInt8) (f : Nat),
    segs.length < f →
    patchLoop (pre ++ (segs.flatMap Seg.bytes ++ (be16 0xFF52 ++ be16 lcod ++ scod :: po :: x :: rest))) f pre.length =
      some (pre ++ (segs.flatMap Seg.bytes ++ (be16 0xFF52 ++ be16 lcod ++ scod :: 0 :: x :: rest))) := by
  induction segs with
  | nil =>
    intro pre f hf
    obtain ⟨f, rfl⟩ : ∃ g, f = g + 1 := ⟨f - 1, by simp at hf; omega⟩
    rw [patchLoop]
    simp only [List.flatMap_nil, List.nil_append, be16, List.cons_append]
    rw [if_pos (by simp)]
    rw [getD_at _ _ _ _ _ rfl]
    rw [if_neg (by decide)]
    have e1 : ∀ l : List UInt8, (pre ++ UInt8.ofNat (0xFF52 / 256) :: UInt8.ofNat (0xFF52 % 256) :: l).getD (pre.length + 1) 0 =
        UInt8.ofNat (0xFF52 % 256) := by
      intro l
      rw [show ∀ y : UInt8, pre ++ y :: UInt8.ofNat (0xFF52 % 256) :: l = (pre ++ [y]) ++ UInt8.ofNat (0xFF52 % 256) :: l by simp]
      exact getD_at _ _ _ _ _ (by simp)
    rw [e1, if_neg (by decide)]
    rw [if_pos (by decide)]
    congr 1
    rw [List.set_append_right _ _ (by omega), show pre.length + 5 - pre.length = 5 by omega]
    rfl
  | cons s segs ih =>
    intro pre f hf
    obtain ⟨f, rfl⟩ : ∃ g, f = g + 1 := ⟨f - 1, by simp at hf; omega⟩
    obtain ⟨⟨m1, m2⟩, n1, n2, n3⟩ := hs s (by simp)
    have ih := ih (fun s hs' => hs s (List.mem_cons_of_mem _ hs')) (pre ++ s.bytes) f (by simp at hf; omega)
    have hb : s.bytes = UInt8.ofNat (s.code / 256) :: UInt8.ofNat (s.code % 256) ::
        UInt8.ofNat ((s.body.length + 2) / 256) :: UInt8.ofNat ((s.body.length + 2) % 256) :: s.body := rfl
    have hbl : s.bytes.length = s.body.length + 4 := by rw [hb]; simp
    set tl := segs.flatMap Seg.bytes ++ (be16 0xFF52 ++ be16 lcod ++ scod :: po :: x :: rest) with htl
    have htll : 7 ≤ tl.length := by rw [htl]; simp [be16_length]; omega
    rw [List.flatMap_cons, List.append_assoc, patchLoop]
    rw [← htl]
    have hlen : (pre ++ (s.bytes ++ tl)).length = pre.length + (s.body.length + 4) + tl.length := by simp [hbl]; omega
    rw [hlen, if_pos (by omega)]
    have g : ∀ k v, s.bytes[k]? = some v → (pre ++ (s.bytes ++ tl)).getD (pre.length + k) 0 = v := by
      intro k v hk
      have hk' : k < s.bytes.length := by
        by_contra hc
        rw [List.getElem?_eq_none (by omega)] at hk
        simp at hk
      rw [List.getD_eq_getElem?_getD, List.getElem?_append_right (by omega), Nat.add_sub_cancel_left,
        List.getElem?_append_left hk', hk]
      rfl
    have g0 := g 0 _ (by rw [hb]; rfl)
    rw [Nat.add_zero] at g0
    rw [g0, g 1 _ (by rw [hb]; rfl), g 2 _ (by rw [hb]; rfl), g 3 _ (by rw [hb]; rfl)]
    have q : s.code / 256 = 255 := by omega
    rw [if_neg (by rw [q]; decide)]
    rw [if_neg (by rw [show (0x4F : UInt8) = UInt8.ofNat 0x4F from rfl, u8_eq _ (by omega) _ (by omega)]; omega)]
    simp only
    rw [if_neg (by rw [show (0x52 : UInt8) = UInt8.ofNat 0x52 from rfl, u8_eq _ (by omega) _ (by omega)]; omega)]
    have el : (UInt8.ofNat ((s.body.length + 2) / 256)).toNat * 256 + (UInt8.ofNat ((s.body.length + 2) % 256)).toNat =
        s.body.length + 2 := by
      rw [UInt8.toNat_ofNat', UInt8.toNat_ofNat', Nat.mod_eq_of_lt (by omega), Nat.mod_eq_of_lt (by omega)]
      omega
    rw [el, if_neg (by omega)]
    rw [show pre.length + 2 + (s.body.length + 2) = (pre ++ s.bytes).length by rw [List.length_append, hbl]; omega]
    rw [← List.append_assoc, ih]
    simp

/-- C41: in a main header made of SOC and marker segments the patch sets the progression byte of the first COD segment to
LRCP (0) and changes nothing else. -/
theorem C41_patch_sets_progression (segs : List Seg)
    (hs : ∀ s ∈ segs, IsMarker s.code ∧ s.code ≠ 0xFF4F ∧ s.code ≠ 0xFF52 ∧ s.body.length + 2 < 65536)
    (lcod : Nat) (scod po x : UInt8) (rest : List UInt8) :
    patchCod (be16 mSOC ++ segs.flatMap Seg.bytes ++ be16 0xFF52 ++ be16 lcod ++ scod :: po :: x :: rest) =
      some (be16 mSOC ++ segs.flatMap Seg.bytes ++ be16 0xFF52 ++ be16 lcod ++ scod :: 0 :: x :: rest) := by
  have hl : segs.length ≤ (segs.flatMap Seg.bytes).length := by
    clear hs
    induction segs with
    | nil => simp
    | cons s segs ih => simp [Seg.bytes, be16_length] at ih ⊢; omega
  have key := patch_segs segs hs [] scod po x lcod rest (be16 mSOC)
    (be16 mSOC ++ (segs.flatMap Seg.bytes ++ (be16 0xFF52 ++ be16 lcod ++ scod :: po :: x :: rest))).length
    (by rw [List.length_append, List.length_append, be16_length]; omega)
  have hassoc : ∀ l : List UInt8, be16 mSOC ++ segs.flatMap Seg.bytes ++ be16 0xFF52 ++ be16 lcod ++ l =
      be16 mSOC ++ (segs.flatMap Seg.bytes ++ (be16 0xFF52 ++ be16 lcod ++ l)) := by intro l; simp
  rw [hassoc, hassoc, patchCod, ← key, patchLoop]
  rw [if_pos (by simp [be16_length]; omega)]
  rw [show be16 mSOC = [0xFF, 0x4F] from rfl]
  rw [if_neg (by simp), if_pos (by simp)]
  rfl

/-! ### Concrete cases -/

/-- Two tiles, one with one precinct and one with two; the second precinct of the second tile has not been delivered. -/
def someBins (last : Option Entry) : DataBinSet where
  bins c id :=
    if c = kMsgClassMainHeader ∧ id = 0 then
      some ⟨be16 mSOC ++ (Seg.mk 0xFF64 [1, 2]).bytes ++ (Seg.mk 0xFF52 [0, 2, 0, 1, 0]).bytes, true⟩
    else if c = kMsgClassTileHeader ∧ id < 2 then some ⟨(Seg.mk 0xFF64 [9]).bytes, true⟩
    else if c = kMsgClassPrecinct ∧ id = 0 then some ⟨[0x80, 1, 2], true⟩
    else if c = kMsgClassPrecinct ∧ id = 1 then last
    else if c = kMsgClassPrecinct ∧ id = 3 then some ⟨[0x90, 7], true⟩
    else none

/-- RPCL, as the server-side path needs. -/
def hdrRpcl : MainHdr := { hdrTwoTiles with prog := 2 }

def twoTilesOrder (t : Nat) : List Key := if t = 0 then [⟨0, 0, 0, 0⟩] else [⟨1, 0, 0, 0⟩, ⟨1, 0, 0, 1⟩]

/-- The server-side path: the absent precinct is one zero byte, and the tile lengths are 22. -/
example : ((buildIndex hdrRpcl).bind fun i => reassembleServer (someBins none) i twoTilesOrder []) =
    some (be16 mSOC ++ (Seg.mk 0xFF64 [1, 2]).bytes ++ (Seg.mk 0xFF52 [0, 2, 0, 1, 0]).bytes ++
      wirePart 0 (Seg.mk 0xFF64 [9]).bytes [0x80, 1, 2] ++ wirePart 1 (Seg.mk 0xFF64 [9]).bytes [0, 0x90, 7] ++
      be16 mEOC, .ok) := by decide +kernel

/-- The client path, with the keys in another order. -/
example : ((buildIndex hdrRpcl).bind fun i => reassembleClient (someBins none) i [(0, 3), (0, 0), (6, 0), (2, 1), (2, 0)] []) =
    some (be16 mSOC ++ (Seg.mk 0xFF64 [1, 2]).bytes ++ (Seg.mk 0xFF52 [0, 0, 0, 1, 0]).bytes ++
      wirePart 0 (Seg.mk 0xFF64 [9]).bytes [0x80, 1, 2] ++ wirePart 1 (Seg.mk 0xFF64 [9]).bytes [0, 0x90, 7] ++
      be16 mEOC, .ok) := by decide +kernel

/-- Where the packets of the three precincts are in the codestream below. -/
def twoTilesPackets (k : Key) : List (Nat × Nat) :=
  if k.t = 0 then [(36, 3)] else if k.p = 0 then [(58, 1)] else [(59, 2)]

/-- The hypotheses of C46 hold for a codestream with two tiles, three precincts and segments in all headers. -/
example : ∃ i lay, buildIndex hdrRpcl = some i ∧
    walk (framed (be16 mSOC ++ [Seg.mk 0xFF64 [1, 2], Seg.mk 0xFF52 [0, 2, 0, 1, 0]].flatMap Seg.bytes) i.nT
      (fun _ => [Seg.mk 0xFF64 [9]].flatMap Seg.bytes) (fun t => if t = 0 then [0x80, 1, 2] else [0, 0x90, 7])) =
        some (some lay) ∧
    let d := framed (be16 mSOC ++ [Seg.mk 0xFF64 [1, 2], Seg.mk 0xFF52 [0, 2, 0, 1, 0]].flatMap Seg.bytes) i.nT
      (fun _ => [Seg.mk 0xFF64 [9]].flatMap Seg.bytes) (fun t => if t = 0 then [0x80, 1, 2] else [0, 0x90, 7])
    Located d lay i.nT twoTilesOrder twoTilesPackets ∧
    HoldsAll (someBins (some ⟨[0], true⟩)) i d lay twoTilesOrder twoTilesPackets := by
  obtain ⟨i, hi⟩ : ∃ i, buildIndex hdrRpcl = some i := Option.isSome_iff_exists.1 (by decide +kernel)
  have hn : i.nT = 2 := by
    have : (buildIndex hdrRpcl).map Index.nT = some 2 := by decide +kernel
    rw [hi] at this
    simpa using this
  have hI : i.I ⟨0, 0, 0, 0⟩ = some 0 ∧ i.I ⟨1, 0, 0, 0⟩ = some 1 ∧ i.I ⟨1, 0, 0, 1⟩ = some 3 := by
    have : (buildIndex hdrRpcl).map (fun i => (i.I ⟨0, 0, 0, 0⟩, i.I ⟨1, 0, 0, 0⟩, i.I ⟨1, 0, 0, 1⟩)) =
        some (some 0, some 1, some 3) := by decide +kernel
    rw [hi] at this
    simpa using this
  refine ⟨i, ⟨0, 17, 61, [⟨17, 34, 36, 39, 0, 0, 1⟩, ⟨39, 56, 58, 61, 1, 0, 1⟩]⟩, hi, ?_⟩
  rw [hn]
  refine ⟨by decide +kernel, ?_⟩
  dsimp only
  constructor
  · unfold Located
    decide +kernel
  · refine ⟨⟨_, rfl, by decide +kernel⟩, ?_, ?_⟩
    · intro t ht
      rw [hn] at ht
      interval_cases t
      · exact ⟨_, rfl, by decide +kernel⟩
      · exact ⟨_, rfl, by decide +kernel⟩
    · intro t ht k hk
      rw [hn] at ht
      interval_cases t
      · simp only [twoTilesOrder, if_true, List.mem_singleton] at hk
        subst hk
        exact ⟨_, _, hI.1, rfl, by decide +kernel⟩
      · simp only [twoTilesOrder, List.mem_cons, List.not_mem_nil, or_false, show (1 : Nat) ≠ 0 by decide, if_false] at hk
        rcases hk with rfl | rfl
        · exact ⟨_, _, hI.2.1, rfl, by decide +kernel⟩
        · exact ⟨_, _, hI.2.2, rfl, by decide +kernel⟩

/-- A bin that exists but holds nothing (as a rejected append leaves behind) counts as present: no empty packet is
written and the packets after it move up. -/
theorem C41_empty_bin_shifts_packets :
    ((buildIndex hdrRpcl).bind fun i => reassembleServer (someBins (some ⟨[], false⟩)) i twoTilesOrder []) =
    some (be16 mSOC ++ (Seg.mk 0xFF64 [1, 2]).bytes ++ (Seg.mk 0xFF52 [0, 2, 0, 1, 0]).bytes ++
      wirePart 0 (Seg.mk 0xFF64 [9]).bytes [0x80, 1, 2] ++ wirePart 1 (Seg.mk 0xFF64 [9]).bytes [0x90, 7] ++
      be16 mEOC, .ok) := by decide +kernel

/-- With two layers the client writes the whole bin (both packets) once for each layer. -/
theorem C41_client_repeats_bin_per_layer :
    ((buildIndex { hdrRpcl with layers := 2 }).map fun i => clientBody (someBins none) i [(0, 0)] 0) =
      some (some [0x80, 1, 2, 0x80, 1, 2]) := by decide +kernel

end Verif.Jpip
