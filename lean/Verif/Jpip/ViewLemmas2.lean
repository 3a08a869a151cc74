import Verif.Jpip.ViewLemmas
import Verif.Jpip.PropsIndex
/-
Lemmas about the list of precincts a view window resolves to.
-/
namespace Verif.Jpip

/-! ## Concatenations -/

theorem mapM_mem {α β : Type} {f : α → Option β} : ∀ {l : List α} {r : List β}, l.mapM f = some r →
    ∀ b, b ∈ r ↔ ∃ a ∈ l, f a = some b
  | [], r, h, b => by
    simp only [List.mapM_nil, Option.pure_def, Option.some.injEq] at h
    subst h
    simp
  | a :: l, r, h, b => by
    simp only [List.mapM_cons, Option.bind_eq_bind, Option.bind_eq_some_iff, Option.pure_def,
      Option.some.injEq] at h
    obtain ⟨b0, h0, r', h1, rfl⟩ := h
    simp only [List.mem_cons, mapM_mem h1 b, exists_eq_or_imp, h0, Option.some.injEq]
    constructor
    · rintro (rfl | h)
      · exact Or.inl rfl
      · exact Or.inr h
    · rintro (h | h)
      · exact Or.inl h.symm
      · exact Or.inr h

theorem concatM_mem {α β : Type} {f : α → Option (List β)} {l : List α} {out : List β} (h : concatM l f = some out)
    (k : β) : k ∈ out ↔ ∃ a ∈ l, ∃ ys, f a = some ys ∧ k ∈ ys := by
  unfold concatM at h
  rw [Option.map_eq_some_iff] at h
  obtain ⟨ls, h1, rfl⟩ := h
  rw [List.mem_flatten]
  constructor
  · rintro ⟨ys, h2, h3⟩
    obtain ⟨a, h4, h5⟩ := (mapM_mem h1 ys).1 h2
    exact ⟨a, h4, ys, h5, h3⟩
  · rintro ⟨a, h4, ys, h5, h3⟩
    exact ⟨ys, (mapM_mem h1 ys).2 ⟨a, h4, h5⟩, h3⟩

theorem concatM_total {α β : Type} {f : α → Option (List β)} {l : List α} (h : ∀ a ∈ l, ∃ b, f a = some b) :
    ∃ out, concatM l f = some out := by
  obtain ⟨r, hr⟩ := mapM_total h
  exact ⟨r.flatten, by simp [concatM, hr]⟩

theorem concatM_pairwise {α β : Type} {f : α → Option (List β)} {S : α → α → Prop} {R : β → β → Prop} :
    ∀ {l : List α} {out : List β}, concatM l f = some out → l.Pairwise S →
      (∀ a ∈ l, ∀ ys, f a = some ys → ys.Pairwise R) →
      (∀ a ∈ l, ∀ b ∈ l, S a b → ∀ ys zs, f a = some ys → f b = some zs → ∀ y ∈ ys, ∀ z ∈ zs, R y z) → out.Pairwise R
  | [], out, h, _, _, _ => by
    simp only [concatM, List.mapM_nil, Option.pure_def, Option.map_some, Option.some.injEq] at h
    subst h
    simp
  | a :: l, out, h, hp, hin, hx => by
    unfold concatM at h
    simp only [List.mapM_cons, Option.bind_eq_bind, Option.pure_def, Option.map_eq_some_iff,
      Option.bind_eq_some_iff, Option.some.injEq] at h
    obtain ⟨ls, ⟨b0, h0, r', h1, rfl⟩, rfl⟩ := h
    rw [List.pairwise_cons] at hp
    rw [List.flatten_cons, List.pairwise_append]
    have hc : concatM l f = some r'.flatten := by simp [concatM, h1]
    refine ⟨hin a (by simp) b0 h0, concatM_pairwise hc hp.2 (fun b hb => hin b (by simp [hb]))
      (fun b hb c hc => hx b (by simp [hb]) c (by simp [hc])), fun y hy z hz => ?_⟩
    obtain ⟨b, hb, zs, h2, h3⟩ := (concatM_mem hc z).1 hz
    exact hx a (by simp) b (by simp [hb]) (hp.1 b hb) b0 zs h0 h2 y hy z h3

theorem mem_between {lo hi x : Nat} : x ∈ between lo hi ↔ lo ≤ x ∧ x < hi := by
  unfold between
  rw [List.mem_range'_1]
  omega

theorem between_sorted (lo hi : Nat) : (between lo hi).Pairwise (· < ·) := List.pairwise_lt_range'

/-! ## Legal images -/

/-- What is known about an image in the proofs below. -/
structure Img (h : MainHdr) (i : Index) : Prop where
  lg : Legal h
  eh : i.hdr = h
  ntx : i.ntx = cdiv (h.xsiz - h.xtosiz) h.xtsiz
  nty : i.nty = cdiv (h.ysiz - h.ytosiz) h.ytsiz
  tiles : i.ntx * i.nty ≤ 65535
  count : ∀ t c info, i.tc t c = some info → countAll info.levels < 2 ^ 32
  tcs : ∀ tx ty c cp, tx < i.ntx → ty < i.nty → h.comps[c]? = some cp → ∃ info, i.tc (ty * i.ntx + tx) c = some info ∧
    info.NL = cp.NL ∧ info.levels.length = cp.NL + 1 ∧
    ∀ (r : Nat) (l : Level), info.levels[r]? = some l → LevelOk cp (tileX h tx) (tileY h ty) r l

theorem tile_lt {nx ny tx ty : Nat} (hx : tx < nx) (hy : ty < ny) : ty * nx + tx < nx * ny := by
  have : (ty + 1) * nx ≤ ny * nx := Nat.mul_le_mul_right _ hy
  rw [Nat.succ_mul, Nat.mul_comm ny] at this
  omega

theorem img_of {h : MainHdr} (lg : Legal h) {i : Index} (e : buildIndex h = some i) (lim : Limits i) : Img h i := by
  obtain ⟨i', e', h1, h2, h3, h4, h5⟩ := buildIndex_ok lg
  rw [e, Option.some.injEq] at e'
  subst e'
  refine ⟨lg, h1, h2, h3, lim.tiles, fun t c info hh => lim.count t c info hh, fun tx ty c cp hx hy hcp => ?_⟩
  have ht := tile_lt hx hy
  have hcl : c < h.comps.length := by
    by_contra hge
    rw [List.getElem?_eq_none (by omega)] at hcp
    simp at hcp
  obtain ⟨row, r1, r2, r3⟩ := h5 _ ht
  obtain ⟨info, r4, r5, r6, r7⟩ := r3 c cp hcp
  refine ⟨info, ?_, r5, r6, fun r l hl => ?_⟩
  · unfold Index.tc
    have hn : i.nT = i.ntx * i.nty := nT_eq lim
    have hc : i.nC = h.comps.length := by rw [Index.nC, h1]
    rw [if_neg (by omega), r1, Option.bind_some, r4]
  · have := r7 r l hl
    have e1 : (ty * i.ntx + tx) % i.ntx = tx := by rw [Nat.mul_comm, Nat.mul_add_mod, Nat.mod_eq_of_lt hx]
    have e2 : (ty * i.ntx + tx) / i.ntx = ty := by
      rw [Nat.mul_comm, Nat.mul_add_div (by omega), Nat.div_eq_of_lt hx, Nat.add_zero]
    rwa [e1, e2] at this

/-! ## One direction -/

theorem precAxis_eq {a b above m lpp r0 n : Nat} (hb : b < 2 ^ 31) (ha : above ≤ 31) (hm : m ≤ 8) (hp : lpp ≤ 15) :
    precAxis a b above m lpp r0 n = some ((a / 2 ^ above - m) / 2 ^ lpp - r0 / 2 ^ lpp,
      min n (cdiv (cdiv b (2 ^ above) + m) (2 ^ lpp) - r0 / 2 ^ lpp)) := by
  have p1 : 0 < 2 ^ above := Nat.two_pow_pos _
  have p2 : 0 < 2 ^ lpp := Nat.two_pow_pos _
  have l1 : 2 ^ above ≤ 2 ^ 31 := two_pow_le ha
  have l2 : 2 ^ lpp ≤ 2 ^ 15 := two_pow_le hp
  have l3 := cdiv_le_self (a := b) p1
  simp only [precAxis, shl1_eq (show above < 32 by omega), shl1_eq (show lpp < 32 by omega), Option.bind_eq_bind,
    Option.bind_some, Option.pure_def, ceilDiv32_eq p1 (show b + 2 ^ above ≤ 2 ^ 32 by omega)]
  have e : add32 (cdiv b (2 ^ above)) m = cdiv b (2 ^ above) + m := Nat.mod_eq_of_lt (by omega)
  rw [e, ceilDiv32_eq p2 (by omega), Option.bind_some]

theorem dwtMargin_le (irr : Bool) (d : Nat) : dwtMargin irr d ≤ 8 := by
  unfold dwtMargin
  cases irr <;> simp <;> split_ifs <;> omega

/-- A coordinate `u` of the resolution close to a coordinate `x` of the component is in a precinct of the range. -/
theorem precAxis_covers {a b x u d m pp : Nat} {s : Nat × Nat} (hax : a ≤ x) (hxb : x < b) (h1 : x / 2 ^ d ≤ u + m)
    (h2 : u ≤ x / 2 ^ d + m) (hs1 : s.1 ≤ u) (hs2 : u < s.2) :
    (a / 2 ^ d - m) / 2 ^ pp - s.1 / 2 ^ pp ≤ precOf s pp u ∧
      precOf s pp u < min (numPrec s pp) (cdiv (cdiv b (2 ^ d) + m) (2 ^ pp) - s.1 / 2 ^ pp) := by
  have p1 : 0 < 2 ^ d := Nat.two_pow_pos _
  have p2 : 0 < 2 ^ pp := Nat.two_pow_pos _
  have q1 : a / 2 ^ d ≤ x / 2 ^ d := Nat.div_le_div_right hax
  have q2 : x / 2 ^ d < cdiv b (2 ^ d) := by
    rw [lt_cdiv p1]
    have := Nat.div_mul_le_self x (2 ^ d)
    omega
  have q3 : (a / 2 ^ d - m) / 2 ^ pp ≤ u / 2 ^ pp := Nat.div_le_div_right (by omega)
  have q4 : u / 2 ^ pp < cdiv (cdiv b (2 ^ d) + m) (2 ^ pp) := by
    rw [lt_cdiv p2]
    have := Nat.div_mul_le_self u (2 ^ pp)
    omega
  have q5 : s.1 / 2 ^ pp ≤ u / 2 ^ pp := Nat.div_le_div_right hs1
  have q6 : u / 2 ^ pp < cdiv s.2 (2 ^ pp) := by
    rw [lt_cdiv p2]
    have := Nat.div_mul_le_self u (2 ^ pp)
    omega
  unfold precOf numPrec
  rw [if_pos (by omega)]
  omega

/-! ## One resolution -/

/-- The four ways two keys of the resolver's loops can be ordered; `S` orders the components. -/
structure KeyRel (S : Nat → Nat → Prop) (R : Key → Key → Prop) : Prop where
  t : ∀ a b : Key, a.t < b.t → R a b
  c : ∀ a b : Key, a.t = b.t → S a.c b.c → R a b
  r : ∀ a b : Key, a.t = b.t → a.c = b.c → a.r < b.r → R a b
  p : ∀ a b : Key, a.t = b.t → a.c = b.c → a.r = b.r → a.p < b.p → R a b

theorem grid_lt {npw nph x y : Nat} (hx : x < npw) (hy : y < nph) : y * npw + x < npw * nph := by
  have : (y + 1) * npw ≤ nph * npw := Nat.mul_le_mul_right _ hy
  rw [Nat.succ_mul, Nat.mul_comm nph] at this
  omega

theorem grid_order {npw x y x' y' : Nat} (hx : x < npw) (h : y < y') : y * npw + x < y' * npw + x' := by
  have : (y + 1) * npw ≤ y' * npw := Nat.mul_le_mul_right _ h
  rw [Nat.succ_mul] at this
  omega

theorem levelKeys_spec {h : MainHdr} {i : Index} (im : Img h i) {tx ty c r ax bx ay b_y : Nat} {cp : CompHdr} (hx : tx < i.ntx)
    (hy : ty < i.nty) (hcp : h.comps[c]? = some cp) {info : TcInfo} (htc : i.tc (ty * i.ntx + tx) c = some info)
    (hr : r ≤ cp.NL) (hbx : bx < 2 ^ 31) (hby : b_y < 2 ^ 31) :
    ∃ out, levelKeys h.irreversible (ty * i.ntx + tx) c info ax bx ay b_y r = some out ∧
      (∀ k ∈ out, k.t = ty * i.ntx + tx ∧ k.c = c ∧ k.r = r ∧ IsPrecinct i k) ∧
      (∀ S R, KeyRel S R → out.Pairwise R) ∧
      ∀ x y u v, ax ≤ x → x < bx → ay ≤ y → y < b_y →
        x / 2 ^ (cp.NL - r) ≤ u + dwtMargin h.irreversible (cp.NL - r) →
        u ≤ x / 2 ^ (cp.NL - r) + dwtMargin h.irreversible (cp.NL - r) →
        y / 2 ^ (cp.NL - r) ≤ v + dwtMargin h.irreversible (cp.NL - r) →
        v ≤ y / 2 ^ (cp.NL - r) + dwtMargin h.irreversible (cp.NL - r) →
        (resSpan (tileX h tx) cp.subX (cp.NL - r)).1 ≤ u → u < (resSpan (tileX h tx) cp.subX (cp.NL - r)).2 →
        (resSpan (tileY h ty) cp.subY (cp.NL - r)).1 ≤ v → v < (resSpan (tileY h ty) cp.subY (cp.NL - r)).2 →
        (⟨ty * i.ntx + tx, c, r, precOf (resSpan (tileY h ty) cp.subY (cp.NL - r)) (cp.ppy r) v *
          numPrec (resSpan (tileX h tx) cp.subX (cp.NL - r)) (cp.ppx r) +
          precOf (resSpan (tileX h tx) cp.subX (cp.NL - r)) (cp.ppx r) u⟩ : Key) ∈ out := by
  obtain ⟨info', t1, t2, t3, t4⟩ := im.tcs tx ty c cp hx hy hcp
  rw [htc, Option.some.injEq] at t1
  subst t1
  obtain ⟨c1, c2, c3, c4, c5, c6⟩ := im.lg.comps cp (List.mem_of_getElem? hcp)
  obtain ⟨l, hl⟩ : ∃ l, info.levels[r]? = some l := ⟨info.levels[r]'(by omega), List.getElem?_eq_getElem _⟩
  obtain ⟨o1, o2, o3, o4, o5, o6⟩ := t4 r l hl
  have hm := dwtMargin_le h.irreversible (cp.NL - r)
  have hcnt := im.count _ _ _ htc
  have hle : l.npw * l.nph ≤ countAll info.levels :=
    List.single_le_sum (by simp) _ (List.mem_map.2 ⟨l, List.mem_of_getElem? hl, rfl⟩)
  have ex := precAxis_eq (a := ax) (r0 := l.rx0) (n := l.npw) hbx (show cp.NL - r ≤ 31 by omega) hm (c6 r).1
  have ey := precAxis_eq (a := ay) (r0 := l.ry0) (n := l.nph) hby (show cp.NL - r ≤ 31 by omega) hm (c6 r).2
  have eq1 : levelKeys h.irreversible (ty * i.ntx + tx) c info ax bx ay b_y r = some
      ((between ((ay / 2 ^ (cp.NL - r) - dwtMargin h.irreversible (cp.NL - r)) / 2 ^ cp.ppy r - l.ry0 / 2 ^ cp.ppy r)
          (min l.nph (cdiv (cdiv b_y (2 ^ (cp.NL - r)) + dwtMargin h.irreversible (cp.NL - r)) (2 ^ cp.ppy r) - l.ry0 / 2 ^ cp.ppy r))).flatMap
        fun y => (between ((ax / 2 ^ (cp.NL - r) - dwtMargin h.irreversible (cp.NL - r)) / 2 ^ cp.ppx r - l.rx0 / 2 ^ cp.ppx r)
          (min l.npw (cdiv (cdiv bx (2 ^ (cp.NL - r)) + dwtMargin h.irreversible (cp.NL - r)) (2 ^ cp.ppx r) - l.rx0 / 2 ^ cp.ppx r))).map
          fun x => (⟨ty * i.ntx + tx, c, r, (y * l.npw + x) % 2 ^ 32⟩ : Key)) := by
    simp only [levelKeys, hl, t2, o3, o4, Option.bind_eq_bind, Option.bind_some, ex, ey, Option.pure_def]
  refine ⟨_, eq1, fun k hk => ?_, fun S R hR => ?_, fun x y u v a1 a2 a3 a4 b1 b2 b3 b4 s1 s2 s3 s4 => ?_⟩
  · rw [List.mem_flatMap] at hk
    obtain ⟨y, hy', hk⟩ := hk
    obtain ⟨x, hx', rfl⟩ := List.mem_map.1 hk
    rw [mem_between] at hx' hy'
    have hg := grid_lt (show x < l.npw by omega) (show y < l.nph by omega)
    refine ⟨rfl, rfl, rfl, info, l, htc, hl, ?_⟩
    simp only []
    rw [Nat.mod_eq_of_lt (by omega)]
    exact hg
  · rw [List.pairwise_flatMap]
    refine ⟨fun y hy' => ?_, (between_sorted _ _).imp_of_mem fun {y y'} hy1 hy2 hlt k hk k' hk' => ?_⟩
    · rw [List.pairwise_map]
      refine (between_sorted _ _).imp_of_mem fun {x x'} hx1 hx2 hlt => hR.p _ _ rfl rfl rfl ?_
      rw [mem_between] at hy' hx1 hx2
      have g1 := grid_lt (show x < l.npw by omega) (show y < l.nph by omega)
      have g2 := grid_lt (show x' < l.npw by omega) (show y < l.nph by omega)
      simp only []
      rw [Nat.mod_eq_of_lt (by omega), Nat.mod_eq_of_lt (by omega)]
      omega
    · obtain ⟨x, hx1, rfl⟩ := List.mem_map.1 hk
      obtain ⟨x', hx2, rfl⟩ := List.mem_map.1 hk'
      rw [mem_between] at hy1 hy2 hx1 hx2
      have g1 := grid_lt (show x < l.npw by omega) (show y < l.nph by omega)
      have g2 := grid_lt (show x' < l.npw by omega) (show y' < l.nph by omega)
      have g3 := grid_order (x' := x') (show x < l.npw by omega) hlt
      refine hR.p _ _ rfl rfl rfl ?_
      simp only []
      rw [Nat.mod_eq_of_lt (by omega), Nat.mod_eq_of_lt (by omega)]
      exact g3
  · have cx := precAxis_covers (pp := cp.ppx r) a1 a2 b1 b2 s1 s2
    have cy := precAxis_covers (pp := cp.ppy r) a3 a4 b3 b4 s3 s4
    rw [← o1, ← o5] at cx
    rw [← o2, ← o6] at cy
    rw [List.mem_flatMap]
    refine ⟨precOf (resSpan (tileY h ty) cp.subY (cp.NL - r)) (cp.ppy r) v, mem_between.2 cy, ?_⟩
    rw [List.mem_map]
    refine ⟨precOf (resSpan (tileX h tx) cp.subX (cp.NL - r)) (cp.ppx r) u, mem_between.2 cx, ?_⟩
    have hg := grid_lt (show precOf (resSpan (tileX h tx) cp.subX (cp.NL - r)) (cp.ppx r) u < l.npw by omega)
      (show precOf (resSpan (tileY h ty) cp.subY (cp.NL - r)) (cp.ppy r) v < l.nph by omega)
    rw [Nat.mod_eq_of_lt (by omega), o1]

theorem dwtMargin_eq (irr : Bool) (d : Nat) : dwtMargin irr d = reach irr d := by
  unfold dwtMargin reach
  cases irr <;> simp

theorem compKeys_spec {h : MainHdr} {i : Index} (im : Img h i) {rstar tx ty c ax bx ay b_y : Nat} (hx : tx < i.ntx)
    (hy : ty < i.nty) (hbx : bx < 2 ^ 31) (hby : b_y < 2 ^ 31) (hax : ax ≤ bx) (hay : ay ≤ b_y) :
    ∃ out, compKeys i rstar (ty * i.ntx + tx) ax bx ay b_y c = some out ∧
      (∀ k ∈ out, k.t = ty * i.ntx + tx ∧ k.c = c ∧ IsPrecinct i k) ∧
      (∀ S R, KeyRel S R → out.Pairwise R) ∧
      ∀ cp, h.comps[c]? = some cp → ∀ r x y u v, (r = 0 ∨ r + rstar ≤ cp.NL) → r ≤ cp.NL →
        inSpan (ax, bx) (x * cp.subX) → inSpan (ay, b_y) (y * cp.subY) →
        Near h.irreversible (cp.NL - r) x u → Near h.irreversible (cp.NL - r) y v →
        inSpan (resSpan (tileX h tx) cp.subX (cp.NL - r)) u → inSpan (resSpan (tileY h ty) cp.subY (cp.NL - r)) v →
        precKey h i.ntx cp tx ty c r u v ∈ out := by
  unfold compKeys
  rw [im.eh]
  cases hcp : h.comps[c]? with
  | none => exact ⟨[], rfl, by simp, fun S R _ => List.Pairwise.nil, by simp⟩
  | some cp =>
    obtain ⟨c1, c2, c3, c4, c5, c6⟩ := im.lg.comps cp (List.mem_of_getElem? hcp)
    simp only [ceilDiv32_eq c1 (show ax + cp.subX ≤ 2 ^ 32 by omega), ceilDiv32_eq c1 (show bx + cp.subX ≤ 2 ^ 32 by omega),
      ceilDiv32_eq c3 (show ay + cp.subY ≤ 2 ^ 32 by omega), ceilDiv32_eq c3 (show b_y + cp.subY ≤ 2 ^ 32 by omega),
      Option.bind_eq_bind, Option.bind_some]
    have inx : ∀ x, inSpan (ax, bx) (x * cp.subX) → cdiv ax cp.subX ≤ x ∧ x < cdiv bx cp.subX := fun x hx' =>
      ⟨(cdiv_le c1).2 hx'.1, (lt_cdiv c1).2 hx'.2⟩
    have iny : ∀ y, inSpan (ay, b_y) (y * cp.subY) → cdiv ay cp.subY ≤ y ∧ y < cdiv b_y cp.subY := fun y hy' =>
      ⟨(cdiv_le c3).2 hy'.1, (lt_cdiv c3).2 hy'.2⟩
    by_cases hemp : cdiv bx cp.subX ≤ cdiv ax cp.subX ∨ cdiv b_y cp.subY ≤ cdiv ay cp.subY
    · rw [if_pos hemp]
      refine ⟨[], rfl, by simp, fun S R _ => List.Pairwise.nil, ?_⟩
      intro cp' e r x y u v _ _ h1 h2
      rw [Option.some.injEq] at e
      subst e
      have := inx x h1
      have := iny y h2
      omega
    · rw [if_neg hemp]
      obtain ⟨info, t1, t2, t3, t4⟩ := im.tcs tx ty c cp hx hy hcp
      rw [t1, Option.bind_some]
      have lx := cdiv_le_self (a := bx) c1
      have ly := cdiv_le_self (a := b_y) c3
      have hlev : ∀ r, r ≤ cp.NL → _ := fun r hr => levelKeys_spec (ax := cdiv ax cp.subX) (ay := cdiv ay cp.subY)
        im hx hy hcp t1 hr (show cdiv bx cp.subX < 2 ^ 31 by omega) (show cdiv b_y cp.subY < 2 ^ 31 by omega)
      obtain ⟨out, ho⟩ := concatM_total (l := List.range (info.NL - rstar + 1))
        (f := fun r => levelKeys h.irreversible (ty * i.ntx + tx) c info (cdiv ax cp.subX) (cdiv bx cp.subX)
          (cdiv ay cp.subY) (cdiv b_y cp.subY) r) (fun r hr => by
            rw [List.mem_range] at hr
            obtain ⟨o, e, -⟩ := hlev r (by omega)
            exact ⟨o, e⟩)
      refine ⟨out, ho, fun k hk => ?_, fun S R hR => ?_, fun cp' e r x y u v h0 hr h1 h2 n1 n2 s1 s2 => ?_⟩
      · obtain ⟨r, hr, ys, h1, h2⟩ := (concatM_mem ho k).1 hk
        rw [List.mem_range] at hr
        obtain ⟨o, e, g, -⟩ := hlev r (by omega)
        rw [h1, Option.some.injEq] at e
        subst e
        obtain ⟨g1, g2, -, g3⟩ := g k h2
        exact ⟨g1, g2, g3⟩
      · refine concatM_pairwise ho (S := (· < ·)) List.pairwise_lt_range ?_ ?_
        · intro r hr ys hys
          rw [List.mem_range] at hr
          obtain ⟨o, e, -, g, -⟩ := hlev r (by omega)
          rw [hys, Option.some.injEq] at e
          subst e
          exact g S R hR
        · intro r hr r' hr' hlt ys zs hys hzs y hy' z hz
          rw [List.mem_range] at hr hr'
          obtain ⟨o, e, g, -⟩ := hlev r (by omega)
          rw [hys, Option.some.injEq] at e
          subst e
          obtain ⟨o', e', g', -⟩ := hlev r' (by omega)
          rw [hzs, Option.some.injEq] at e'
          subst e'
          obtain ⟨a1, a2, a3, -⟩ := g y hy'
          obtain ⟨b1, b2, b3, -⟩ := g' z hz
          exact hR.r _ _ (by rw [a1, b1]) (by rw [a2, b2]) (by omega)
      · rw [Option.some.injEq] at e
        subst e
        obtain ⟨o, e, -, -, g⟩ := hlev r hr
        refine (concatM_mem ho _).2 ⟨r, by rw [List.mem_range]; omega, o, e, ?_⟩
        obtain ⟨i1, i2⟩ := inx x h1
        obtain ⟨i3, i4⟩ := iny y h2
        simp only [Near, ← dwtMargin_eq] at n1 n2
        exact g x y u v i1 i2 i3 i4 n1.1 n1.2 n2.1 n2.2 s1.1 s1.2 s2.1 s2.2

theorem tileKeys_spec {h : MainHdr} {i : Index} (im : Img h i) {rstar tx ty : Nat} {comps : List Nat} {rx ry : Nat × Nat}
    (hx : tx < i.ntx) (hy : ty < i.nty) :
    ∃ out, tileKeys i rstar comps rx ry ty tx = some out ∧
      (∀ k ∈ out, k.t = ty * i.ntx + tx ∧ k.c ∈ comps ∧ IsPrecinct i k) ∧
      (∀ S R, KeyRel S R → comps.Pairwise S → out.Pairwise R) ∧
      ∀ c cp, c ∈ comps → h.comps[c]? = some cp → ∀ r x y u v, (r = 0 ∨ r + rstar ≤ cp.NL) → r ≤ cp.NL →
        inSpan rx (x * cp.subX) → inSpan ry (y * cp.subY) → inSpan (tileX h tx) (x * cp.subX) →
        inSpan (tileY h ty) (y * cp.subY) →
        Near h.irreversible (cp.NL - r) x u → Near h.irreversible (cp.NL - r) y v →
        inSpan (resSpan (tileX h tx) cp.subX (cp.NL - r)) u → inSpan (resSpan (tileY h ty) cp.subY (cp.NL - r)) v →
        precKey h i.ntx cp tx ty c r u v ∈ out := by
  obtain ⟨x1, x2, x3, x4, x5, y1, y2, y3, y4, y5, hc⟩ := im.lg
  have hX := tile_in (org := h.xtosiz) (siz := h.xsiz) (show 0 < h.xtsiz by omega) (im.ntx ▸ hx)
  have hY := tile_in (org := h.ytosiz) (siz := h.ysiz) (show 0 < h.ytsiz by omega) (im.nty ▸ hy)
  obtain ⟨ex, bx1, bx2⟩ := tileSpan_eq hX x4 x5 x2 (by omega)
  obtain ⟨ey, by1, by2⟩ := tileSpan_eq hY y4 y5 y2 (by omega)
  have ht := tile_lt hx hy
  have htl := im.tiles
  have et : add32 (mul32 ty i.ntx) tx % 2 ^ 16 = ty * i.ntx + tx := by
    rw [show mul32 ty i.ntx = ty * i.ntx from Nat.mod_eq_of_lt (by omega),
      show add32 (ty * i.ntx) tx = ty * i.ntx + tx from Nat.mod_eq_of_lt (by omega), Nat.mod_eq_of_lt (by omega)]
  simp only [tileKeys, im.eh, et, ex, ey]
  have eX : spanSpec h.xtosiz h.xtsiz h.xosiz h.xsiz tx = tileX h tx := rfl
  have eY : spanSpec h.ytosiz h.ytsiz h.yosiz h.ysiz ty = tileY h ty := rfl
  rw [eX] at bx1 bx2 ⊢
  rw [eY] at by1 by2 ⊢
  by_cases hemp : min rx.2 (tileX h tx).2 ≤ max rx.1 (tileX h tx).1 ∨ min ry.2 (tileY h ty).2 ≤ max ry.1 (tileY h ty).1
  · rw [if_pos hemp]
    refine ⟨[], rfl, by simp, fun S R _ _ => List.Pairwise.nil, ?_⟩
    intro c cp _ _ r x y u v _ _ h1 h2 h3 h4
    simp only [inSpan] at h1 h2 h3 h4
    omega
  · rw [if_neg hemp]
    have hcomp : ∀ c, _ := fun c => compKeys_spec (rstar := rstar) (c := c) (ax := max rx.1 (tileX h tx).1)
      (bx := min rx.2 (tileX h tx).2) (ay := max ry.1 (tileY h ty).1) (b_y := min ry.2 (tileY h ty).2) im hx hy
      (by omega) (by omega) (by omega) (by omega)
    obtain ⟨out, ho⟩ := concatM_total (l := comps) (f := fun c => compKeys i rstar (ty * i.ntx + tx)
      (max rx.1 (tileX h tx).1) (min rx.2 (tileX h tx).2) (max ry.1 (tileY h ty).1) (min ry.2 (tileY h ty).2) c)
      (fun c _ => by obtain ⟨o, e, -⟩ := hcomp c; exact ⟨o, e⟩)
    refine ⟨out, ho, fun k hk => ?_, fun S R hR hS => ?_, fun c cp hmem hcp r x y u v h0 hr h1 h2 h3 h4 n1 n2 s1 s2 => ?_⟩
    · obtain ⟨c, hc', ys, h1, h2⟩ := (concatM_mem ho k).1 hk
      obtain ⟨o, e, g, -⟩ := hcomp c
      rw [h1, Option.some.injEq] at e
      subst e
      obtain ⟨g1, g2, g3⟩ := g k h2
      exact ⟨g1, g2 ▸ hc', g3⟩
    · refine concatM_pairwise ho hS ?_ ?_
      · intro c hc' ys hys
        obtain ⟨o, e, -, g, -⟩ := hcomp c
        rw [hys, Option.some.injEq] at e
        subst e
        exact g S R hR
      · intro c _ c' _ hlt ys zs hys hzs y hy' z hz
        obtain ⟨o, e, g, -⟩ := hcomp c
        rw [hys, Option.some.injEq] at e
        subst e
        obtain ⟨o', e', g', -⟩ := hcomp c'
        rw [hzs, Option.some.injEq] at e'
        subst e'
        obtain ⟨a1, a2, -⟩ := g y hy'
        obtain ⟨b1, b2, -⟩ := g' z hz
        exact hR.c _ _ (by rw [a1, b1]) (by rw [a2, b2]; exact hlt)
    · obtain ⟨o, e, -, -, g⟩ := hcomp c
      refine (concatM_mem ho _).2 ⟨c, hmem, o, e, ?_⟩
      refine g cp hcp r x y u v h0 hr ?_ ?_ n1 n2 s1 s2
      · simp only [inSpan] at *; omega
      · simp only [inSpan] at *; omega

/-! ## The whole request -/

theorem tileAxis_eq {a b org ts n : Nat} (ht : 0 < ts) (h1 : org ≤ b) (h2 : b < 2 ^ 31) (h3 : ts ≤ 2 ^ 31) :
    tileAxis a b org ts n = some ((a - org) / ts, min n (cdiv (b - org) ts)) := by
  simp only [tileAxis, sub32_eq h1 (by omega), ceilDiv32_eq ht (show b - org + ts ≤ 2 ^ 32 by omega), Option.bind_eq_bind,
    Option.bind_some, Option.pure_def]

/-- A point of the region that lies in tile column `k` has `k` in the range. -/
theorem tileAxis_covers {a b org ts o siz k X : Nat} (ht : 0 < ts) (h1 : a ≤ X) (h2 : X < b)
    (h3 : inSpan (spanSpec org ts o siz k) X) (ho : org ≤ o) : (a - org) / ts ≤ k ∧ k < cdiv (b - org) ts := by
  simp only [inSpan, spanSpec] at h3
  rw [lt_cdiv ht]
  refine ⟨?_, by omega⟩
  rw [← Nat.lt_succ_iff, Nat.div_lt_iff_lt_mul ht]
  rw [Nat.succ_eq_add_one]
  omega

theorem downLoop_le {f : Nat → Option (Nat × Nat)} {rx ry rmax : Nat} : ∀ n r q, n + r = rmax + 1 →
    downLoop f rx ry rmax n r = some q → q ≤ rmax
  | 0, r, q, _, h => by simp only [downLoop, Option.some.injEq] at h; omega
  | n + 1, r, q, hn, h => by
    simp only [downLoop, Option.bind_eq_bind, Option.bind_eq_some_iff] at h
    obtain ⟨s, -, h⟩ := h
    by_cases hc : s.1 ≤ rx ∧ s.2 ≤ ry
    · rw [if_pos hc, Option.some.injEq] at h; omega
    · rw [if_neg hc] at h
      exact downLoop_le n (r + 1) q (by omega) h

theorem upLoop_le {f : Nat → Option (Nat × Nat)} {rx ry : Nat} : ∀ n q, upLoop f rx ry n = some q → q ≤ n - 1
  | 0, q, h => by simp only [upLoop, Option.some.injEq] at h; omega
  | n + 1, q, h => by
    simp only [upLoop, Option.bind_eq_bind, Option.bind_eq_some_iff] at h
    obtain ⟨s, -, h⟩ := h
    by_cases hc : rx ≤ s.1 ∧ ry ≤ s.2
    · rw [if_pos hc, Option.some.injEq] at h; omega
    · rw [if_neg hc] at h
      have := upLoop_le n q h
      omega

theorem closestLoop_le {f : Nat → Option (Nat × Nat)} {T : Nat} : ∀ n r bd b q, b ≤ n + r - 1 →
    closestLoop f T n r bd b = some q → q ≤ n + r - 1
  | 0, r, bd, b, q, hb, h => by simp only [closestLoop, Option.some.injEq] at h; omega
  | n + 1, r, bd, b, q, hb, h => by
    simp only [closestLoop, Option.bind_eq_bind, Option.bind_eq_some_iff] at h
    obtain ⟨s, -, h⟩ := h
    by_cases hc : absDiff (s.1 * s.2) T < bd
    · rw [if_pos hc] at h
      have := closestLoop_le n (r + 1) _ _ q (by omega) h
      omega
    · rw [if_neg hc] at h
      have := closestLoop_le n (r + 1) _ _ q (by omega) h
      omega

theorem pickDiscard_le {i : Index} {vw : ViewWindow} {q : Nat} (h : pickDiscard i vw = some q) : q ≤ i.maxNL := by
  unfold pickDiscard at h
  cases hv : vw.round <;> simp only [hv] at h
  · exact downLoop_le _ _ _ (by omega) h
  · have := upLoop_le _ _ h; omega
  · have := closestLoop_le _ _ _ _ _ (by omega) h; omega

end Verif.Jpip
