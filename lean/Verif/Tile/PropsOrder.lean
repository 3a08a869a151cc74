import Verif.Tile.OrderMain
/-
Property C26: each packet is visited exactly once in every progression order, and in the order of the standard.
-/
namespace Verif.Tile

/-! ### Every order, projected to one resolution of one component -/

/-- A hit at a point, as a list of at most one number. -/
def G (T : TileP) (c r y x : Nat) : List Nat := if T.Starts r y x c then [T.precNo r y x c] else []

theorem cell_hit (T : TileP) (c r : Nat) (v : Visit) :
    (([v] : List Visit).filter (hitKey T c r)).map (no T) = if v.c = c then if v.r = r then G T c r v.y v.x else [] else [] := by
  obtain ⟨r', y, x, c'⟩ := v
  unfold G hitKey no
  by_cases h1 : c' = c
  · subst h1
    by_cases h2 : r' = r
    · subst h2
      by_cases h3 : T.Starts r' y x c' <;> simp [h3]
    · simp [h2]
  · simp [h1]

/-- A resolution of a component is in the volume of a segment. -/
def InSeg (T : TileP) (S : Seg) (c r : Nat) : Prop :=
  S.RS ≤ r ∧ r < S.RE ∧ S.CS ≤ c ∧ c < S.CE ∧ r ≤ (T.comp c).NL

instance (T : TileP) (S : Seg) (c r : Nat) : Decidable (InSeg T S c r) := by unfold InSeg; infer_instance

theorem flatMap_nil' {α β : Type} (l : List α) : (l.flatMap fun _ => ([] : List β)) = [] := by simp

theorem project_if {T : TileP} {S : Seg} {xs ys : List Nat} {c r : Nat} {P : Prop} [Decidable P] (hP : P ↔ InSeg T S c r)
    (L : List Nat) (hL : L = if P then ys.flatMap fun y => xs.flatMap fun x => G T c r y x else []) :
    L = if InSeg T S c r then ys.flatMap fun y => xs.flatMap fun x => G T c r y x else [] := by
  rw [hL]
  by_cases h : P
  · rw [if_pos h, if_pos (hP.1 h)]
  · rw [if_neg h, if_neg (fun h' => h (hP.2 h'))]

theorem guard_cell (T : TileP) (c r : Nat) (v : Visit) (b : Prop) [Decidable b] :
    ((if b then [v] else []).filter (hitKey T c r)).map (no T) =
      if v.c = c then if v.r = r then if b then G T c r v.y v.x else [] else [] else [] := by
  by_cases hb : b
  · simp only [if_pos hb]; exact cell_hit T c r v
  · simp [hb]

theorem inner_c (T : TileP) (S : Seg) (c r r' y x : Nat) :
    ((rng S.CS S.CE).flatMap fun c' => if c' = c then if r' = r then if r' ≤ (T.comp c').NL then G T c r y x else [] else [] else []) =
      if r' = r then if c ∈ rng S.CS S.CE ∧ r ≤ (T.comp c).NL then G T c r y x else [] else [] := by
  have e : ∀ c', (if c' = c then if r' = r then if r' ≤ (T.comp c').NL then G T c r y x else [] else [] else []) =
      if c' = c then (if r' = r then if r ≤ (T.comp c).NL then G T c r y x else [] else []) else [] := by
    intro c'
    by_cases h1 : c' = c
    · subst h1
      by_cases h2 : r' = r
      · subst h2; rfl
      · simp [h2]
    · simp [h1]
  simp only [e]
  rw [flatMap_ite (rng_nodup _ _)]
  by_cases h1 : c ∈ rng S.CS S.CE <;> by_cases h2 : r' = r <;> simp [h1, h2]

theorem proj_RPCL (T : TileP) (S : Seg) (xs ys : List Nat) (c r : Nat) :
    ((loopRPCL T S xs ys).filter (hitKey T c r)).map (no T) =
      if InSeg T S c r then ys.flatMap fun y => xs.flatMap fun x => G T c r y x else [] := by
  refine project_if (P := r ∈ rng S.RS S.RE ∧ c ∈ rng S.CS S.CE ∧ r ≤ (T.comp c).NL) (by rw [mem_rng, mem_rng]; unfold InSeg; tauto) _ ?_
  unfold loopRPCL
  simp only [List.filter_flatMap, List.map_flatMap, guard_cell, inner_c]
  have e : ∀ r', (ys.flatMap fun y => xs.flatMap fun x => if r' = r then if c ∈ rng S.CS S.CE ∧ r ≤ (T.comp c).NL then G T c r y x else [] else []) =
      if r' = r then (ys.flatMap fun y => xs.flatMap fun x => if c ∈ rng S.CS S.CE ∧ r ≤ (T.comp c).NL then G T c r y x else []) else [] := by
    intro r'
    by_cases h : r' = r
    · simp only [if_pos h]
    · simp only [if_neg h, flatMap_nil']
  simp only [e]
  rw [flatMap_ite (rng_nodup _ _)]
  by_cases h1 : r ∈ rng S.RS S.RE
  · by_cases h2 : c ∈ rng S.CS S.CE ∧ r ≤ (T.comp c).NL
    · rw [if_pos h1, if_pos ⟨h1, h2⟩]; simp only [if_pos h2]
    · rw [if_pos h1, if_neg (fun h => h2 h.2)]; simp only [if_neg h2, flatMap_nil']
  · rw [if_neg h1, if_neg (fun h => h1 h.1)]

theorem proj_PRCL (T : TileP) (S : Seg) (xs ys : List Nat) (c r : Nat) :
    ((loopPRCL T S xs ys).filter (hitKey T c r)).map (no T) =
      if InSeg T S c r then ys.flatMap fun y => xs.flatMap fun x => G T c r y x else [] := by
  refine project_if (P := r ∈ rng S.RS S.RE ∧ c ∈ rng S.CS S.CE ∧ r ≤ (T.comp c).NL) (by rw [mem_rng, mem_rng]; unfold InSeg; tauto) _ ?_
  unfold loopPRCL
  simp only [List.filter_flatMap, List.map_flatMap, guard_cell, inner_c, flatMap_ite (rng_nodup _ _)]
  by_cases h1 : r ∈ rng S.RS S.RE
  · by_cases h2 : c ∈ rng S.CS S.CE ∧ r ≤ (T.comp c).NL
    · rw [if_pos ⟨h1, h2⟩]; simp only [if_pos h1, if_pos h2]
    · rw [if_neg (fun h => h2 h.2)]; simp only [if_pos h1, if_neg h2, flatMap_nil']
  · rw [if_neg (fun h => h1 h.1)]; simp only [if_neg h1, flatMap_nil']

/-- The resolutions of a component that the loops with `local_RE` visit. -/
def localRE (T : TileP) (S : Seg) (c : Nat) : Nat := if (T.comp c).NL + 1 < S.RE then (T.comp c).NL + 1 else S.RE

theorem mem_local {T : TileP} {S : Seg} {c r : Nat} : r ∈ rng S.RS (localRE T S c) ↔ S.RS ≤ r ∧ r < S.RE ∧ r ≤ (T.comp c).NL := by
  rw [mem_rng]; unfold localRE; split <;> omega

theorem inner_r (T : TileP) (S : Seg) (c c' r y x : Nat) :
    ((rng S.RS (localRE T S c')).flatMap fun r' => if c' = c then if r' = r then G T c r y x else [] else []) =
      if c' = c then if r ∈ rng S.RS (localRE T S c) then G T c r y x else [] else [] := by
  by_cases h : c' = c
  · subst h; simp only [if_true]; exact flatMap_ite (rng_nodup _ _) _ _
  · simp only [if_neg h, flatMap_nil']

theorem proj_PCRL (T : TileP) (S : Seg) (xs ys : List Nat) (c r : Nat) :
    ((loopPCRL T S xs ys).filter (hitKey T c r)).map (no T) =
      if InSeg T S c r then ys.flatMap fun y => xs.flatMap fun x => G T c r y x else [] := by
  refine project_if (P := c ∈ rng S.CS S.CE ∧ r ∈ rng S.RS (localRE T S c)) (by rw [mem_rng, mem_local]; unfold InSeg; tauto) _ ?_
  have e : loopPCRL T S xs ys = ys.flatMap fun y => xs.flatMap fun x => (rng S.CS S.CE).flatMap fun c =>
    (rng S.RS (localRE T S c)).flatMap fun r => [⟨r, y, x, c⟩] := rfl
  rw [e]
  simp only [List.filter_flatMap, List.map_flatMap, cell_hit, inner_r, flatMap_ite (rng_nodup _ _)]
  by_cases h1 : c ∈ rng S.CS S.CE
  · by_cases h2 : r ∈ rng S.RS (localRE T S c)
    · rw [if_pos ⟨h1, h2⟩]; simp only [if_pos h1, if_pos h2]
    · rw [if_neg (fun h => h2 h.2)]; simp only [if_pos h1, if_neg h2, flatMap_nil']
  · rw [if_neg (fun h => h1 h.1)]; simp only [if_neg h1, flatMap_nil']

theorem proj_CPRL (T : TileP) (S : Seg) (xs ys : List Nat) (c r : Nat) :
    ((loopCPRL T S xs ys).filter (hitKey T c r)).map (no T) =
      if InSeg T S c r then ys.flatMap fun y => xs.flatMap fun x => G T c r y x else [] := by
  refine project_if (P := c ∈ rng S.CS S.CE ∧ r ∈ rng S.RS (localRE T S c)) (by rw [mem_rng, mem_local]; unfold InSeg; tauto) _ ?_
  have e : loopCPRL T S xs ys = (rng S.CS S.CE).flatMap fun c => ys.flatMap fun y => xs.flatMap fun x =>
    (rng S.RS (localRE T S c)).flatMap fun r => [⟨r, y, x, c⟩] := rfl
  rw [e]
  simp only [List.filter_flatMap, List.map_flatMap, cell_hit, inner_r]
  have e : ∀ c', (ys.flatMap fun y => xs.flatMap fun x => if c' = c then if r ∈ rng S.RS (localRE T S c) then G T c r y x else [] else []) =
      if c' = c then (ys.flatMap fun y => xs.flatMap fun x => if r ∈ rng S.RS (localRE T S c) then G T c r y x else []) else [] := by
    intro c'
    by_cases h : c' = c
    · simp only [if_pos h]
    · simp only [if_neg h, flatMap_nil']
  simp only [e]
  rw [flatMap_ite (rng_nodup _ _)]
  by_cases h1 : c ∈ rng S.CS S.CE
  · by_cases h2 : r ∈ rng S.RS (localRE T S c)
    · rw [if_pos h1, if_pos ⟨h1, h2⟩]; simp only [if_pos h2]
    · rw [if_pos h1, if_neg (fun h => h2 h.2)]; simp only [if_neg h2, flatMap_nil']
  · rw [if_neg h1, if_neg (fun h => h1 h.1)]

theorem proj_pos (T : TileP) (S : Seg) (xs ys : List Nat) (c r : Nat) :
    ((loopPos T S xs ys).filter (hitKey T c r)).map (no T) =
      if InSeg T S c r then ys.flatMap fun y => xs.flatMap fun x => G T c r y x else [] := by
  unfold loopPos
  split
  · exact proj_RPCL ..
  split
  · exact proj_PCRL ..
  split
  · exact proj_CPRL ..
  · exact proj_PRCL ..

theorem mem_pos {T : TileP} {S : Seg} {xs ys : List Nat} {v : Visit} (h : v ∈ loopPos T S xs ys) :
    InSeg T S v.c v.r ∧ v.y ∈ ys ∧ v.x ∈ xs := by
  unfold loopPos at h
  split at h
  · unfold loopRPCL at h
    simp only [List.mem_flatMap] at h
    obtain ⟨r, hr, y, hy, x, hx, c, hc, h⟩ := h
    split at h
    · rw [List.mem_singleton] at h; subst h
      rw [mem_rng] at hr hc
      rename_i hn
      exact ⟨⟨hr.1, hr.2, hc.1, hc.2, hn⟩, hy, hx⟩
    · simp at h
  split at h
  · unfold loopPCRL at h
    simp only [List.mem_flatMap] at h
    obtain ⟨y, hy, x, hx, c, hc, r, hr, h⟩ := h
    rw [List.mem_singleton] at h; subst h
    have hr := mem_local.1 hr
    rw [mem_rng] at hc
    exact ⟨⟨hr.1, hr.2.1, hc.1, hc.2, hr.2.2⟩, hy, hx⟩
  split at h
  · unfold loopCPRL at h
    simp only [List.mem_flatMap] at h
    obtain ⟨c, hc, y, hy, x, hx, r, hr, h⟩ := h
    rw [List.mem_singleton] at h; subst h
    have hr := mem_local.1 hr
    rw [mem_rng] at hc
    exact ⟨⟨hr.1, hr.2.1, hc.1, hc.2, hr.2.2⟩, hy, hx⟩
  · unfold loopPRCL at h
    simp only [List.mem_flatMap] at h
    obtain ⟨y, hy, x, hx, r, hr, c, hc, h⟩ := h
    split at h
    · rw [List.mem_singleton] at h; subst h
      rw [mem_rng] at hr hc
      rename_i hn
      exact ⟨⟨hr.1, hr.2, hc.1, hc.2, hn⟩, hy, hx⟩
    · simp at h

/-! ### The points examined are enough -/

/-- The points of an axis that the code examines. -/
def exam (s : Span) (k : Nat) : List Nat := (rng s.1 s.2).filter fun x => decide (x = s.1 ∨ 2 ^ k ∣ x)

theorem atPrec_exam {s : Span} {sub pp d k x : Nat} (hk : k ≤ pp) (h : AtPrec s sub pp d x) : x = s.1 ∨ 2 ^ k ∣ x := by
  rcases h with h | h
  · refine .inr (Nat.dvd_trans ?_ h)
    exact Nat.dvd_trans (Nat.pow_dvd_pow 2 (by omega)) (Nat.dvd_mul_left _ _)
  · exact .inl h.1

theorem nprec_pos {s : Span} {sub pp d : Nat} (h : 0 < nprec s sub pp d) : tr s.1 sub d < tr s.2 sub d := by
  by_contra hn; unfold nprec at h; rw [if_neg hn] at h; omega

theorem exam_hits {s : Span} {sub pp d k : Nat} (hs : s.1 < s.2) (hsub : 0 < sub) (hk : k ≤ pp) (hp : 0 < nprec s sub pp d) :
    ((exam s k).filter fun x => decide (AtPrec s sub pp d x)).map (kAt s sub pp d) = List.range (nprec s sub pp d) := by
  refine axis_hits hsub (nprec_pos hp) hs ((rng_sorted _ _).filter _) ?_ ?_
  · intro x hx; unfold exam at hx; rw [List.mem_filter, mem_rng] at hx; exact hx.1
  · intro x h1 h2 h3
    unfold exam
    rw [List.mem_filter, mem_rng, decide_eq_true_eq]
    exact ⟨⟨h1, h2⟩, atPrec_exam hk h3⟩

/-- How many packets per layer a segment visits in a resolution. -/
def segN (T : TileP) (S : Seg) (c r : Nat) : Nat := if InSeg T S c r then T.wide c r * T.high c r else 0

theorem pos_hits {T : TileP} (h : T.Ok) {S : Seg} (hS : S.CE ≤ T.ncomp) (c r : Nat) :
    ((loopPos T S (exam T.x (minPP T Comp.ppx)) (exam T.y (minPP T Comp.ppy))).filter (hitKey T c r)).map (no T) =
      List.range (segN T S c r) := by
  rw [proj_pos]
  unfold segN
  by_cases hin : InSeg T S c r
  · rw [if_pos hin, if_pos hin]
    have hc : c < T.ncomp := by have := hin.2.2.2.1; omega
    have hr := hin.2.2.2.2
    rcases Nat.eq_zero_or_pos (T.wide c r * T.high c r) with h0 | h0
    · rw [h0]
      have : ∀ y x, G T c r y x = [] := by
        intro y x; unfold G; rw [if_neg]; rintro ⟨h', -⟩; omega
      simp only [this, flatMap_nil']; rfl
    · have hw : 0 < T.wide c r := Nat.pos_of_mul_pos_right h0
      have hh : 0 < T.high c r := Nat.pos_of_mul_pos_left h0
      have hx := exam_hits h.x (h.subx c hc) (minPP_le T Comp.ppx hc hr) hw
      have hy := exam_hits h.y (h.suby c hc) (minPP_le T Comp.ppy hc hr) hh
      show _ = List.range (nprec T.x (T.comp c).subx ((T.comp c).ppx r) ((T.comp c).NL - r) *
        nprec T.y (T.comp c).suby ((T.comp c).ppy r) ((T.comp c).NL - r))
      rw [← grid_range hx hy]
      refine flatMap_congr' fun y _ => flatMap_congr' fun x _ => ?_
      unfold G
      by_cases hs : T.Starts r y x c
      · rw [if_pos hs, if_pos hs.2]; rfl
      · rw [if_neg hs, if_neg (fun h' => hs ⟨h0, h'⟩)]
  · rw [if_neg hin, if_neg hin]; rfl

/-! ### The code's packets are the standard's packets -/

theorem at_eq (T : TileP) (LYE r y x c : Nat) : T.at_ LYE r y x c = if r ≤ (T.comp c).NL then pk T LYE ⟨r, y, x, c⟩ else [] := by
  unfold TileP.at_ pk no
  by_cases h1 : r ≤ (T.comp c).NL <;> by_cases h2 : T.Starts r y x c <;> simp [h1, h2]

theorem at_nil_x {T : TileP} {LYE r y x c : Nat} (hc : c < T.ncomp)
    (hx : decide (x = T.x.1 ∨ 2 ^ minPP T Comp.ppx ∣ x) = false) : T.at_ LYE r y x c = [] := by
  unfold TileP.at_
  rw [if_neg]
  rintro ⟨hr, hs⟩
  have := atPrec_exam (minPP_le T Comp.ppx hc hr) hs.2.2
  simp [this] at hx

theorem at_nil_y {T : TileP} {LYE r y x c : Nat} (hc : c < T.ncomp)
    (hy : decide (y = T.y.1 ∨ 2 ^ minPP T Comp.ppy ∣ y) = false) : T.at_ LYE r y x c = [] := by
  unfold TileP.at_
  rw [if_neg]
  rintro ⟨hr, hs⟩
  have := atPrec_exam (minPP_le T Comp.ppy hc hr) hs.2.1
  simp [this] at hy

theorem flatMap_nil_of {α β : Type} {l : List α} {g : α → List β} (h : ∀ a ∈ l, g a = []) : l.flatMap g = [] := by
  rw [flatMap_congr' h, flatMap_nil']

/-- The loops over all points, or only over the points examined. -/
theorem exam_yx {T : TileP} {F : Nat → Nat → List Pkt}
    (hx : ∀ y x, decide (x = T.x.1 ∨ 2 ^ minPP T Comp.ppx ∣ x) = false → F y x = [])
    (hy : ∀ y x, decide (y = T.y.1 ∨ 2 ^ minPP T Comp.ppy ∣ y) = false → F y x = []) :
    ((exam T.y (minPP T Comp.ppy)).flatMap fun y => (exam T.x (minPP T Comp.ppx)).flatMap fun x => F y x) =
      (rng T.y.1 T.y.2).flatMap fun y => (rng T.x.1 T.x.2).flatMap fun x => F y x := by
  have e : ∀ y, ((exam T.x (minPP T Comp.ppx)).flatMap fun x => F y x) = (rng T.x.1 T.x.2).flatMap fun x => F y x :=
    fun y => flatMap_filter_nil fun x _ hp => hx y x hp
  simp only [e]
  exact flatMap_filter_nil fun y _ hp => flatMap_nil_of fun x _ => hy y x hp

theorem local_flatMap (T : TileP) (S : Seg) (c y x : Nat) :
    ((rng S.RS (localRE T S c)).flatMap fun r => pk T S.LYE ⟨r, y, x, c⟩) = (rng S.RS S.RE).flatMap fun r => T.at_ S.LYE r y x c := by
  have e : rng S.RS (localRE T S c) = (rng S.RS S.RE).filter fun r => decide (r ≤ (T.comp c).NL) := by
    apply sorted_ext (rng_sorted _ _) ((rng_sorted _ _).filter _)
    intro r; rw [mem_local, List.mem_filter, mem_rng, decide_eq_true_eq]; tauto
  have e2 : ∀ r, T.at_ S.LYE r y x c = if r ≤ (T.comp c).NL then pk T S.LYE ⟨r, y, x, c⟩ else [] := fun r => at_eq ..
  rw [e]
  have h2 : ((rng S.RS S.RE).filter fun r => decide (r ≤ (T.comp c).NL)).flatMap (fun r => pk T S.LYE ⟨r, y, x, c⟩) =
      ((rng S.RS S.RE).filter fun r => decide (r ≤ (T.comp c).NL)).flatMap fun r => T.at_ S.LYE r y x c := by
    refine flatMap_congr' fun r hr => ?_
    rw [List.mem_filter, decide_eq_true_eq] at hr
    rw [e2, if_pos hr.2]
  rw [h2]
  refine flatMap_filter_nil fun r _ hp => ?_
  rw [e2, if_neg (by simpa using hp)]

theorem guard_flatMap (T : TileP) (LYE r y x c : Nat) :
    (if r ≤ (T.comp c).NL then [(⟨r, y, x, c⟩ : Visit)] else []).flatMap (pk T LYE) = T.at_ LYE r y x c := by
  rw [at_eq]; split <;> simp

theorem pos_std {T : TileP} {S : Seg} (hS : S.CE ≤ T.ncomp) (h0 : S.PO ≠ 0) (h1 : S.PO ≠ 1) :
    (loopPos T S (exam T.x (minPP T Comp.ppx)) (exam T.y (minPP T Comp.ppy))).flatMap (pk T S.LYE) = T.std S := by
  have hcs : ∀ c ∈ rng S.CS S.CE, c < T.ncomp := fun c hc => by rw [mem_rng] at hc; omega
  unfold loopPos TileP.std
  simp only [if_neg h0, if_neg h1]
  split
  · unfold loopRPCL
    simp only [List.flatMap_assoc, guard_flatMap]
    refine flatMap_congr' fun r _ => ?_
    exact exam_yx (F := fun y x => (rng S.CS S.CE).flatMap fun c => T.at_ S.LYE r y x c)
      (fun y x hx => flatMap_nil_of fun c hc => at_nil_x (hcs c hc) hx)
      (fun y x hy => flatMap_nil_of fun c hc => at_nil_y (hcs c hc) hy)
  split
  · have e : ∀ xs ys, loopPCRL T S xs ys = ys.flatMap fun y => xs.flatMap fun x => (rng S.CS S.CE).flatMap fun c =>
      (rng S.RS (localRE T S c)).flatMap fun r => [⟨r, y, x, c⟩] := fun _ _ => rfl
    rw [e]
    simp only [List.flatMap_assoc, List.flatMap_cons, List.flatMap_nil, List.append_nil, local_flatMap]
    exact exam_yx (F := fun y x => (rng S.CS S.CE).flatMap fun c => (rng S.RS S.RE).flatMap fun r => T.at_ S.LYE r y x c)
      (fun y x hx => flatMap_nil_of fun c hc => flatMap_nil_of fun r _ => at_nil_x (hcs c hc) hx)
      (fun y x hy => flatMap_nil_of fun c hc => flatMap_nil_of fun r _ => at_nil_y (hcs c hc) hy)
  split
  · have e : ∀ xs ys, loopCPRL T S xs ys = (rng S.CS S.CE).flatMap fun c => ys.flatMap fun y => xs.flatMap fun x =>
      (rng S.RS (localRE T S c)).flatMap fun r => [⟨r, y, x, c⟩] := fun _ _ => rfl
    rw [e]
    simp only [List.flatMap_assoc, List.flatMap_cons, List.flatMap_nil, List.append_nil, local_flatMap]
    refine flatMap_congr' fun c hc => ?_
    exact exam_yx (F := fun y x => (rng S.RS S.RE).flatMap fun r => T.at_ S.LYE r y x c)
      (fun y x hx => flatMap_nil_of fun r _ => at_nil_x (hcs c hc) hx)
      (fun y x hy => flatMap_nil_of fun r _ => at_nil_y (hcs c hc) hy)
  · unfold loopPRCL
    simp only [List.flatMap_assoc, guard_flatMap]
    exact exam_yx (F := fun y x => (rng S.RS S.RE).flatMap fun r => (rng S.CS S.CE).flatMap fun c => T.at_ S.LYE r y x c)
      (fun y x hx => flatMap_nil_of fun r _ => flatMap_nil_of fun c hc => at_nil_x (hcs c hc) hx)
      (fun y x hy => flatMap_nil_of fun r _ => flatMap_nil_of fun c hc => at_nil_y (hcs c hc) hy)

theorem all_eq {T : TileP} (h : T.Ok) {l r c : Nat} (hc : c < T.ncomp) :
    (if r ≤ (T.comp c).NL then if T.np c r = 0 then [] else (List.range (T.np c r)).map fun p => Pkt.mk l r c p else []) = T.all_ l r c := by
  unfold TileP.all_
  by_cases hr : r ≤ (T.comp c).NL
  · rw [if_pos hr, if_pos hr, np_eq h hc hr]
    by_cases h0 : T.wide c r * T.high c r = 0
    · rw [if_pos h0, h0]; rfl
    · rw [if_neg h0]
  · rw [if_neg hr, if_neg hr]

theorem lrcp_std {T : TileP} (h : T.Ok) {S : Seg} (hS : S.CE ≤ T.ncomp) (h0 : S.PO = 0) : loopLRCP T S = T.std S := by
  unfold loopLRCP TileP.std
  simp only [if_pos h0]
  refine flatMap_congr' fun l _ => flatMap_congr' fun r _ => flatMap_congr' fun c hc => ?_
  rw [mem_rng] at hc
  exact all_eq h (by omega)

theorem rlcp_std {T : TileP} (h : T.Ok) {S : Seg} (hS : S.CE ≤ T.ncomp) (h0 : S.PO = 1) : loopRLCP T S = T.std S := by
  unfold loopRLCP TileP.std
  simp only [h0, if_neg (show ¬ 1 = 0 by omega), if_true]
  refine flatMap_congr' fun r _ => flatMap_congr' fun l _ => flatMap_congr' fun c hc => ?_
  rw [mem_rng] at hc
  exact all_eq h (by omega)

/-! ### What a segment holds -/

theorem mem_all {T : TileP} {l r c : Nat} {q : Pkt} :
    q ∈ T.all_ l r c ↔ q.l = l ∧ q.r = r ∧ q.c = c ∧ r ≤ (T.comp c).NL ∧ q.p < T.wide c r * T.high c r := by
  unfold TileP.all_
  by_cases hr : r ≤ (T.comp c).NL
  · rw [if_pos hr, List.mem_map]
    constructor
    · rintro ⟨p, hp, rfl⟩; exact ⟨rfl, rfl, rfl, hr, List.mem_range.1 hp⟩
    · rintro ⟨rfl, rfl, rfl, -, hp⟩; exact ⟨q.p, List.mem_range.2 hp, rfl⟩
  · rw [if_neg hr]; simp [hr]

theorem mem_pk {T : TileP} {LYE : Nat} {v : Visit} {q : Pkt} :
    q ∈ pk T LYE v ↔ T.Starts v.r v.y v.x v.c ∧ q.l < LYE ∧ q.r = v.r ∧ q.c = v.c ∧ q.p = no T v := by
  unfold pk
  by_cases hs : T.Starts v.r v.y v.x v.c
  · rw [if_pos hs, List.mem_map]
    constructor
    · rintro ⟨l, hl, rfl⟩; exact ⟨hs, List.mem_range.1 hl, rfl, rfl, rfl⟩
    · rintro ⟨-, h1, h2, h3, h4⟩; refine ⟨q.l, List.mem_range.2 h1, ?_⟩; rw [← h2, ← h3, ← h4]
  · rw [if_neg hs]; simp [hs]

/-- From the projections: which packets the position loops visit. -/
theorem mem_hits {T : TileP} {LYE : Nat} {V : List Visit} {M : Nat → Nat → Nat}
    (hK : ∀ c r, (V.filter (hitKey T c r)).map (no T) = List.range (M c r)) {q : Pkt} :
    q ∈ V.flatMap (pk T LYE) ↔ q.l < LYE ∧ q.p < M q.c q.r := by
  rw [← List.mem_range (n := M q.c q.r), ← hK, List.mem_flatMap, List.mem_map]
  constructor
  · rintro ⟨v, hv, hq⟩
    obtain ⟨h1, h2, h3, h4, h5⟩ := mem_pk.1 hq
    refine ⟨h2, v, ?_, h5.symm⟩
    rw [List.mem_filter]
    exact ⟨hv, by simp [hitKey, h1, h3, h4]⟩
  · rintro ⟨hl, v, hv, hq⟩
    rw [List.mem_filter] at hv
    obtain ⟨h1, h2, h3⟩ := of_decide_eq_true hv.2
    exact ⟨v, hv.1, mem_pk.2 ⟨h1, hl, h3.symm, h2.symm, hq.symm⟩⟩

/-- From the projections: no packet twice. -/
theorem nodup_hits {T : TileP} {LYE : Nat} : ∀ {V : List Visit},
    (∀ c r, ((V.filter (hitKey T c r)).map (no T)).Nodup) → (V.flatMap (pk T LYE)).Nodup
  | [], _ => by simp
  | v :: V, h => by
    have ih : (V.flatMap (pk T LYE)).Nodup := nodup_hits fun c r => by
      have := h c r
      by_cases hk : hitKey T c r v = true
      · rw [List.filter_cons_of_pos hk, List.map_cons, List.nodup_cons] at this; exact this.2
      · rw [List.filter_cons_of_neg hk] at this; exact this
    rw [List.flatMap_cons, List.nodup_append]
    refine ⟨?_, ih, ?_⟩
    · unfold pk
      split
      · refine (List.nodup_range).map ?_
        intro a b e; exact congrArg Pkt.l e
      · exact List.nodup_nil
    · intro a ha b hb e
      subst e
      obtain ⟨h1, -, h3, h4, h5⟩ := mem_pk.1 ha
      obtain ⟨w, hw, hb⟩ := List.mem_flatMap.1 hb
      obtain ⟨g1, -, g3, g4, g5⟩ := mem_pk.1 hb
      have := h v.c v.r
      rw [List.filter_cons_of_pos (by simp [hitKey, h1]), List.map_cons, List.nodup_cons] at this
      apply this.1
      rw [List.mem_map]
      refine ⟨w, List.mem_filter.2 ⟨hw, ?_⟩, by rw [← g5, h5]⟩
      simp only [hitKey, g1, true_and, decide_eq_true_eq]
      exact ⟨by rw [← g4, h4], by rw [← g3, h3]⟩

theorem mem_std {T : TileP} (h : T.Ok) {S : Seg} (hS : S.CE ≤ T.ncomp) {q : Pkt} :
    q ∈ T.std S ↔ q.l < S.LYE ∧ InSeg T S q.c q.r ∧ q.p < T.wide q.c q.r * T.high q.c q.r := by
  by_cases h0 : S.PO = 0
  · unfold TileP.std
    simp only [if_pos h0, List.mem_flatMap, mem_all, List.mem_range, mem_rng]
    constructor
    · rintro ⟨l, hl, r, hr, c, hc, rfl, rfl, rfl, hn, hp⟩
      exact ⟨hl, ⟨hr.1, hr.2, hc.1, hc.2, hn⟩, hp⟩
    · rintro ⟨hl, ⟨a, b, c, d, e⟩, hp⟩
      exact ⟨q.l, hl, q.r, ⟨a, b⟩, q.c, ⟨c, d⟩, rfl, rfl, rfl, e, hp⟩
  by_cases h1 : S.PO = 1
  · unfold TileP.std
    simp only [if_neg h0, if_pos h1, List.mem_flatMap, mem_all, List.mem_range, mem_rng]
    constructor
    · rintro ⟨r, hr, l, hl, c, hc, rfl, rfl, rfl, hn, hp⟩
      exact ⟨hl, ⟨hr.1, hr.2, hc.1, hc.2, hn⟩, hp⟩
    · rintro ⟨hl, ⟨a, b, c, d, e⟩, hp⟩
      exact ⟨q.r, ⟨a, b⟩, q.l, hl, q.c, ⟨c, d⟩, rfl, rfl, rfl, e, hp⟩
  rw [← pos_std hS h0 h1, mem_hits (pos_hits h hS)]
  unfold segN
  by_cases hin : InSeg T S q.c q.r
  · rw [if_pos hin]; tauto
  · rw [if_neg hin]; constructor
    · rintro ⟨-, h'⟩; omega
    · rintro ⟨-, h', -⟩; exact absurd h' hin

theorem nodup_flatMap_key {α β : Type} {l : List α} (hl : l.Nodup) {f : α → List β} {key : β → α}
    (h1 : ∀ a ∈ l, (f a).Nodup) (h2 : ∀ a ∈ l, ∀ b ∈ f a, key b = a) : (l.flatMap f).Nodup := by
  induction l with
  | nil => simp
  | cons a l ih =>
    rw [List.nodup_cons] at hl
    rw [List.flatMap_cons, List.nodup_append]
    refine ⟨h1 a (by simp), ih hl.2 (fun b hb => h1 b (by simp [hb])) (fun b hb => h2 b (by simp [hb])), ?_⟩
    intro x hx y hy e
    subst e
    obtain ⟨b, hb, hxb⟩ := List.mem_flatMap.1 hy
    have e1 := h2 a (by simp) x hx
    have e2 := h2 b (by simp [hb]) x hxb
    rw [e1] at e2; subst e2
    exact hl.1 hb

theorem nodup_all (T : TileP) (l r c : Nat) : (T.all_ l r c).Nodup := by
  unfold TileP.all_
  split
  · exact List.nodup_range.map fun a b e => congrArg Pkt.p e
  · exact List.nodup_nil

theorem nodup_std {T : TileP} (h : T.Ok) {S : Seg} (hS : S.CE ≤ T.ncomp) : (T.std S).Nodup := by
  by_cases h0 : S.PO = 0
  · unfold TileP.std
    simp only [if_pos h0]
    refine nodup_flatMap_key List.nodup_range (key := Pkt.l) (fun l _ => ?_) ?_
    · refine nodup_flatMap_key (rng_nodup _ _) (key := Pkt.r) (fun r _ => ?_) ?_
      · refine nodup_flatMap_key (rng_nodup _ _) (key := Pkt.c) (fun c _ => nodup_all ..) ?_
        intro c _ b hb; exact (mem_all.1 hb).2.2.1
      · intro r _ b hb
        obtain ⟨c, _, hb⟩ := List.mem_flatMap.1 hb
        exact (mem_all.1 hb).2.1
    · intro l _ b hb
      obtain ⟨r, _, hb⟩ := List.mem_flatMap.1 hb
      obtain ⟨c, _, hb⟩ := List.mem_flatMap.1 hb
      exact (mem_all.1 hb).1
  by_cases h1 : S.PO = 1
  · unfold TileP.std
    simp only [if_neg h0, if_pos h1]
    refine nodup_flatMap_key (rng_nodup _ _) (key := Pkt.r) (fun r _ => ?_) ?_
    · refine nodup_flatMap_key List.nodup_range (key := Pkt.l) (fun l _ => ?_) ?_
      · refine nodup_flatMap_key (rng_nodup _ _) (key := Pkt.c) (fun c _ => nodup_all ..) ?_
        intro c _ b hb; exact (mem_all.1 hb).2.2.1
      · intro l _ b hb
        obtain ⟨c, _, hb⟩ := List.mem_flatMap.1 hb
        exact (mem_all.1 hb).1
    · intro r _ b hb
      obtain ⟨l, _, hb⟩ := List.mem_flatMap.1 hb
      obtain ⟨c, _, hb⟩ := List.mem_flatMap.1 hb
      exact (mem_all.1 hb).2.1
  rw [← pos_std hS h0 h1]
  refine nodup_hits fun c r => ?_
  rw [pos_hits h hS]
  exact List.nodup_range

/-! ### Running the segments -/

theorem runSeg_spec {T : TileP} (h : T.Ok) {N : Nat} (hN : N = T.total) {st : St} (hi : Inv T st) {S : Seg} (hS : S.PO ≤ 5) :
    ∃ st', runSeg T N st S = .ok st' ∧ Inv T st' ∧ st'.out = (T.std (T.clamp S)).foldl addFirst st.out := by
  have hCE : (T.clamp S).CE ≤ T.ncomp := Nat.min_le_right _ _
  have hL : (T.clamp S).LYE ≤ T.layers := Nat.min_le_right _ _
  have hi' : Inv T { st with px := fun _ => 0, py := fun _ => 0 } := ⟨hi.read, hi.nodup, hi.valid⟩
  have hval : ∀ q ∈ T.std (T.clamp S), T.Valid q := by
    intro q hq
    obtain ⟨h1, h2, h3⟩ := (mem_std h hCE).1 hq
    exact ⟨by omega, by have := h2.2.2.2.1; omega, h2.2.2.2.2, h3⟩
  have hPO : (T.clamp S).PO = S.PO := rfl
  unfold runSeg
  show ∃ st', (if S.PO = 0 then (loopLRCP T (T.clamp S)).foldlM (emit N) _ else
    if S.PO = 1 then (loopRLCP T (T.clamp S)).foldlM (emit N) _ else if S.PO ≤ 5 then _ else _) = Except.ok st' ∧ _
  by_cases h0 : S.PO = 0
  · rw [if_pos h0, lrcp_std h hCE (by rw [hPO]; exact h0)]
    obtain ⟨s, a, b, -, -, c⟩ := emit_fold hN _ hi' hval
    exact ⟨s, a, b, c⟩
  rw [if_neg h0]
  by_cases h1 : S.PO = 1
  · rw [if_pos h1, rlcp_std h hCE (by rw [hPO]; exact h1)]
    obtain ⟨s, a, b, -, -, c⟩ := emit_fold hN _ hi' hval
    exact ⟨s, a, b, c⟩
  rw [if_neg h1, if_pos hS]
  have rx : T.x.2 + 2 ^ minPP T Comp.ppx ≤ 2 ^ 32 := by
    have := Nat.pow_le_pow_right (n := 2) (by omega) (minPP_le T Comp.ppx h.comps (Nat.zero_le _))
    have := (roomx' h h.comps (Nat.zero_le _)).2.2.2.1
    omega
  have ry : T.y.2 + 2 ^ minPP T Comp.ppy ≤ 2 ^ 32 := by
    have := Nat.pow_le_pow_right (n := 2) (by omega) (minPP_le T Comp.ppy h.comps (Nat.zero_le _))
    have := (roomy' h h.comps (Nat.zero_le _)).2.2.2.1
    omega
  rw [examin_spec h.x rx, examin_spec h.y ry]
  have hx := pos_hits h hCE
  obtain ⟨s, a, b, c⟩ := pos_fold h hN hL (V := loopPos T (T.clamp S) (exam T.x (minPP T Comp.ppx)) (exam T.y (minPP T Comp.ppy)))
    (by
      intro v hv
      have := (mem_pos hv).1
      exact ⟨by have := this.2.2.2.1; omega, this.2.2.2.2⟩)
    (M := segN T (T.clamp S)) (by intro c r; unfold segN; split <;> omega) hx
    (loopPos T (T.clamp S) (exam T.x (minPP T Comp.ppx)) (exam T.y (minPP T Comp.ppy))) [] rfl hi'
    (by intro c r; simp)
  refine ⟨s, a, b, ?_⟩
  rw [c, pos_std hCE (by rw [hPO]; exact h0) (by rw [hPO]; exact h1)]

theorem runSegs_spec {T : TileP} (h : T.Ok) {N : Nat} (hN : N = T.total) : ∀ {L : List Seg} {st : St}, Inv T st →
    (∀ S ∈ L, S.PO ≤ 5) → ∃ st', L.foldlM (runSeg T N) st = .ok st' ∧ Inv T st' ∧
      st'.out = (L.flatMap fun S => T.std (T.clamp S)).foldl addFirst st.out
  | [], st, hi, _ => ⟨st, rfl, hi, rfl⟩
  | S :: L, st, hi, hS => by
    obtain ⟨s1, a1, b1, c1⟩ := runSeg_spec h hN hi (hS S (by simp))
    obtain ⟨s2, a2, b2, c2⟩ := runSegs_spec h hN (L := L) b1 (fun z hz => hS z (by simp [hz]))
    refine ⟨s2, ?_, b2, ?_⟩
    · rw [List.foldlM_cons, a1]; exact a2
    · rw [c2, c1, List.flatMap_cons, List.foldl_append]

theorem mem_foldl_addFirst : ∀ {l acc : List Pkt} {q : Pkt}, q ∈ l.foldl addFirst acc ↔ q ∈ acc ∨ q ∈ l
  | [], acc, q => by simp
  | a :: l, acc, q => by
    rw [List.foldl_cons, mem_foldl_addFirst]
    unfold addFirst
    split
    · rename_i h; rw [List.mem_cons]
      constructor
      · rintro (h' | h')
        · exact .inl h'
        · exact .inr (.inr h')
      · rintro (h' | rfl | h')
        · exact .inl h'
        · exact .inl h
        · exact .inr h'
    · rw [List.mem_append, List.mem_singleton, List.mem_cons, or_assoc]

theorem foldl_addFirst_nodup : ∀ {l acc : List Pkt}, l.Nodup → (∀ q ∈ l, q ∉ acc) → l.foldl addFirst acc = acc ++ l
  | [], acc, _, _ => by simp
  | a :: l, acc, h, hd => by
    rw [List.nodup_cons] at h
    rw [List.foldl_cons]
    rw [show addFirst acc a = acc ++ [a] from if_neg (hd a (by simp)), foldl_addFirst_nodup h.2, List.append_assoc]
    · rfl
    · intro q hq hm
      rw [List.mem_append, List.mem_singleton] at hm
      rcases hm with hm | rfl
      · exact hd q (by simp [hq]) hm
      · exact h.1 hq

/-! ## Theorems -/

/-- The default entry of `porder_info`: all layers, resolutions and components, in the order of COD. -/
def whole (T : TileP) (po : Nat) : Seg := ⟨0, 0, T.layers, T.maxNL + 1, T.ncomp, po⟩

/-- **C26** (order).  For every legal tile, every list of progression order changes and every order, the traversal ends
without undefined behaviour and visits each packet at its first turn in the nested loops of the standard. -/
theorem C26_order {T : TileP} (h : T.Ok) {poc : List Seg} {po : Nat} (hpoc : ∀ S ∈ poc, S.PO ≤ 5) (hpo : po ≤ 5) :
    traverse T poc po = .ok (firsts ((poc ++ [whole T po]).flatMap fun S => T.std (T.clamp S))) := by
  unfold traverse
  have hm := maxNL_lt h
  rw [if_pos (shiftsOk_eq h), Nat.mod_eq_of_lt (by omega)]
  obtain ⟨s, a, b, c⟩ := runSegs_spec h (numPackets_eq h) (L := poc ++ [whole T po]) (st := St.init)
    ⟨by intro q; rfl, List.nodup_nil, by intro q hq; simp [St.init] at hq⟩ (by
      intro S hS
      rw [List.mem_append, List.mem_singleton] at hS
      rcases hS with hS | rfl
      · exact hpoc S hS
      · exact hpo)
  show (do let st ← (poc ++ [whole T po]).foldlM (runSeg T T.numPackets) St.init; pure st.out) = _
  rw [a]
  show Except.ok s.out = _
  rw [c]
  rfl

/-- **C26** (exactly once).  The traversal visits every packet of the tile, and none twice. -/
theorem C26_exactly_once {T : TileP} (h : T.Ok) {poc : List Seg} {po : Nat} (hpoc : ∀ S ∈ poc, S.PO ≤ 5) (hpo : po ≤ 5) :
    ∃ out, traverse T poc po = .ok out ∧ out.Nodup ∧ out.length = T.total ∧ ∀ q, q ∈ out ↔ T.Valid q := by
  obtain ⟨s, a, b, c⟩ := runSegs_spec h rfl (L := poc ++ [whole T po]) (st := St.init)
    ⟨by intro q; rfl, List.nodup_nil, by intro q hq; simp [St.init] at hq⟩ (by
      intro S hS
      rw [List.mem_append, List.mem_singleton] at hS
      rcases hS with hS | rfl
      · exact hpoc S hS
      · exact hpo)
  have hmem : ∀ q, q ∈ s.out ↔ T.Valid q := by
    intro q
    refine ⟨b.valid q, ?_⟩
    rintro ⟨h1, h2, h3, h4⟩
    rw [c, mem_foldl_addFirst]
    refine .inr ?_
    rw [List.mem_flatMap]
    refine ⟨whole T po, by simp, ?_⟩
    rw [mem_std h (Nat.min_le_right _ _)]
    have := NL_le_maxNL h2
    refine ⟨?_, ⟨Nat.zero_le _, ?_, Nat.zero_le _, ?_, h3⟩, h4⟩
    · show q.l < min T.layers T.layers; omega
    · show q.r < T.maxNL + 1; omega
    · show q.c < min T.ncomp T.ncomp; omega
  refine ⟨s.out, ?_, b.nodup, ?_, hmem⟩
  · rw [C26_order h hpoc hpo, c]; rfl
  · have hnd : (allPkts T).Nodup := by
      unfold allPkts
      refine nodup_flatMap_key List.nodup_range (key := Pkt.c) (fun c _ => ?_) ?_
      · refine nodup_flatMap_key List.nodup_range (key := Pkt.r) (fun r _ => ?_) ?_
        · refine nodup_flatMap_key List.nodup_range (key := Pkt.p) (fun p _ => ?_) ?_
          · exact List.nodup_range.map fun a b e => congrArg Pkt.l e
          · intro p _ q hq; obtain ⟨l, _, rfl⟩ := List.mem_map.1 hq; rfl
        · intro r _ q hq
          obtain ⟨p, _, hq⟩ := List.mem_flatMap.1 hq
          obtain ⟨l, _, rfl⟩ := List.mem_map.1 hq; rfl
      · intro c _ q hq
        obtain ⟨r, _, hq⟩ := List.mem_flatMap.1 hq
        obtain ⟨p, _, hq⟩ := List.mem_flatMap.1 hq
        obtain ⟨l, _, rfl⟩ := List.mem_map.1 hq; rfl
    have hsub : allPkts T ⊆ s.out := by
      intro q hq
      rw [hmem]
      unfold allPkts at hq
      obtain ⟨c, hc, hq⟩ := List.mem_flatMap.1 hq
      obtain ⟨r, hr, hq⟩ := List.mem_flatMap.1 hq
      obtain ⟨p, hp, hq⟩ := List.mem_flatMap.1 hq
      obtain ⟨l, hl, rfl⟩ := List.mem_map.1 hq
      rw [List.mem_range] at hc hr hp hl
      exact ⟨hl, hc, by show r ≤ (T.comp c).NL; omega, hp⟩
    have l1 := (hnd.subperm hsub).length_le
    have l2 := (b.nodup.subperm (fun q hq => mem_allPkts ((hmem q).1 hq))).length_le
    rw [length_allPkts] at l1 l2
    omega

/-- **C26** (no changes).  Without progression order changes the packets come in exactly the nested loops of the
standard. -/
theorem C26_no_changes {T : TileP} (h : T.Ok) {po : Nat} (hpo : po ≤ 5) : traverse T [] po = .ok (T.std (whole T po)) := by
  rw [C26_order h (by simp) hpo]
  have e : T.clamp (whole T po) = whole T po := by
    unfold TileP.clamp whole
    rw [Nat.min_self, Nat.min_self]
  simp only [List.nil_append, List.flatMap_cons, List.flatMap_nil, List.append_nil, e]
  unfold firsts
  rw [foldl_addFirst_nodup (nodup_std h (Nat.le_refl _)) (by simp), List.nil_append]

/-- **C26** (next frames).  The order kept for the next frames is the same one when the tile has at most 256 components
and 65536 precincts per resolution. -/
theorem C26_replay {T : TileP} (h : T.Ok) {poc : List Seg} {po : Nat} (hpoc : ∀ S ∈ poc, S.PO ≤ 5) (hpo : po ≤ 5)
    (hc : T.ncomp ≤ 256) (hp : ∀ c < T.ncomp, ∀ r ≤ (T.comp c).NL, T.wide c r * T.high c r ≤ 65536) :
    ∃ out, traverse T poc po = .ok out ∧ out.map cacheEntry = out := by
  obtain ⟨out, h1, -, -, h2⟩ := C26_exactly_once h hpoc hpo
  refine ⟨out, h1, ?_⟩
  conv => rhs; rw [← List.map_id out]
  refine List.map_congr_left fun q hq => ?_
  obtain ⟨-, a, b, c⟩ := (h2 q).1 hq
  have := hp _ a _ b
  unfold cacheEntry
  rw [Nat.mod_eq_of_lt (by omega), Nat.mod_eq_of_lt (by omega)]
  rfl

/-! ## The hypotheses are met; what happens outside them -/

/-- A tile with an odd origin, two components, the second subsampled, and small precincts. -/
def exTile : TileP :=
  { x := (5, 40), y := (3, 21), layers := 2, ncomp := 2,
    comp := fun c => { NL := 2, subx := c + 1, suby := c + 1, ppx := fun r => r + 2, ppy := fun _ => 3 } }

theorem exTile_ok : exTile.Ok where
  x := by decide
  y := by decide
  comps := by decide
  layers := by decide
  subx := by decide
  suby := by decide
  roomx := by decide
  roomy := by decide
  count := by decide

example : exTile.total = 52 := by decide +kernel

/-- A progression order change in front: resolution 1, first layer, in order PCRL; then the rest in order RPCL. -/
example : (traverse exTile [⟨1, 0, 1, 2, 2, 3⟩] 2).map (fun out => (out.length, out.take 10)) =
    .ok (52, [⟨0, 1, 0, 0⟩, ⟨0, 1, 1, 0⟩, ⟨0, 1, 0, 1⟩, ⟨0, 1, 0, 2⟩, ⟨0, 1, 1, 1⟩, ⟨0, 1, 0, 3⟩, ⟨0, 1, 0, 4⟩, ⟨0, 1, 0, 5⟩,
      ⟨0, 0, 0, 0⟩, ⟨1, 0, 0, 0⟩]) := by decide +kernel

/-- A shift past the word: 17 decomposition levels with the greatest precinct size, which the syntax allows. -/
def deepTile : TileP :=
  { x := (0, 8), y := (0, 8), layers := 1, ncomp := 1,
    comp := fun _ => { NL := 17, subx := 1, suby := 1, ppx := fun _ => 15, ppy := fun _ => 15 } }

theorem C26_deep_tile_undefined : traverse deepTile [] 2 = .error .undefined := by decide +kernel

/-- A component subsampled by 2 with 16 levels: the modulus is `2 * 2 ^ 31`, which is 0 in 32 bits. -/
def evenTile : TileP :=
  { x := (0, 8), y := (0, 8), layers := 1, ncomp := 1,
    comp := fun _ => { NL := 16, subx := 2, suby := 2, ppx := fun _ => 15, ppy := fun _ => 15 } }

theorem C26_modulus_zero_undefined : traverse evenTile [] 2 = .error .undefined := by decide +kernel

/-- Component 256 is replayed as component 0. -/
theorem C26_replay_component_aliases : cacheEntry ⟨0, 0, 256, 0⟩ = ⟨0, 0, 0, 0⟩ ∧ cacheEntry ⟨0, 0, 0, 65536⟩ = ⟨0, 0, 0, 0⟩ := by decide

end Verif.Tile
