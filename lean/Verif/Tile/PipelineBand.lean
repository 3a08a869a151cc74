import Verif.Tile.PipelineLemmas
/-
Lemmas for C67: the geometry of a legal tile, packets, one subband.
-/
namespace Verif.Tile.Pipe
open Verif.Packet (CodedBlock CodedBand DecBlock Attached Precinct Delivered Recovered)

/-- What C67 asks of the coding parameters. -/
structure Coding.Legal (C : Coding) : Prop where
  tile : C.T.Ok
  layers : C.T.layers = 1
  poc : ∀ S ∈ C.poc, S.PO ≤ 5
  po : C.po ≤ 5
  xcb : 2 ≤ C.xcb
  ycb : 2 ≤ C.ycb
  cb : C.xcb + C.ycb ≤ 12
  roomx : C.T.x.2 ≤ 2 ^ 31
  roomy : C.T.y.2 ≤ 2 ^ 31
  levels : ∀ c < C.T.ncomp, (C.T.comp c).NL ≤ 30
  words : ∀ c < C.T.ncomp, ∀ w ∈ C.steps c, w < 256

/-! ## Geometry -/

theorem tc_eq {s : Span} {sub : Nat} (hs : s.1 < s.2) (hsub : 0 < sub) (h1 : s.2 + sub ≤ 2 ^ 32) :
    tcSpan s sub = (cdiv s.1 sub, cdiv s.2 sub) := by
  unfold tcSpan
  rw [ceilInt_eq hsub (by omega), ceilInt_eq hsub (by omega)]

theorem axis_ok {s : Span} {sub NL r lpp cb o : Nat} (hs : s.1 < s.2) (hsub : 0 < sub) (hNL : NL ≤ 30) (hr : r ≤ NL)
    (h1 : s.2 + sub ≤ 2 ^ 32) (h2 : s.2 + 2 ^ lpp ≤ 2 ^ 32) (h3 : s.2 ≤ 2 ^ 31) (hcb : 0 < cb) (hcb' : cb ≤ 1024)
    (ho : Orient r (Coding.sr r) o) :
    AxisOk (tcSpan s sub) ((resSpan (tcSpan s sub) NL r).getD (0, 0)) NL r lpp cb (Coding.sr r) o := by
  have hp : 2 ^ (NL - r + 1) ≤ 2 ^ 31 := Nat.pow_le_pow_right (by omega) (by omega)
  have hp0 : 2 ^ (NL - r) ≤ 2 ^ 31 := Nat.pow_le_pow_right (by omega) (by omega)
  have e := res_axis (NL := NL) (r := r) hs hsub (by omega) h1 (by omega)
  have c2 := cdiv_le_self (t := s.2) hsub
  have c3 : tr s.2 sub (NL - r) ≤ cdiv s.2 sub := cdiv_le_self (Nat.two_pow_pos _)
  rw [e]
  refine ⟨e, ?_, hr, ho, hcb, ?_, ?_, ?_⟩
  · rw [tc_eq hs hsub h1]; exact cdiv_mono (by omega)
  · rw [tc_eq hs hsub h1]; simp only; omega
  · show tr s.2 sub (NL - r) + 2 ^ lpp ≤ 2 ^ 32; omega
  · show tr s.2 sub (NL - r) + cb + 2 ≤ 2 ^ 32; omega

theorem orient_x {r b : Nat} (hb : b ∈ Coding.bands r) : Orient r (Coding.sr r) (b % 2) := by
  unfold Orient Coding.sr
  unfold Coding.bands at hb
  split
  · rename_i h; rw [if_pos h] at hb; simp at hb; subst hb; simp
  · exact ⟨rfl, by omega⟩

theorem orient_y {r b : Nat} (hb : b ∈ Coding.bands r) : Orient r (Coding.sr r) (b / 2) := by
  unfold Orient Coding.sr
  unfold Coding.bands at hb
  split
  · rename_i h; rw [if_pos h] at hb; simp at hb; subst hb; simp
  · rename_i h; rw [if_neg h] at hb; simp at hb; exact ⟨rfl, by omega⟩

section
variable {C : Coding} (h : C.Legal)
include h

theorem cbx_le : 2 ^ C.xcb ≤ 1024 := by
  have := h.cb; have := h.ycb
  exact (Nat.pow_le_pow_right (by omega) (show C.xcb ≤ 10 by omega)).trans (by norm_num)

theorem cby_le : 2 ^ C.ycb ≤ 1024 := by
  have := h.cb; have := h.xcb
  exact (Nat.pow_le_pow_right (by omega) (show C.ycb ≤ 10 by omega)).trans (by norm_num)

theorem axis_x {c r b : Nat} (hc : c < C.T.ncomp) (hr : r ≤ (C.T.comp c).NL) (hb : b ∈ Coding.bands r) :
    AxisOk (C.tcx c) (C.T.resx c r) (C.T.comp c).NL r ((C.T.comp c).ppx r) (2 ^ C.xcb) (Coding.sr r) (b % 2) := by
  have hh := roomx' h.tile hc hr
  exact axis_ok h.tile.x (h.tile.subx c hc) (h.levels c hc) hr hh.2.1 hh.2.2.2.1 h.roomx (Nat.two_pow_pos _) (cbx_le h)
    (orient_x hb)

theorem axis_y {c r b : Nat} (hc : c < C.T.ncomp) (hr : r ≤ (C.T.comp c).NL) (hb : b ∈ Coding.bands r) :
    AxisOk (C.tcy c) (C.T.resy c r) (C.T.comp c).NL r ((C.T.comp c).ppy r) (2 ^ C.ycb) (Coding.sr r) (b / 2) := by
  have hh := roomy' h.tile hc hr
  exact axis_ok h.tile.y (h.tile.suby c hc) (h.levels c hc) hr hh.2.1 hh.2.2.2.1 h.roomy (Nat.two_pow_pos _) (cby_le h)
    (orient_y hb)

theorem setup {c r b : Nat} (hc : c < C.T.ncomp) (hr : r ≤ (C.T.comp c).NL) (hb : b ∈ Coding.bands r) :
    Strip.Setup (C.tcx c) (C.tcy c) (C.T.resx c r) (C.T.resy c r) (C.T.comp c).NL r ((C.T.comp c).ppx r)
      ((C.T.comp c).ppy r) (2 ^ C.xcb) (2 ^ C.ycb) (Coding.sr r) (b % 2) (b / 2) ((size (C.bandx c r b) + 31) / 32 * 32) :=
  ⟨axis_x h hc hr hb, axis_y h hc hr hb, by show size (C.bandx c r b) ≤ _; omega⟩

end

/-- The subband in terms of the transform. -/
theorem band_span {tc s : Span} {NL r lpp cb sr o : Nat} (h : AxisOk tc s NL r lpp cb sr o) :
    subbandSpan tc s NL r o = if r = 0 then low NL tc else if o = 0 then lo (low (NL - r) tc) else hi (low (NL - r) tc) := by
  have hlt : NL - r < 32 := by
    have := h.res; unfold resSpan at this; split at this
    · assumption
    · simp at this
  have hp1 : 2 ^ (NL - r + 1) = 2 * 2 ^ (NL - r) := Nat.pow_succ'
  have r1 := h.room1
  have hle := h.le
  have hse : s = low (NL - r) tc := by
    have := h.res
    rw [resSpan_eq hlt (by omega) (by omega), Option.some.injEq] at this
    exact this.symm
  have ho := h.orient
  unfold Orient at ho
  unfold subbandSpan
  by_cases hr : r = 0
  · rw [if_pos hr, if_pos hr, hse, hr, Nat.sub_zero]
  · rw [if_neg hr] at ho
    rw [if_neg hr, if_neg hr, bandSpan_eq (by omega) ho.2 (by omega) (by omega), Nat.add_sub_cancel]
    by_cases h0 : o = 0
    · rw [if_pos h0, h0]; rfl
    · have : o = 1 := by omega
      rw [if_neg h0, this]; rfl

/-- A resolution of the component has columns. -/
def Wide (C : Coding) (c : Nat) : Prop := ∀ r, 1 ≤ r → r ≤ (C.T.comp c).NL → 0 < size (C.T.resx c r)

/-- The samples of a component have the size of the tile-component. -/
def Fits (C : Coding) (img : Nat → List (List Int)) : Prop :=
  ∀ c < C.T.ncomp, (img c).length = size (C.tcy c) ∧ ∀ r ∈ img c, r.length = size (C.tcx c)

section
variable {C : Coding} (h : C.Legal) {img : Nat → List (List Int)}
include h

theorem resx_low {c r : Nat} (hc : c < C.T.ncomp) (hr : r ≤ (C.T.comp c).NL) :
    C.T.resx c r = low ((C.T.comp c).NL - r) (C.tcx c) := by
  have hh := roomx' h.tile hc hr
  rw [resx_eq h.tile hc hr]
  unfold Coding.tcx low tr
  rw [tc_eq h.tile.x (h.tile.subx c hc) hh.2.1]

/-- The transform of a component: defined, of the expected shape, and undone by the synthesis. -/
theorem transform {c : Nat} (hc : c < C.T.ncomp) (hi' : Fits C img) (hw : Wide C c) :
    ∃ t, Dwt.analyseLevels (C.T.comp c).NL ((C.tcx c).1 : Int) ((C.tcy c).1 : Int) (img c) = some t ∧
      t.2.length = (C.T.comp c).NL ∧
      Dwt.synthesiseLevels ((C.tcx c).1 : Int) ((C.tcy c).1 : Int) t.1 t.2 = some (img c) ∧
      ∀ r b, r ≤ (C.T.comp c).NL → b ∈ Coding.bands r →
        ∃ rows, select (C.T.comp c).NL r b t = some rows ∧ Shaped (C.bandy c r b) (C.bandx c r b) rows := by
  have hx : (C.tcx c).1 ≤ (C.tcx c).2 := (axis_x h (r := 0) hc (by omega) (b := 0) (by simp [Coding.bands])).le
  have hy : (C.tcy c).1 ≤ (C.tcy c).2 := (axis_y h (r := 0) hc (by omega) (b := 0) (by simp [Coding.bands])).le
  have hlow : ∀ l < (C.T.comp c).NL, 0 < size (low l (C.tcx c)) := by
    intro l hl
    have := hw ((C.T.comp c).NL - l) (by omega) (by omega)
    rwa [resx_low h hc (by omega), show (C.T.comp c).NL - ((C.T.comp c).NL - l) = l by omega] at this
  obtain ⟨ll, ds, e, l, s⟩ := Dwt.C27_image_round_trip (C.T.comp c).NL ((C.tcx c).1 : Int) ((C.tcy c).1 : Int) (by omega)
    (by omega) (size (C.tcx c)) (img c) (hi' c hc).2 (by
      intro k hk
      have h1 := hlow k hk
      unfold low size cdiv at h1
      unfold size
      have e1 : (((C.tcx c).1 : Int) + ((C.tcx c).2 - (C.tcx c).1 : Nat)) = ((C.tcx c).2 : Int) := by omega
      rw [e1]
      have e2 : ∀ n : Nat, ((n : Int) + 2 ^ k - 1) / 2 ^ k = ((n + 2 ^ k - 1) / 2 ^ k : Nat) := by
        intro n
        have := Nat.two_pow_pos k
        rw [Int.natCast_ediv, Nat.cast_sub (by omega)]
        push_cast
        rfl
      rw [e2, e2]
      simp only at h1
      omega)
  refine ⟨(ll, ds), e, l, s, ?_⟩
  have sh := levels_shape (C.T.comp c).NL hx hy (hi' c hc) hlow e
  intro r b hr hb
  unfold select Coding.bandx Coding.bandy
  rw [band_span (axis_x h hc hr hb), band_span (axis_y h hc hr hb)]
  by_cases h0 : r = 0
  · rw [if_pos h0, if_pos h0, if_pos h0]
    exact ⟨_, rfl, sh.1⟩
  · rw [if_neg h0, if_neg h0, if_neg h0]
    obtain ⟨d, e1, s1, s2, s3⟩ := sh.2 ((C.T.comp c).NL - r) (by omega)
    unfold Coding.bands at hb
    rw [if_neg h0] at hb
    refine ⟨_, by rw [e1]; rfl, ?_⟩
    simp only [List.mem_cons, List.not_mem_nil, or_false] at hb
    rcases hb with rfl | rfl | rfl
    · exact s1
    · exact s2
    · exact s3

end

/-! ## Lists -/

theorem mapM_exists {α β : Type} {f : α → Option β} {P : α → β → Prop} : ∀ {l : List α}, (∀ a ∈ l, ∃ b, f a = some b ∧ P a b) →
    ∃ bs, l.mapM f = some bs ∧ List.Forall₂ P l bs := by
  intro l
  induction l with
  | nil => intro _; exact ⟨[], rfl, .nil⟩
  | cons a l ih =>
    intro h
    obtain ⟨b, e, p⟩ := h a (by simp)
    obtain ⟨bs, e2, p2⟩ := ih (fun a ha => h a (by simp [ha]))
    exact ⟨b :: bs, by rw [List.mapM_cons, e, e2]; rfl, .cons p p2⟩

theorem forall₂_get {α β : Type} {R : α → β → Prop} {l : List α} {l' : List β} (h : List.Forall₂ R l l') :
    ∀ {j : Nat} {a : α}, l[j]? = some a → ∃ b, l'[j]? = some b ∧ R a b := by
  induction h with
  | nil => intro j a e; simp at e
  | cons r _ ih =>
    intro j a e
    cases j with
    | zero => simp only [List.getElem?_cons_zero, Option.some.injEq] at e ⊢; subst e; exact ⟨_, rfl, r⟩
    | succ j => simp only [List.getElem?_cons_succ] at e ⊢; exact ih e

theorem forall₂_map_eq {α β γ : Type} {R : α → β → Prop} {f : α → γ} {g : β → γ} (hfg : ∀ a b, R a b → f a = g b) {l : List α}
    {l' : List β} (h : List.Forall₂ R l l') : l.map f = l'.map g := by
  induction h with
  | nil => rfl
  | cons r _ ih => rw [List.map_cons, List.map_cons, hfg _ _ r, ih]

theorem forall₂_comp {α β γ : Type} {R : α → β → Prop} {S : β → γ → Prop} {l : List α} {l' : List β} (h : List.Forall₂ R l l') :
    ∀ {l'' : List γ}, List.Forall₂ S l' l'' → List.Forall₂ (fun a c => ∃ b, R a b ∧ S b c) l l'' := by
  induction h with
  | nil => intro l'' h2; cases h2; exact .nil
  | cons r _ ih => intro l'' h2; cases h2 with | cons s h2 => exact .cons ⟨_, r, s⟩ (ih h2)

theorem forall₂_right {α β : Type} {R : α → β → Prop} {l : List α} {l' : List β} (h : List.Forall₂ R l l') :
    ∀ b ∈ l', ∃ a ∈ l, R a b := by
  induction h with
  | nil => intro b hb; simp at hb
  | cons r _ ih =>
    intro b hb
    rcases List.mem_cons.1 hb with rfl | hb
    · exact ⟨_, by simp, r⟩
    · obtain ⟨a, ha, hr⟩ := ih b hb
      exact ⟨a, by simp [ha], hr⟩

theorem lookup_spec {R : Pkt → Precinct → Prop} {pkts : List Pkt} {ps : List Precinct} (h : List.Forall₂ R pkts ps) {q : Pkt}
    (hq : q ∈ pkts) : ∃ P, lookup pkts ps q = some P ∧ R q P := by
  induction h with
  | nil => simp at hq
  | @cons a P l l' r _ ih =>
    unfold lookup
    rw [List.zip_cons_cons, List.find?_cons]
    by_cases e : a = q
    · subst e
      exact ⟨P, by simp, r⟩
    · have hq' : q ∈ l := by
        rcases List.mem_cons.1 hq with rfl | hq
        · exact absurd rfl e
        · exact hq
      obtain ⟨P', e', r'⟩ := ih hq'
      refine ⟨P', ?_, r'⟩
      simp only [e, decide_false]
      exact e'

/-! ## One subband of a packet -/

/-- The coefficient at row `y`, column `x` of the code-block that begins at `y0`, `x0`. -/
def coef (C : Coding) (rows : List (List Int)) (c r b y0 x0 y x : Nat) : Int :=
  pix rows (y0 + y - (C.bandy c r b).1) (x0 + x - (C.bandx c r b).1)

/-- A code-block that can be carried and decoded. -/
def Good (C : Coding) (mb w h : Nat) (f : Nat → Nat → Int) (k : CodedBlock) : Prop :=
  k.Sound ∧ ∀ (e : Memory) (d : DecBlock) (m : Attached), e.pv < 4 → e.pd < 4 → Recovered k.info d → m.bytes = k.data →
    ∃ o, decBlock C mb w h e d m = some o ∧ ∀ y < h, ∀ x < w, value o y x = f y x

/-- A subband of a packet with all its code-blocks. -/
def BandGood (C : Coding) (img : Nat → List (List Int)) (q : Pkt) (b : Nat) (B : CodedBand) : Prop :=
  (B.w, B.h) = C.grid q.c q.r b q.p ∧ ∃ rows mb, subband C img q.c q.r b = some rows ∧ C.mb C.steps q.c q.r b = some mb ∧
    List.Forall₂ (fun k blk => Good C mb (size (C.blkx q.c q.r b q.p (k % B.w))) (size (C.blky q.c q.r b q.p (k / B.w)))
      (coef C rows q.c q.r b (C.blky q.c q.r b q.p (k / B.w)).1 (C.blkx q.c q.r b q.p (k % B.w)).1) blk)
      (List.range (B.w * B.h)) B.blocks

/-- `M_b` is announced for every subband, and large enough for its coefficients. -/
def Covered (C : Coding) (img : Nat → List (List Int)) : Prop :=
  ∀ c < C.T.ncomp, ∀ r ≤ (C.T.comp c).NL, ∀ b ∈ Coding.bands r, ∀ rows, subband C img c r b = some rows →
    ∃ mb, C.mb C.steps c r b = some mb ∧ 1 ≤ mb ∧ mb ≤ 21 ∧ ∀ row ∈ rows, ∀ v ∈ row, v.natAbs < 2 ^ mb

theorem pix_lt {rows : List (List Int)} {n : Nat} (h : ∀ row ∈ rows, ∀ v ∈ row, v.natAbs < n) (hn : 0 < n) (y x : Nat) :
    (pix rows y x).natAbs < n := by
  unfold pix
  rw [List.getD_eq_getElem?_getD, List.getD_eq_getElem?_getD]
  cases hy : rows[y]? with
  | none => simpa using hn
  | some row =>
    simp only [Option.getD_some]
    cases hx : row[x]? with
    | none => simpa using hn
    | some v => exact h row (List.mem_of_getElem? hy) v (List.mem_of_getElem? hx)

section
variable {C : Coding} (h : C.Legal) {img : Nat → List (List Int)}
include h

theorem subband_some {c : Nat} (hc : c < C.T.ncomp) (hi' : Fits C img) (hw : Wide C c) {r b : Nat} (hr : r ≤ (C.T.comp c).NL)
    (hb : b ∈ Coding.bands r) : ∃ rows, subband C img c r b = some rows ∧ Shaped (C.bandy c r b) (C.bandx c r b) rows := by
  obtain ⟨t, e, -, -, hs⟩ := transform h hc hi' hw
  obtain ⟨rows, e2, sh⟩ := hs r b hr hb
  refine ⟨rows, ?_, sh⟩
  unfold subband
  rw [e]
  simp only [Option.bind_eq_bind, Option.bind_some, e2, if_pos (shaped_iff.2 sh)]

/-- The code-blocks of a precinct: not empty, no larger than `2^xcb × 2^ycb`. -/
theorem blk_size {c r b p k l : Nat} (hc : c < C.T.ncomp) (hr : r ≤ (C.T.comp c).NL) (hb : b ∈ Coding.bands r)
    (hp : p < C.T.npw c r * C.T.nph c r) (hk : k < (C.grid c r b p).1) (hl : l < (C.grid c r b p).2) :
    (0 < size (C.blkx c r b p k) ∧ size (C.blkx c r b p k) ≤ 2 ^ C.xcb) ∧
      0 < size (C.blky c r b p l) ∧ size (C.blky c r b p l) ≤ 2 ^ C.ycb := by
  have hn : 0 < C.T.npw c r := by
    rcases Nat.eq_zero_or_pos (C.T.npw c r) with h0 | h0
    · rw [h0, Nat.zero_mul] at hp; omega
    · exact h0
  have hpx := (Strip.pband_in (axis_x h hc hr hb) (k := p % C.T.npw c r) (Nat.mod_lt _ hn)).2.2.1
  have hpy := (Strip.pband_in (axis_y h hc hr hb) (k := p / C.T.npw c r) (Nat.div_lt_of_lt_mul hp)).2.2.1
  have one : ∀ {s : Span} {e k : Nat}, s.2 + 2 ^ e ≤ 2 ^ 32 → k < numCblk s (2 ^ e) →
      0 < size (cblkSpan s (2 ^ e) k) ∧ size (cblkSpan s (2 ^ e) k) ≤ 2 ^ e := by
    intro s e k hs hk
    have hh := Strip.cblk_plain (Nat.two_pow_pos e) hs hk
    have h2 := hh.2.1
    have e2 : 2 ^ e * (k + 1 + s.1 / 2 ^ e) = 2 ^ e * (k + s.1 / 2 ^ e) + 2 ^ e := by ring
    refine ⟨by unfold size; omega, ?_⟩
    rw [hh.1] at h2 ⊢
    unfold size
    simp only at h2 ⊢
    rw [e2] at h2 ⊢
    generalize 2 ^ e * (k + s.1 / 2 ^ e) = z at *
    generalize 2 ^ e = w at *
    omega
  exact ⟨one hpx hk, one hpy hl⟩

/-- Encoding a subband of a packet. -/
theorem band_good (hi' : Fits C img) (hw : ∀ c < C.T.ncomp, Wide C c) (hcov : Covered C img) {q : Pkt} (hq : C.T.Valid q) {b : Nat}
    (hb : b ∈ Coding.bands q.r) : ∃ B, codedBand C img q b = some B ∧ BandGood C img q b B := by
  obtain ⟨-, hc, hr, hp⟩ := hq
  rw [← npw_eq h.tile hc hr, ← nph_eq h.tile hc hr] at hp
  obtain ⟨rows, es, -⟩ := subband_some h hc hi' (hw _ hc) hr hb
  obtain ⟨mb, em, h1, h2, hv⟩ := hcov _ hc _ hr _ hb _ es
  obtain ⟨bs, e, hbs⟩ := mapM_exists (l := List.range ((C.grid q.c q.r b q.p).1 * (C.grid q.c q.r b q.p).2))
    (f := fun k => codedBlock mb (size (C.blkx q.c q.r b q.p (k % (C.grid q.c q.r b q.p).1)))
      (size (C.blky q.c q.r b q.p (k / (C.grid q.c q.r b q.p).1)))
      (coef C rows q.c q.r b (C.blky q.c q.r b q.p (k / (C.grid q.c q.r b q.p).1)).1
        (C.blkx q.c q.r b q.p (k % (C.grid q.c q.r b q.p).1)).1))
    (P := fun k blk => Good C mb (size (C.blkx q.c q.r b q.p (k % (C.grid q.c q.r b q.p).1)))
      (size (C.blky q.c q.r b q.p (k / (C.grid q.c q.r b q.p).1)))
      (coef C rows q.c q.r b (C.blky q.c q.r b q.p (k / (C.grid q.c q.r b q.p).1)).1
        (C.blkx q.c q.r b q.p (k % (C.grid q.c q.r b q.p).1)).1) blk) (by
    intro k hk
    rw [List.mem_range] at hk
    have hg : 0 < (C.grid q.c q.r b q.p).1 := by
      rcases Nat.eq_zero_or_pos (C.grid q.c q.r b q.p).1 with h0 | h0
      · rw [h0, Nat.zero_mul] at hk; omega
      · exact h0
    have hz := blk_size h hc hr hb hp (Nat.mod_lt k hg) (Nat.div_lt_of_lt_mul hk)
    obtain ⟨blk, e1, e2, e3⟩ := block_trip C (f := coef C rows q.c q.r b (C.blky q.c q.r b q.p (k / (C.grid q.c q.r b q.p).1)).1
        (C.blkx q.c q.r b q.p (k % (C.grid q.c q.r b q.p).1)).1) hz.1.1 hz.2.1 h.xcb h.ycb h.cb hz.1.2 hz.2.2 ⟨h1, h2⟩
      (fun y _ x _ => pix_lt hv (Nat.two_pow_pos _) _ _)
    exact ⟨blk, e1, e2, e3⟩)
  refine ⟨⟨(C.grid q.c q.r b q.p).1, (C.grid q.c q.r b q.p).2, bs⟩, ?_, rfl, rows, mb, es, em, hbs⟩
  unfold codedBand
  simp only [es, em, Option.bind_eq_bind, Option.bind_some]
  show ((List.range _).mapM (fun k => codedBlock mb _ _ (coef C rows q.c q.r b _ _))).bind _ = _
  rw [e]
  rfl

theorem mb_same {c r b : Nat} (hc : c < C.T.ncomp) :
    C.mb (fun c => (C.steps c).map throughByte) c r b = C.mb C.steps c r b := by
  have : (C.steps c).map throughByte = C.steps c := by
    conv_rhs => rw [← List.map_id (C.steps c)]
    exact List.map_congr_left fun w hw => Nat.mod_eq_of_lt (h.words c hc w hw)
  unfold Coding.mb
  show Option.map _ ((C.steps c).map throughByte)[_]? = _
  rw [this]

end

/-- What the decoder has for a packet. -/
def Arrived (C : Coding) (img : Nat → List (List Int)) (q : Pkt) (P : Precinct) : Prop :=
  ∃ bands, List.Forall₂ (BandGood C img q) (Coding.bands q.r) bands ∧ Delivered bands P

theorem bands_get {r b : Nat} (hb : b ∈ Coding.bands r) : (Coding.bands r)[if r = 0 then 0 else b - 1]? = some b := by
  unfold Coding.bands at hb ⊢
  split
  · rename_i h; rw [if_pos h] at hb; simp at hb; subst hb; rfl
  · rename_i h; rw [if_neg h] at hb; simp at hb; rcases hb with rfl | rfl | rfl <;> rfl

theorem block_arrived {C : Coding} (h : C.Legal) {img : Nat → List (List Int)} {E : Env} {pkts : List Pkt}
    {ps : List Precinct} (hps : List.Forall₂ (Arrived C img) pkts ps) {c r b : Nat} (hb : b ∈ Coding.bands r) {i : Strip.Id}
    (hc : c < C.T.ncomp) (hq : (⟨0, r, c, i.1⟩ : Pkt) ∈ pkts) (hE : ∀ i, (E.mem c r b i).pv < 4 ∧ (E.mem c r b i).pd < 4)
    (hy : i.2.1 < (C.grid c r b i.1).2) (hx : i.2.2 < (C.grid c r b i.1).1) {rows : List (List Int)}
    (hrows : subband C img c r b = some rows) :
    ∃ o, blockData C E pkts ps c r b i = some o ∧ ∀ y < size (C.blky c r b i.1 i.2.1), ∀ x < size (C.blkx c r b i.1 i.2.2),
      value o y x = coef C rows c r b (C.blky c r b i.1 i.2.1).1 (C.blkx c r b i.1 i.2.2).1 y x := by
  obtain ⟨P, eP, bands, hbands, hdel⟩ := lookup_spec hps hq
  obtain ⟨B, eB, hg, rows', mb, er, em, hblk⟩ := forall₂_get hbands (bands_get hb)
  simp only at hg er em hblk
  rw [hrows, Option.some.injEq] at er
  subst er
  obtain ⟨D, eD, hD⟩ := forall₂_get hdel.1 eB
  have hM := congrArg (fun l => l[if r = 0 then 0 else b - 1]?) hdel.2
  simp only [List.getElem?_map, eB, Option.map_some] at hM
  obtain ⟨M, eM, hM⟩ := Option.map_eq_some_iff.1 hM
  have hw : B.w = (C.grid c r b i.1).1 := congrArg Prod.fst hg
  have hh : B.h = (C.grid c r b i.1).2 := congrArg Prod.snd hg
  have hk : i.2.1 * (C.grid c r b i.1).1 + i.2.2 < B.w * B.h := by
    rw [hw, hh]
    calc i.2.1 * (C.grid c r b i.1).1 + i.2.2 < i.2.1 * (C.grid c r b i.1).1 + (C.grid c r b i.1).1 := by omega
      _ = (C.grid c r b i.1).1 * (i.2.1 + 1) := by ring
      _ ≤ _ := Nat.mul_le_mul_left _ hy
  obtain ⟨blk, ek, -, hgood⟩ := forall₂_get hblk (List.getElem?_range hk)
  have emod : (i.2.1 * (C.grid c r b i.1).1 + i.2.2) % B.w = i.2.2 := by
    rw [hw, Nat.mul_comm, Nat.mul_add_mod, Nat.mod_eq_of_lt hx]
  have ediv : (i.2.1 * (C.grid c r b i.1).1 + i.2.2) / B.w = i.2.1 := by
    rw [hw, Nat.mul_comm, Nat.mul_add_div (by omega), Nat.div_eq_of_lt hx, Nat.add_zero]
  rw [emod, ediv] at hgood
  obtain ⟨d, ed, hd⟩ := forall₂_get (List.forall₂_map_left_iff.1 hD) ek
  have hm := congrArg (fun l => l[i.2.1 * (C.grid c r b i.1).1 + i.2.2]?) hM
  simp only [List.getElem?_map, ek, Option.map_some] at hm
  obtain ⟨m, emm, hm⟩ := Option.map_eq_some_iff.1 hm
  obtain ⟨o, eo, ho⟩ := hgood (E.mem c r b i) d m (hE i).1 (hE i).2 hd hm
  refine ⟨o, ?_, ho⟩
  unfold blockData
  simp only [eP, mb_same h hc, em, eD, eM, ed, emm, Option.bind_eq_bind, Option.bind_some]
  exact eo

end Verif.Tile.Pipe
