import Verif.Tile.PipelineBand
/-
Lemmas for C67: from the packets to the samples.
-/
namespace Verif.Tile.Pipe
open Verif.Packet (CodedBlock CodedBand DecBlock Attached Precinct Delivered Recovered)

theorem range_chain (n : Nat) : ∀ a, (List.range' a n).IsChain (fun a b => b = a ∨ b = a + 1) := by
  induction n with
  | zero => intro a; simp
  | succ n ih =>
    intro a
    rw [List.range'_succ]
    cases n with
    | zero => simp
    | succ n =>
      have := ih (a + 1)
      rw [List.range'_succ] at this ⊢
      exact List.IsChain.cons_cons (Or.inr rfl) this

theorem forall₂_both {α β : Type} {R S : α → β → Prop} {l : List α} {l' : List β} (h : List.Forall₂ R l l')
    (f : ∀ a ∈ l, ∀ b, R a b → S a b) : List.Forall₂ S l l' := by
  induction h with
  | nil => exact .nil
  | cons r _ ih => exact .cons (f _ (by simp) _ r) (ih fun a ha => f a (by simp [ha]))

theorem forall₂_len {α β : Type} {R : α → β → Prop} {l : List α} {l' : List β} (h : List.Forall₂ R l l') :
    l.length = l'.length := by
  induction h with
  | nil => rfl
  | cons _ _ ih => simp [ih]

theorem mem_allIds {B : Strip.Band Int} {i : Strip.Id} : i ∈ allIds B ↔ Strip.Valid B i := by
  obtain ⟨p, y, x⟩ := i
  unfold allIds Strip.Valid
  simp [List.mem_flatMap]

/-- The rows of the code-blocks do not cross strips. -/
def Aligned (C : Coding) : Prop :=
  ∀ c < C.T.ncomp, ∀ r ≤ (C.T.comp c).NL, ∀ b ∈ Coding.bands r,
    2 ^ C.ycb ∣ (C.bandy c r b).1 ∨ size (C.bandy c r b) ≤ 2 ^ C.ycb

/-- What is known of the decoder's surroundings: tasks run in any order, addresses modulo 4. -/
structure Env.Sane (E : Env) : Prop where
  sched : ∀ l, (E.sched l).Perm l
  pv : ∀ c r b i, (E.mem c r b i).pv < 4
  pd : ∀ c r b i, (E.mem c r b i).pd < 4

theorem rows_eq {rows : List (List Int)} {by' bx : Span} (sh : Shaped by' bx rows) {vs : List (Nat → Int)}
    (h : List.Forall₂ (fun y v => ∀ x, Has bx x → v (x - bx.1) = pix rows (y - by'.1) (x - bx.1))
      (List.range' by'.1 (size by')) vs) : vs.map (fun v => (List.range (size bx)).map v) = rows := by
  have hl := forall₂_len h
  rw [List.length_range'] at hl
  apply List.ext_getElem
  · rw [List.length_map, ← hl, sh.1]
  · intro y h1 h2
    rw [List.length_map] at h1
    rw [List.getElem_map]
    obtain ⟨v, ev, hv⟩ := forall₂_get h (j := y) (a := by'.1 + y) (by
      rw [List.getElem?_eq_getElem (by simpa using by omega), List.getElem_range']; simp)
    rw [List.getElem?_eq_getElem h1, Option.some.injEq] at ev
    have hr := sh.2 _ (List.getElem_mem h2)
    apply List.ext_getElem
    · rw [List.length_map, List.length_range, hr]
    · intro x h3 h4
      rw [List.getElem_map, List.getElem_range, ev]
      rw [List.length_map, List.length_range] at h3
      have hb : Has bx (bx.1 + x) := by unfold Has; unfold size at h3; omega
      have e := hv (bx.1 + x) hb
      rw [show bx.1 + x - bx.1 = x by omega, show by'.1 + y - by'.1 = y by omega] at e
      rw [e]
      unfold pix
      simp [List.getD_eq_getElem?_getD, List.getElem?_eq_getElem h2, List.getElem?_eq_getElem h4]

section
variable {C : Coding} (h : C.Legal) {img : Nat → List (List Int)}
include h

theorem dec_band (hi' : Fits C img) (hw : ∀ c < C.T.ncomp, Wide C c) (hal : Aligned C) {E : Env} (hE : E.Sane)
    {pkts : List Pkt} {ps : List Precinct} (hpk : ∀ q, q ∈ pkts ↔ C.T.Valid q)
    (hps : List.Forall₂ (Arrived C img) pkts ps) {c r b : Nat} (hc : c < C.T.ncomp) (hr : r ≤ (C.T.comp c).NL)
    (hb : b ∈ Coding.bands r) : decBand C E pkts ps c r b = subband C img c r b := by
  obtain ⟨rows, es, sh⟩ := subband_some h hc hi' (hw c hc) hr hb
  have hblk : ∀ i, Strip.Valid (rowBuf C c r b fun i => (blockData C E pkts ps c r b i).getD none) i →
      ∃ o, blockData C E pkts ps c r b i = some o ∧ ∀ y < size (C.blky c r b i.1 i.2.1), ∀ x < size (C.blkx c r b i.1 i.2.2),
        value o y x = coef C rows c r b (C.blky c r b i.1 i.2.1).1 (C.blkx c r b i.1 i.2.2).1 y x := by
    intro i hv
    have hq : (⟨0, r, c, i.1⟩ : Pkt) ∈ pkts := by
      rw [hpk]
      refine ⟨by rw [h.layers]; exact Nat.one_pos, hc, hr, ?_⟩
      rw [← npw_eq h.tile hc hr, ← nph_eq h.tile hc hr]
      exact hv.1
    exact block_arrived h hps hb hc hq (fun i => ⟨hE.pv c r b i, hE.pd c r b i⟩) hv.2.1 hv.2.2 es
  rw [es]
  unfold decBand
  simp only
  rw [if_pos (by
    rw [List.all_eq_true]
    intro i hi
    obtain ⟨o, e, -⟩ := hblk i (mem_allIds.1 hi)
    rw [e]; rfl)]
  split
  · rename_i h0
    congr 1
    symm
    rw [List.eq_replicate_iff]
    exact ⟨sh.1, fun row hrow => List.length_eq_zero_iff.1 (by rw [sh.2 row hrow, h0])⟩
  · have hS := setup h hc hr hb
    obtain ⟨vs, ev, hvs⟩ := Strip.C66_rows hS (fun i => (blockData C E pkts ps c r b i).getD none)
      (Strip.C66_aligned hS _ (hal c hc r hr b hb)) hE.sched E.pool E.ring E.ring'
      (List.range' (C.bandy c r b).1 (size (C.bandy c r b))) (range_chain _ _) (by
        intro y hy
        rw [List.mem_range'_1] at hy
        show Has (C.bandy c r b) y
        unfold Has; unfold size at hy; omega)
    have ev' : Strip.readRows (rowBuf C c r b fun i => (blockData C E pkts ps c r b i).getD none) E.sched E.pool
        (List.range' (C.bandy c r b).1 (size (C.bandy c r b))) (.init E.ring E.ring') = .ok vs := ev
    rw [ev']
    show some (vs.map _) = some rows
    rw [rows_eq sh]
    refine forall₂_both hvs ?_
    intro y hy v hv x hx
    obtain ⟨i, hval, hys, hxs, e⟩ := hv x hx
    obtain ⟨o, eo, ho⟩ := hblk i hval
    have e' : v (x - (C.bandx c r b).1) = _ := e
    rw [e']
    have hys' : Has (C.blky c r b i.1 i.2.1) y := hys
    have hxs' : Has (C.blkx c r b i.1 i.2.2) x := hxs
    have hval' : value o (y - (C.blky c r b i.1 i.2.1).1) (x - (C.blkx c r b i.1 i.2.2).1) =
        pix rows (y - (C.bandy c r b).1) (x - (C.bandx c r b).1) := by
      unfold Has at hys' hxs'
      rw [ho _ (by unfold size; omega) _ (by unfold size; omega)]
      unfold coef
      congr 1 <;> omega
    rw [← hval']
    show Strip.Blk.sample ⟨C.blky c r b i.1 i.2.1, C.blkx c r b i.1 i.2.2, (blockData C E pkts ps c r b i).getD none⟩ y x = _
    rw [eo]
    cases o <;> rfl

theorem dec_comp (hi' : Fits C img) (hw : ∀ c < C.T.ncomp, Wide C c) (hal : Aligned C) {E : Env} (hE : E.Sane)
    {pkts : List Pkt} {ps : List Precinct} (hpk : ∀ q, q ∈ pkts ↔ C.T.Valid q)
    (hps : List.Forall₂ (Arrived C img) pkts ps) {c : Nat} (hc : c < C.T.ncomp) :
    decComp C E pkts ps c = some (img c) := by
  obtain ⟨t, e, hl, hsyn, hs⟩ := transform h hc hi' (hw c hc)
  have key : ∀ r b, r ≤ (C.T.comp c).NL → b ∈ Coding.bands r →
      decBand C E pkts ps c r b = select (C.T.comp c).NL r b t := by
    intro r b hr hb
    rw [dec_band h hi' hw hal hE hpk hps hc hr hb]
    obtain ⟨rows, e2, sh⟩ := hs r b hr hb
    unfold subband
    rw [e]
    simp only [Option.bind_eq_bind, Option.bind_some, e2, if_pos (shaped_iff.2 sh)]
  have hds : ((List.range (C.T.comp c).NL).mapM fun i => do
      let hl ← decBand C E pkts ps c ((C.T.comp c).NL - i) 1
      let lh ← decBand C E pkts ps c ((C.T.comp c).NL - i) 2
      let hh ← decBand C E pkts ps c ((C.T.comp c).NL - i) 3
      pure (Dwt.Detail.mk hl lh hh)) = some t.2 := by
    obtain ⟨bs, eb, hb⟩ := mapM_exists (l := List.range (C.T.comp c).NL) (f := fun i => do
      let hl ← decBand C E pkts ps c ((C.T.comp c).NL - i) 1
      let lh ← decBand C E pkts ps c ((C.T.comp c).NL - i) 2
      let hh ← decBand C E pkts ps c ((C.T.comp c).NL - i) 3
      pure (Dwt.Detail.mk hl lh hh)) (P := fun i d => t.2[i]? = some d) (by
        intro i hi
        rw [List.mem_range] at hi
        have hr : (C.T.comp c).NL - i ≠ 0 := by omega
        have hm : ∀ b, b = 1 ∨ b = 2 ∨ b = 3 → b ∈ Coding.bands ((C.T.comp c).NL - i) := by
          intro b hb
          unfold Coding.bands
          rw [if_neg hr]; simp; omega
        have hi' : i < t.2.length := by omega
        rw [key _ 1 (by omega) (hm 1 (by omega)), key _ 2 (by omega) (hm 2 (by omega)), key _ 3 (by omega) (hm 3 (by omega))]
        unfold select
        rw [if_neg hr, if_neg hr, if_neg hr, show (C.T.comp c).NL - ((C.T.comp c).NL - i) = i by omega,
          List.getElem?_eq_getElem hi']
        exact ⟨_, rfl, rfl⟩)
    rw [eb]
    congr 1
    apply List.ext_getElem?
    intro i
    by_cases hi : i < (C.T.comp c).NL
    · obtain ⟨d, e1, e2⟩ := forall₂_get hb (List.getElem?_range hi)
      rw [e1, e2]
    · have := forall₂_len hb
      rw [List.length_range] at this
      rw [List.getElem?_eq_none (by omega), List.getElem?_eq_none (by omega)]
  unfold decComp
  rw [key 0 0 (by omega) (by simp [Coding.bands]), hds]
  exact hsyn

theorem lossless (hi' : Fits C img) (hw : ∀ c < C.T.ncomp, Wide C c) (hcov : Covered C img) (hal : Aligned C) {E : Env}
    (hE : E.Sane) (tail : List Nat) {fuel : Nat} (hf : 256 ≤ fuel) :
    ∃ bytes, encodeTile C img = some bytes ∧
      decodeTile C E fuel (bytes ++ tail) = some ((List.range C.T.ncomp).map img) := by
  obtain ⟨pkts, et, -, -, hpk⟩ := C26_exactly_once h.tile h.poc h.po
  obtain ⟨coded, ec, hco⟩ := mapM_exists (l := pkts) (f := fun q => (Coding.bands q.r).mapM (codedBand C img q))
    (P := fun q bands => List.Forall₂ (BandGood C img q) (Coding.bands q.r) bands)
    (fun q hq => mapM_exists fun b hb => band_good h hi' hw hcov ((hpk q).1 hq) hb)
  refine ⟨Packet.writePackets C.sop C.eph 0 coded, ?_, ?_⟩
  · unfold encodeTile
    rw [et]
    simp only [Except.toOption, Option.bind_eq_bind, Option.bind_some, ec]
    rfl
  · obtain ⟨ps, r', er, hd, -⟩ := Packet.C63_packets_round_trip C.sop C.eph tail fuel hf coded (by
      intro bands hbands B hB
      obtain ⟨q, -, hq⟩ := forall₂_right hco bands hbands
      obtain ⟨b, -, hg, rows, mb, -, -, hblk⟩ := forall₂_right hq B hB
      refine ⟨?_, ?_⟩
      · rw [← forall₂_len hblk, List.length_range]
      · intro k hk
        obtain ⟨-, -, hs, -⟩ := forall₂_right hblk k hk
        exact hs) 0 ⟨Packet.writePackets C.sop C.eph 0 coded ++ tail, 0, 0, 0⟩ (by simp) rfl rfl
    have hfresh : (pkts.map fun q => Precinct.fresh ((Coding.bands q.r).map fun b => C.grid q.c q.r b q.p)) =
        coded.map fun bands => .fresh (bands.map fun b => (b.w, b.h)) :=
      forall₂_map_eq (fun q bands hb => congrArg Precinct.fresh (forall₂_map_eq (fun b B hB => hB.1.symm) hb)) hco
    have hps : List.Forall₂ (Arrived C img) pkts ps := forall₂_comp hco hd
    unfold decodeTile
    rw [et]
    simp only [Except.toOption, Option.bind_eq_bind, Option.bind_some, hfresh, er]
    obtain ⟨out, eo, ho⟩ := mapM_exists (l := List.range C.T.ncomp) (f := decComp C E pkts ps) (P := fun c o => img c = o)
      (fun c hc => ⟨img c, dec_comp h hi' hw hal hE hpk hps (List.mem_range.1 hc), rfl⟩)
    rw [eo]
    congr 1
    have := forall₂_map_eq (f := img) (g := fun o => o) (fun a b hab => hab) ho
    rw [this, List.map_id']

end

end Verif.Tile.Pipe
