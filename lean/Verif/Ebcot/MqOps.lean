import Verif.Ebcot.MqRound
import Verif.Ebcot.BlockCode
/-
Segments in which the context states are reset on the way.
-/
namespace Verif.Ebcot
open Std (vr wr OkCode encodeOps resetCtx)

theorem ops_ready (ops : List (Option (Nat × Nat))) (e : Std.Enc) (h : Std.Ready e) : Std.Ready (encodeOps e ops) := by
  induction ops generalizing e with
  | nil => exact h
  | cons x ops ih =>
    cases x with
    | none => exact ih _ ⟨⟨h.inv.ct, h.inv.apos, h.inv.bound, h.inv.first, h.inv.stuffed, h.inv.ok, h.inv.ctw⟩, h.ct, h.lo, h.hi⟩
    | some x =>
      obtain ⟨up, n, hc, -⟩ := Std.encode_spec h x.1 x.2
      exact ih _ hc.ready

theorem reset_ready {e : Std.Enc} (h : Std.Ready e) : Std.Ready (resetCtx e) := ops_ready [none] e h

theorem ops_good (full : List Nat) (ops : List (Option (Nat × Nat))) (e : Std.Enc) (h : Std.Ready e) (g : Std.Good (encodeOps e ops) full) :
    Std.Good e full := by
  induction ops generalizing e with
  | nil => exact g
  | cons x ops ih =>
    cases x with
    | none =>
      have := ih _ (reset_ready h) g
      exact ⟨this.ext, this.low, this.up⟩
    | some x =>
      obtain ⟨up, n, hc, -⟩ := Std.encode_spec h x.1 x.2
      exact hc.good h.lo full (ih _ hc.ready g)

theorem ops_code (ops : List (Option (Nat × Nat))) (e : Std.Enc) (h : Std.Ready e) :
    OkCode (Std.flush (encodeOps e ops)) ∧
    ∃ full, Std.Good e full ∧ ∀ r, vr full r = vr (Std.flush (encodeOps e ops)) r ∧ wr full r = wr (Std.flush (encodeOps e ops)) r := by
  obtain ⟨hok, full, g, hv⟩ := Std.code_good [] _ (ops_ready ops e h)
  exact ⟨hok, full, ops_good full ops e h g, hv⟩

/-- The decoder is where the encoder was when `ops` was still to come; `fin` are the contexts at the end. -/
def OReads (buf : List Nat) (d : Mq) (ops : List (Option (Nat × Nat))) (fin : (Nat → Nat) × (Nat → Nat)) : Prop :=
  ∃ cod pos e, Holds buf cod pos ∧ cod = Std.flush (encodeOps e ops) ∧ Std.Ready e ∧ Rel cod pos d e ∧ CtxOk e.I e.MPS ∧
    (∀ x, some x ∈ ops → x.1 < 19 ∧ x.2 ≤ 1) ∧ ((encodeOps e ops).I, (encodeOps e ops).MPS) = fin

theorem OReads.step {buf : List Nat} {d : Mq} {cx b : Nat} {ops : List (Option (Nat × Nat))} {fin} (h : OReads buf d (some (cx, b) :: ops) fin) :
    ∃ d', decode buf d cx = .ok (b, d') ∧ OReads buf d' ops fin := by
  obtain ⟨cod, pos, e, hb, hcod, hr, hrel, hctx, hx, hfin⟩ := h
  obtain ⟨x1, x2⟩ := hx (cx, b) (List.mem_cons_self ..)
  have hready : Std.Ready (Std.encode e cx b) := by
    obtain ⟨up, n, hc, -⟩ := Std.encode_spec hr cx b
    exact hc.ready
  obtain ⟨hok, full, hg, hfull⟩ := ops_code ops _ hready
  have hcod' : cod = Std.flush (encodeOps (Std.encode e cx b) ops) := hcod
  rw [← hcod'] at hok hfull
  obtain ⟨⟨d1, e1, r1⟩, hctx1⟩ := decode_step hb hok hr hrel hctx x1 x2 hg hfull
  exact ⟨d1, e1, cod, pos, _, hb, hcod', hready, r1, hctx1, fun y hy => hx y (List.mem_cons_of_mem _ hy), hfin⟩

theorem OReads.reset {buf : List Nat} {d : Mq} {ops : List (Option (Nat × Nat))} {fin} (h : OReads buf d (none :: ops) fin) :
    OReads buf (initStates d) ops fin := by
  obtain ⟨cod, pos, e, hb, hcod, hr, hrel, hctx, hx, hfin⟩ := h
  refine ⟨cod, pos, resetCtx e, hb, hcod, reset_ready hr, ⟨?_, hrel.a, rfl, rfl⟩, fun k => ⟨?_, by simp [resetCtx, Std.ctx0]⟩, fun y hy => hx y (List.mem_cons_of_mem _ hy), hfin⟩
  · obtain ⟨r, hat⟩ := hrel.at'
    exact ⟨r, ⟨hat.lmax, hat.l, hat.t8, hat.tt, hat.val, hat.wid⟩⟩
  · simp only [resetCtx, Std.ctx0]
    split_ifs <;> omega

theorem OReads.done {buf : List Nat} {d : Mq} {fin} (h : OReads buf d [] fin) : (d.sigma, d.mps) = fin ∧ CtxOk fin.1 fin.2 := by
  obtain ⟨cod, pos, e, hb, hcod, hr, hrel, hctx, hx, hfin⟩ := h
  have hfin' : (e.I, e.MPS) = fin := hfin
  rw [← hfin', hrel.i, hrel.m]
  exact ⟨rfl, hctx⟩

theorem OReads.init (pre post : List Nat) (s : Mq) (hs : CtxOk s.sigma s.mps) (ops : List (Option (Nat × Nat))) (hx : ∀ x, some x ∈ ops → x.1 < 19 ∧ x.2 ≤ 1) :
    let cod := Std.flush (encodeOps (Std.initEnc s.sigma s.mps) ops)
    ∃ s0, mqInit (pre ++ cod ++ post) s pre.length cod.length false = .ok s0 ∧
      OReads (pre ++ cod ++ post) s0 ops ((encodeOps (Std.initEnc s.sigma s.mps) ops).I, (encodeOps (Std.initEnc s.sigma s.mps) ops).MPS) := by
  have hr := Std.ready_init s.sigma s.mps
  obtain ⟨hok, full, hg, hfull⟩ := ops_code ops _ hr
  intro cod
  have hb : Holds (pre ++ cod ++ post) cod pre.length := ⟨pre, post, rfl, rfl⟩
  obtain ⟨s0, e0, r0⟩ := rel_init hb hok s hg hfull
  exact ⟨s0, e0, _, _, _, hb, rfl, hr, r0, hs, hx, rfl⟩

end Verif.Ebcot
