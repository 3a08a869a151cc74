import Verif.Tile.PipelineMain
import Verif.Tile.PropsQuant

/-!
# Lossless coding of a whole tile (C67)

The stages proved correct one by one – the 5/3 transform (C27), the HT cleanup pass (C43), the order of packets (C26), packet
headers and bodies (C63), the bit-plane budget (C65) and the strip decoder (C66) – are put together as in the encoder and the
decoder: the bytes the encoder writes behind SOD are decoded into the samples they were made of.

The conditions, all about parameters but `Covered`, are defined beside the model:
* `Coding.Legal`: a legal tile of one layer, code-blocks of at least 4 × 4 and at most 4096 samples, coordinates below `2^31`;
* `Fits`: the samples given for a component are as many as the tile-component has;
* `Wide`: no resolution has lost all its columns;
* `Covered`: for every subband `M_b` is between 1 and 21 and the coefficients are below `2 ^ M_b`;
* `Aligned`: every subband begins on the grid of code-blocks vertically, or is no taller than a code-block;
* `Env.Sane`: the tasks of a strip run in any order.
-/

namespace Verif.Tile.Pipe

/-- **C67.**  Every tile within the conditions is decoded into the samples it was encoded from, in any progression, with or
without SOP and EPH, with any number of components, levels and precincts, whatever bytes follow, whatever the scratch memory
and the strip buffers hold, in whatever order the tasks run. -/
theorem C67_lossless (C : Coding) (h : C.Legal) (img : Nat → List (List Int)) (hfits : Fits C img)
    (hwide : ∀ c < C.T.ncomp, Wide C c) (hcov : Covered C img) (hal : Aligned C) (E : Env) (hE : E.Sane) (tail : List Nat)
    (fuel : Nat) (hf : 256 ≤ fuel) :
    ∃ bytes, encodeTile C img = some bytes ∧
      decodeTile C E fuel (bytes ++ tail) = some ((List.range C.T.ncomp).map img) :=
  lossless h hfits hwide hcov hal hE tail hf

theorem mapM_none {α β : Type} {f : α → Option β} {a : α} (h : f a = none) : ∀ {l : List α}, a ∈ l → l.mapM f = none := by
  intro l
  induction l with
  | nil => intro h; simp at h
  | cons b l ih =>
    intro ha
    rw [List.mapM_cons]
    rcases List.mem_cons.1 ha with rfl | ha
    · rw [h]; rfl
    · rw [ih ha]
      cases f b <;> rfl

/-- **C67** (the last condition is needed).  When a subband with samples begins off the grid of code-blocks and is taller than
a code-block, in one row of precincts, then no codestream at all is decoded: writing outside the strip buffer cannot be avoided. -/
theorem C67_misaligned_undecodable (C : Coding) (h : C.Legal) (E : Env) (hE : E.Sane) (fuel : Nat) (bytes : List Nat)
    {c r b : Nat} (hc : c < C.T.ncomp) (hr : r ≤ (C.T.comp c).NL) (hb : b ∈ Coding.bands r) (hone : C.T.nph c r = 1)
    (hx : 0 < size (C.bandx c r b)) (hna : ¬ 2 ^ C.ycb ∣ (C.bandy c r b).1) (htall : 2 ^ C.ycb < size (C.bandy c r b)) :
    decodeTile C E fuel bytes = none := by
  have key : ∀ pkts ps, decBand C E pkts ps c r b = none := by
    intro pkts ps
    unfold decBand
    simp only
    split
    · rw [if_neg (by omega)]
      have := Strip.C66_misaligned (setup h hc hr hb) (fun i => (blockData C E pkts ps c r b i).getD none) hone
        ⟨(C.bandx c r b).1, show Has (C.bandx c r b) _ by unfold Has; unfold size at hx; omega⟩ hna htall hE.sched E.pool
        E.ring E.ring'
      cases e : Strip.readRows (rowBuf C c r b fun i => (blockData C E pkts ps c r b i).getD none) E.sched E.pool
          (List.range' (C.bandy c r b).1 (size (C.bandy c r b))) (.init E.ring E.ring') with
      | error _ => rfl
      | ok vs => exact absurd e (this vs)
    · rfl
  have kc : ∀ pkts ps, decComp C E pkts ps c = none := by
    intro pkts ps
    unfold decComp
    unfold Coding.bands at hb
    split at hb
    · rename_i h0
      simp only [List.mem_singleton] at hb
      subst h0 hb
      rw [key]; rfl
    · have hm : (List.range (C.T.comp c).NL).mapM (fun i => do
          let hl ← decBand C E pkts ps c ((C.T.comp c).NL - i) 1
          let lh ← decBand C E pkts ps c ((C.T.comp c).NL - i) 2
          let hh ← decBand C E pkts ps c ((C.T.comp c).NL - i) 3
          pure (Dwt.Detail.mk hl lh hh)) = none := by
        refine mapM_none (a := (C.T.comp c).NL - r) ?_ (List.mem_range.2 (by omega))
        rw [show (C.T.comp c).NL - ((C.T.comp c).NL - r) = r by omega]
        have k := key pkts ps
        simp only [List.mem_cons, List.not_mem_nil, or_false] at hb
        rcases hb with rfl | rfl | rfl
        · rw [k]; rfl
        · rw [k]; cases decBand C E pkts ps c r 1 <;> rfl
        · rw [k]; cases decBand C E pkts ps c r 1 <;> cases decBand C E pkts ps c r 2 <;> rfl
      rw [hm]
      cases decBand C E pkts ps c 0 0 <;> rfl
  unfold decodeTile
  cases (traverse C.T C.poc C.po).toOption with
  | none => rfl
  | some pkts =>
    simp only [Option.bind_eq_bind, Option.bind_some]
    cases (Packet.readPackets fuel C.sop C.eph _ ⟨bytes, 0, 0, 0⟩).toOption with
    | none => rfl
    | some out => exact mapM_none (kc _ _) (List.mem_range.2 hc)

/-! ## The conditions are met -/

/-- Two components, the second subsampled by 2, a tile of 13 columns by 10 rows at (5, 8), code-blocks of 4 × 4, one level,
precincts of 8 × 8, SOP and EPH, and the QCD the encoder makes for 8 bits and one guard bit. -/
def exCoding : Coding where
  T := { x := (5, 18), y := (8, 18), layers := 1, ncomp := 2,
         comp := fun c => { NL := 1, subx := c + 1, suby := c + 1, ppx := fun _ => 3, ppy := fun _ => 3 } }
  poc := []
  po := 2
  xcb := 2
  ycb := 2
  sop := true
  eph := true
  causal := false
  guard := 1
  steps := fun _ => quantSteps 1 1 8 0

theorem exCoding_legal : exCoding.Legal where
  tile := ⟨by decide, by decide, by decide, by decide, by decide, by decide, by decide, by decide, by decide +kernel⟩
  layers := rfl
  poc := by decide
  po := by decide
  xcb := by decide
  ycb := by decide
  cb := by decide
  roomx := by decide
  roomy := by decide
  levels := by decide
  words := by decide +kernel

/-- A picture with steep edges. -/
def exImg (c : Nat) : List (List Int) :=
  (List.range (size (exCoding.tcy c))).map fun y => (List.range (size (exCoding.tcx c))).map fun x =>
    ((x * x * 37 + y * 91 + x * y * 53 + c * 11) % 256 : Int) - 128

instance (C : Coding) : Decidable (Aligned C) := by unfold Aligned; infer_instance

instance (C : Coding) (img : Nat → List (List Int)) : Decidable (Fits C img) := by unfold Fits; infer_instance

/-- `Covered`, as something that can be computed. -/
def coveredb (C : Coding) (img : Nat → List (List Int)) : Bool :=
  (List.range C.T.ncomp).all fun c => (List.range ((C.T.comp c).NL + 1)).all fun r => (Coding.bands r).all fun b =>
    match subband C img c r b, C.mb C.steps c r b with
    | some rows, some mb => decide (1 ≤ mb) && decide (mb ≤ 21) && rows.all fun row => row.all fun v => decide (v.natAbs < 2 ^ mb)
    | _, _ => false

theorem covered_of {C : Coding} {img : Nat → List (List Int)} (h : coveredb C img = true) : Covered C img := by
  intro c hc r hr b hb rows e
  simp only [coveredb, List.all_eq_true, List.mem_range] at h
  have := h c hc r (by omega) b hb
  rw [e] at this
  cases em : C.mb C.steps c r b with
  | none => rw [em] at this; simp at this
  | some mb =>
    rw [em] at this
    simp only [Bool.and_eq_true, decide_eq_true_eq, List.all_eq_true] at this
    exact ⟨mb, rfl, this.1.1, this.1.2, this.2⟩

example : Fits exCoding exImg ∧ (∀ c < exCoding.T.ncomp, Wide exCoding c) ∧ Covered exCoding exImg ∧ Aligned exCoding := by
  refine ⟨by decide +kernel, ?_, covered_of (by decide +kernel), by decide +kernel⟩
  intro c hc r h1 h2
  obtain rfl : r = 1 := by simp only [exCoding] at h2; omega
  have hc : c < 2 := hc
  interval_cases c <;> decide +kernel

end Verif.Tile.Pipe
