import Verif.Packet.Robust
/-
Properties C21-C24 and C42: packet headers.
-/
namespace Verif.Packet
open Prog

/-! ## C21 -/

/-- C21.  Whatever bits are written, a reader placed at a byte boundary in front of the flushed header gets back
the constructor's 1 followed by exactly those bits; after the end-of-header steps of `read_packet` it stands at
the first byte behind the header (the EPH marker if one was written). -/
theorem C21_bits_round_trip (bs : List Bool) (useEPH : Bool) (tail : List Nat) (r : Reader)
    (hlast : r.last ≠ 255) (hbits : r.bits = 0) (hsrc : r.src = (Writer.new.putBits bs).flush useEPH ++ tail) :
    (r.getBits (bs.length + 1)).1 = true :: bs ∧
    (r.getBits (bs.length + 1)).2.finish.src = (if useEPH then [0xFF, 0x92] else []) ++ tail ∧
    (r.getBits (bs.length + 1)).2.finish.bits = 0 ∧
    (r.getBits (bs.length + 1)).2.finish.last ≠ 255 := by
  obtain ⟨src, tmp, last, bits⟩ := r
  simp only at hlast hbits hsrc
  subst hbits
  have hs : src = pack last (true :: bs) ++ ((if useEPH then [0xFF, 0x92] else []) ++ tail) := by
    rw [hsrc, pack_last hlast]
    cases useEPH with
    | false => rw [writer_flush]; simp
    | true => rw [flush_eph, writer_flush]; simp
  obtain ⟨h1, h2, h3, h4⟩ := pack_read last (true :: bs) (by simp)
    ((if useEPH then [0xFF, 0x92] else []) ++ tail) tmp
  rw [← hs] at h1 h2 h3 h4
  exact ⟨h1, h2, h4, h3⟩

/-- C21.  A written header consists of bytes, every 0xFF in it is followed by a byte below 0x80, and so it does
not end in 0xFF: neither the header nor its join with the following bytes contains a marker. -/
theorem C21_no_marker (bs : List Bool) :
    (∀ b ∈ (Writer.new.putBits bs).flush false, b < 256) ∧
    ∀ i, ((Writer.new.putBits bs).flush false)[i]? = some 0xFF →
      ∃ b, ((Writer.new.putBits bs).flush false)[i + 1]? = some b ∧ b < 0x80 := by
  rw [writer_flush]
  exact stuffOk_spec _ _ (pack_stuffOk _ 0)

example : (Writer.new.putBits (List.replicate 7 true)).flush false = [0xFF, 0x00] := by decide +kernel
example : (Writer.new.putBits (List.replicate 9 true)).flush true = [0xFF, 0x60, 0xFF, 0x92] := by decide +kernel

/-! ## C22 -/

/-- C22.  Every number of coding passes the format can express comes back, and exactly its codeword is used. -/
theorem C22_passes_round_trip (n : Nat) (h1 : 1 ≤ n) (h2 : n ≤ 164) (rest : List Bool) :
    decPasses.run (encPasses n ++ rest) = .ok (n, rest) :=
  decPasses_spec n h1 h2 rest

/-- C22.  No codeword is the beginning of another one. -/
theorem C22_prefix_free (m n : Nat) (hm : 1 ≤ m ∧ m ≤ 164) (hn : 1 ≤ n ∧ n ≤ 164) (rest : List Bool)
    (h : encPasses m = encPasses n ++ rest) : m = n := by
  have e1 := decPasses_spec m hm.1 hm.2 []
  have e2 := decPasses_spec n hn.1 hn.2 rest
  rw [List.append_nil, h, e2] at e1
  simp only [Except.ok.injEq, Prod.mk.injEq] at e1
  exact e1.1.symm

example : encPasses 36 = [true, true, true, true, true, true, true, true, false] := by decide

/-! ## C23 -/

/-- Code the zero-bit-plane values of the leaves `order`, one after the other, as the encoder does. -/
def encLeaves (ps : List (Option Nat)) (val : Nat → Nat) : (Nat → Bool) → List Nat → List Bool
  | _, [] => []
  | st, i :: is =>
    (encZbp ps val st (rootPath ps i)).1 ++ encLeaves ps val (encZbp ps val st (rootPath ps i)).2 is

/-- Decode the same leaves as the parser does, reporting the value found for each. -/
def decLeaves (ps : List (Option Nat)) (fuel : Nat) : ZbpState → List Nat → Prog (List Nat)
  | _, [] => .ret []
  | s, i :: is =>
    (decZbp ps fuel s (rootPath ps i)).bind fun s' =>
      (decLeaves ps fuel s' is).bind fun vs => .ret (s'.value i :: vs)

/-- Code the inclusion of the leaves `idx, idx+1, ..` at layer 0 as the encoder does. -/
def encIncLeaves (ps : List (Option Nat)) (val : Nat → Nat) : IncState → List Nat → List Bool
  | _, [] => []
  | s, i :: is =>
    (encInc ps val 0 s (rootPath ps i)).1 ++ encIncLeaves ps val (encInc ps val 0 s (rootPath ps i)).2 is

/-- Decode the same leaves as the parser does, reporting `is_included` for each. -/
def decIncLeaves (ps : List (Option Nat)) : IncState → List Nat → Prog (List Bool)
  | _, [] => .ret []
  | s, i :: is =>
    (decInc ps 0 s false (rootPath ps i)).bind fun r =>
      (decIncLeaves ps r.1 is).bind fun fs => .ret (r.2 :: fs)

theorem decLeaves_spec {ps : List (Option Nat)} (hwf : WfTree ps) {val : Nat → Nat}
    (hmono : ∀ i p, parentFn ps i = some p → val p ≤ val i) (fuel : Nat) (hfuel : ∀ n, val n < fuel)
    (hval : ∀ n, val n < 65536) (rest : List Bool) (order : List Nat) : ∀ es d, ZbpInv val es d →
    (decLeaves ps fuel d order).run (encLeaves ps val es order ++ rest) = .ok (order.map val, rest) := by
  induction order with
  | nil => intro es d _; rfl
  | cons i is ih =>
    intro es d h
    obtain ⟨d', h1, h2, h3⟩ := decZbp_spec hmono fuel hfuel hval
      (encLeaves ps val (encZbp ps val es (rootPath ps i)).2 is ++ rest) (rootPath ps i) es d none h
      (rootPath_chain ps hwf i) (by intro p hp; cases hp)
    simp only [decLeaves, encLeaves, List.append_assoc]
    rw [run_bind_ok h1, run_bind_ok (ih _ d' h2)]
    have : d'.value i = val i := by
      obtain ⟨front, hfr⟩ := rootPath_last ps i
      exact (h2.coded i (h3 i (Or.inl (by rw [hfr]; simp)))).2
    simp [this]

/-- C23.  For any grid, any leaf values below 2^16 and any order in which leaves are visited (the encoder skips
those of code-blocks that are not included), the values decoded leaf by leaf are the values encoded, and exactly
the bits written are read. -/
theorem C23_values_round_trip (w h : Nat) (hw : 1 ≤ w) (hh : 1 ≤ h) (leaves : List Nat)
    (hl : leaves.length = w * h) (hv : ∀ v ∈ leaves, v < 65536) (order : List Nat) (ho : ∀ i ∈ order, i < w * h)
    (fuel : Nat) (hf : 65536 ≤ fuel) (rest : List Bool) :
    (decLeaves (parentsOf w h) fuel {} order).run
      (encLeaves (parentsOf w h) (fun i => (buildVals (parentsOf w h) leaves).getD i 0) (fun _ => false) order ++ rest)
      = .ok (order.map fun i => leaves.getD i 0, rest) := by
  obtain ⟨h1, h2⟩ := buildVals_spec w h hw hh leaves hl
  have hlt : ∀ n, (buildVals (parentsOf w h) leaves).getD n 0 < 65536 :=
    getD_lt (by omega) (buildFrom_lt _ _ (by omega) _ _ hv)
  rw [decLeaves_spec (parentsOf_wf w h hw hh) h2 fuel (fun n => by have := hlt n; omega) hlt rest order _ {}
    (zbpInv_fresh _)]
  congr 2
  apply List.map_congr_left
  intro i hi
  exact h1 i (ho i hi)

theorem decIncLeaves_spec {ps : List (Option Nat)} (hwf : WfTree ps) {N : Nat} {val : Nat → Nat}
    (hparent : ∀ i p, parentFn ps i = some p → N ≤ p)
    (hmono : ∀ i p, parentFn ps i = some p → val p ≤ val i) (rest : List Bool) (order : List Nat) : ∀ s,
    (∀ i ∈ order, i < N) → order.Nodup → IncInv ps val s → (∀ i ∈ order, ¬ touched s i) →
    (decIncLeaves ps s order).run (encIncLeaves ps val s order ++ rest) =
      .ok (order.map fun i => val i == 0, rest) := by
  induction order with
  | nil => intro s _ _ _ _; rfl
  | cons i is ih =>
    intro s hN hnd hinv hun
    obtain ⟨front, hfr⟩ := rootPath_last ps i
    rw [List.nodup_cons] at hnd
    obtain ⟨h1, h2, h3⟩ := decInc_spec hwf hmono
      (encIncLeaves ps val (encInc ps val 0 s (rootPath ps i)).2 is ++ rest) (rootPath ps i) s false none i front hfr
      hinv (rootPath_chain ps hwf i) (by intro p hp; cases hp) (by intro h; cases h) (hun i (by simp))
    simp only [decIncLeaves, encIncLeaves, List.append_assoc]
    rw [run_bind_ok h1, run_bind_ok (ih _ (fun j hj => hN j (by simp [hj])) hnd.2 h2 ?_)]
    · simp
    · intro j hj ht
      have hnot : j ∉ rootPath ps i := by
        intro hm
        unfold rootPath at hm
        rw [List.mem_reverse] at hm
        rcases mem_pathUp hm with h | ⟨k, h⟩
        · exact hnd.1 (h ▸ hj)
        · have := hparent k j h
          have := hN j (by simp [hj])
          omega
      obtain ⟨ha, hb⟩ := h3 j hnot
      apply hun j (by simp [hj])
      unfold touched at ht ⊢
      rwa [ha, hb] at ht

/-- C23.  For any grid and any leaf values, inclusion at layer 0 decodes to "the leaf value is 0", leaf by leaf,
and exactly the bits written are read. -/
theorem C23_inclusion_round_trip (w h : Nat) (hw : 1 ≤ w) (hh : 1 ≤ h) (leaves : List Nat)
    (hl : leaves.length = w * h) (order : List Nat) (ho : ∀ i ∈ order, i < w * h) (hnd : order.Nodup)
    (rest : List Bool) :
    (decIncLeaves (parentsOf w h) {} order).run
      (encIncLeaves (parentsOf w h) (fun i => (buildVals (parentsOf w h) leaves).getD i 0) {} order ++ rest)
      = .ok (order.map fun i => leaves.getD i 0 == 0, rest) := by
  obtain ⟨h1, h2⟩ := buildVals_spec w h hw hh leaves hl
  rw [decIncLeaves_spec (parentsOf_wf w h hw hh) (N := w * h) (parentsOf_parent w h hw hh) h2 rest order {} ho hnd
    (incInv_fresh _ _) (by intro i _ ht; rcases ht with ht | ht <;> simp at ht)]
  congr 2
  apply List.map_congr_left
  intro i hi
  rw [h1 i (ho i hi)]

/-- C23.  The topology computed by the incremental loops: no node has more children than `child_index` has room
for, parents come after their children and inside the node array, and only the last node is a root. -/
theorem C23_topology (w h : Nat) (hw : 1 ≤ w) (hh : 1 ≤ h) :
    (∀ p, (childrenOf (parentsOf w h) p).length ≤ 4) ∧
    (∀ i p, parentFn (parentsOf w h) i = some p → i < p ∧ p < (parentsOf w h).length) ∧
    (∀ i, i < (parentsOf w h).length → parentFn (parentsOf w h) i = none → i + 1 = (parentsOf w h).length) ∧
    (∀ p, w * h ≤ p → p < (parentsOf w h).length → ∃ i, parentFn (parentsOf w h) i = some p) := by
  have hwf := parentsOf_wf w h hw hh
  refine ⟨hwf.four, hwf.up, hwf.root, ?_⟩
  intro p h1 h2
  obtain ⟨i, hi⟩ := (treeParents_spec w h 0 hw hh).inner p (by omega)
    (by have : p < (treeParents w h 0).length := h2; omega)
  exact ⟨i, parentFn_some.2 hi⟩

example : parentsOf 3 2 = [some 6, some 6, some 7, some 6, some 6, some 7, some 8, some 8, none] := by decide +kernel
example : buildVals (parentsOf 3 2) [5, 4, 9, 7, 3, 2] = [5, 4, 9, 7, 3, 2, 3, 2, 2] := by decide +kernel
example : encLeaves (parentsOf 3 2) (fun i => [5, 4, 9, 7, 3, 2, 3, 2, 2].getD i 0) (fun _ => false) [2] =
    [false, false, true, true, false, false, false, false, false, false, false, true] := by decide +kernel

/-! ## C24 -/

/-- What C24 asks of a parsed code-block.  `passLen` of a refinement segment with two passes is stored at its
last pass, so individual lengths are compared for the cleanup pass and in total. -/
structure Recovered (e : EncBlock) (d : DecBlock) : Prop where
  included : d.included = true ↔ e.passes ≠ 0
  layer : d.layers = [(0, e.passes)]
  passes : d.numPasses = e.passes
  zbp : e.passes ≠ 0 → d.zbp = e.zbp
  cleanup : d.passLen.take 1 = (e.passLen.take e.passes).take 1
  total : d.passLen.sum = (e.passLen.take e.passes).sum

theorem parsed_recovered {e : EncBlock} (he : e.Consistent) {d : DecBlock} (h : Parsed e d) : Recovered e d := by
  by_cases hp : e.passes = 0
  · rw [h.1 hp]
    exact ⟨by simp [hp], by simp [hp], by simp [hp], fun h => absurd hp h, by simp [hp], by simp [hp]⟩
  · obtain ⟨l, hd⟩ := h.2 hp
    rw [hd]
    refine ⟨by simp [hp], rfl, rfl, fun _ => rfl, ?_, ?_⟩
    all_goals
      simp only [parsedLens]
      by_cases h3 : e.passes = 3
      · have hlen := he.stored
        rw [if_pos h3]
        rw [h3] at hlen ⊢
        match hpl : e.passLen with
        | [] => rw [hpl] at hlen; simp at hlen
        | [_] => rw [hpl] at hlen; simp at hlen
        | [_, _] => rw [hpl] at hlen; simp at hlen
        | a :: b :: c :: t => simp
      · rw [if_neg h3]

theorem parsed_all (bl : List EncBlock) (dl : List DecBlock) (hc : ∀ e ∈ bl, e.Consistent)
    (h : List.Forall₂ Parsed bl dl) : List.Forall₂ Recovered bl dl := by
  induction h with
  | nil => exact List.Forall₂.nil
  | cons hp _ ih =>
    exact List.Forall₂.cons (parsed_recovered (hc _ (by simp)) hp) (ih (fun e he => hc e (by simp [he])))

/-- C24.  For any number of subbands with any code-block grids and any code-blocks the HT encoder can produce,
reading a packet whose header was generated by the encoder succeeds, recovers for every code-block inclusion,
zero bit-planes, number of passes and segment lengths, and leaves the reader at the first byte of the body,
ready for the next packet. -/
theorem C24_packet_header_round_trip (bands : List EncBand)
    (hb : ∀ b ∈ bands, b.blocks.length = b.w * b.h ∧ ∀ e ∈ b.blocks, e.Consistent)
    (useEPH : Bool) (body : List Nat) (fuel : Nat) (hf : 256 ≤ fuel)
    (r : Reader) (hlast : r.last ≠ 255) (hbits : r.bits = 0) (hsrc : r.src = encPacket useEPH bands ++ body) :
    ∃ ds r', parsePacket fuel useEPH 0 (bands.map fun b => DecBand.fresh b.w b.h) r = .ok (ds, r') ∧
      List.Forall₂ (fun b d => List.Forall₂ Recovered b.blocks d.blocks) bands ds ∧
      r'.src = body ∧ r'.bits = 0 ∧ r'.last ≠ 255 := by
  obtain ⟨ds, r', h1, h2, h3, h4, h5, -⟩ := parsePacket_spec bands fuel hf useEPH hb body r hlast hbits hsrc
  refine ⟨ds, r', h1, ?_, h3, h5, h4⟩
  have hmono : ∀ (bs : List EncBand) (es : List DecBand),
      (∀ b ∈ bs, ∀ e ∈ b.blocks, e.Consistent) → List.Forall₂ BandParsed bs es →
      List.Forall₂ (fun b d => List.Forall₂ Recovered b.blocks d.blocks) bs es := by
    intro bs es hcons hall
    induction hall with
    | nil => exact List.Forall₂.nil
    | cons hbp _ ih =>
      refine List.Forall₂.cons ?_ (ih (fun b hb => hcons b (by simp [hb])))
      exact parsed_all _ _ (hcons _ List.mem_cons_self) hbp.2.2
  exact hmono bands ds (fun b hb' => (hb b hb').2) h2

/-- A packet of two subbands meeting the hypotheses, one code-block left out and one with three passes. -/
def samplePacket : List EncBand :=
  [⟨2, 1, [⟨25, 3, 4, [20, 2, 3]⟩, ⟨0, 0, 9, []⟩]⟩, ⟨1, 1, [⟨300, 1, 2, [300]⟩]⟩]

example : ∀ b ∈ samplePacket, b.blocks.length = b.w * b.h ∧ ∀ e ∈ b.blocks, e.Consistent := by
  intro b hb
  simp [samplePacket] at hb
  rcases hb with rfl | rfl <;> refine ⟨rfl, ?_⟩ <;> intro e he <;> simp at he
  · rcases he with rfl | rfl <;> constructor <;> simp
  · subst he; constructor <;> simp

example : encPacket false samplePacket = [225, 230, 160, 169, 126, 150, 0] := by decide +kernel

/-- Outside the precondition the two sides disagree: with four passes the encoder gives the cleanup pass a
segment of its own, the parser reads one length for all four. -/
theorem C24_four_passes_misparsed :
    ((parsePacket 300 false 0 [DecBand.fresh 1 1] ⟨encPacket false [⟨1, 1, [⟨5, 4, 3, [2, 1, 1, 1]⟩]⟩], 0, 0, 0⟩).map
      fun x => x.1.map fun d => d.blocks.map (·.passLen)) = .ok [[[0, 0, 0, 8]]] := by
  decide +kernel

/-! ## C42 -/

/-- C42.  On any bytes, for any layer and from any state reached by earlier packets, the parser never stores
outside the pass-length array of a code-block, and keeps the state in order for the next packet. -/
theorem C42_parser_in_bounds (fuel : Nat) (useEPH : Bool) (layer : Nat) (ds : List DecBand)
    (h : ∀ d ∈ ds, ∀ b ∈ d.blocks, b.Ok) (r : Reader) :
    parsePacket fuel useEPH layer ds r ≠ .error .oob ∧
    ∀ ds' r', parsePacket fuel useEPH layer ds r = .ok (ds', r') → ∀ d ∈ ds', ∀ b ∈ d.blocks, b.Ok := by
  have heph : ∀ q, checkEPH useEPH q ≠ .error .oob := by
    intro q
    unfold checkEPH
    split_ifs <;> simp only [ne_eq]
    · split_ifs <;> simp
    · simp
  unfold parsePacket
  have hf := always_runReader (decBands_fine fuel layer ds h) r.getBit.2
  cases hb : r.getBit.1 with
  | false =>
    simp only [hb, Bool.false_eq_true, if_false]
    cases hc : checkEPH useEPH { r.getBit.2 with bits := 0 } with
    | error e =>
      refine ⟨?_, fun _ _ h => by simp [Except.map] at h⟩
      intro h'
      simp only [Except.map, Except.error.injEq] at h'
      exact heph _ (by rw [hc, h'])
    | ok q =>
      refine ⟨by simp [Except.map], ?_⟩
      intro ds' r' h'
      simp only [Except.map, Except.ok.injEq, Prod.mk.injEq] at h'
      rw [← h'.1]; exact h
  | true =>
    simp only [hb, if_true]
    cases hr : (decBands fuel layer ds).runReader r.getBit.2 with
    | error e =>
      rw [hr] at hf
      refine ⟨?_, fun _ _ h => by simp at h⟩
      intro h'
      simp only [Except.error.injEq] at h'
      exact hf h'
    | ok x =>
      rw [hr] at hf
      obtain ⟨ds1, r1⟩ := x
      simp only
      cases hc : checkEPH useEPH r1.finish with
      | error e =>
        refine ⟨?_, fun _ _ h => by simp [Except.map] at h⟩
        intro h'
        simp only [Except.map, Except.error.injEq] at h'
        exact heph _ (by rw [hc, h'])
      | ok q =>
        refine ⟨by simp [Except.map], ?_⟩
        intro ds' r' h'
        simp only [Except.map, Except.ok.injEq, Prod.mk.injEq] at h'
        rw [← h'.1]
        exact hf

/-- Freshly built code-blocks satisfy the invariant of C42. -/
example (w h : Nat) : ∀ b ∈ (DecBand.fresh w h).blocks, b.Ok := by
  intro b hb
  rw [(List.mem_replicate.1 hb).2]
  exact ⟨Or.inl rfl, rfl, by decide⟩

/-- C42, what the code does not give: a header cut off before the end of the zero-bit-plane code makes the parser
read padding zeros without end - no number of bits is enough. -/
theorem C42_truncated_header_never_ends (fuel : Nat) :
    parsePacket fuel false 0 [DecBand.fresh 1 1] ⟨[0xC0], 0, 0, 0⟩ = .error .spin := by
  have hps : parentsOf 1 1 = [none] := by decide +kernel
  have hpath : rootPath [none] 0 = [0] := by decide
  have hrun : (decBands fuel 0 [DecBand.fresh 1 1]).runReader ⟨[], 0xC0, 0xC0, 7⟩ = .error .spin := by
    simp only [decBands, decBand, DecBand.fresh, hps, decBlocks, List.replicate, Nat.mul_one, bind_eq]
    rw [if_neg (by omega)]
    rw [decBlock_fresh, hpath]
    simp only [decInc, decIncNode, decZbp, decZbpNode, bind_eq, Bool.false_eq_true, if_false]
    have hr : raised [none] ({} : IncState) 0 = 0 := rfl
    have hcz := countZeros_drained fuel 0 ⟨[], 0xC0, 0xC0, 6⟩ ⟨rfl, by decide⟩
    have hraise : raised [none] ⟨fun _ => 0, fun _ => false⟩ 0 = 0 := rfl
    simp only [hr, hraise, le_refl, if_true, Prog.getBit, bit_bind, ret_bind, runReader, pure_eq]
    have hb1 : (Reader.getBit ⟨[], 0xC0, 0xC0, 7⟩) = (true, ⟨[], 0xC0, 0xC0, 6⟩) := rfl
    rw [hb1]
    simp only [if_true, ret_bind]
    have : ∀ {α : Type} (f : Nat → Prog α), ((countZeros fuel 0).bind f).runReader ⟨[], 0xC0, 0xC0, 6⟩ =
        .error .spin := by
      intro α f
      have gen : ∀ (p : Prog Nat) (r : Reader), p.runReader r = .error .spin → (p.bind f).runReader r = .error .spin := by
        intro p
        induction p with
        | ret a => intro r h; simp [runReader] at h
        | fail e =>
          intro r h
          simp only [runReader, Except.error.injEq] at h
          simp [runReader, h]
        | bit k ih => intro r h; exact ih _ _ h
      exact gen _ _ hcz
    simp only [bind_assoc', this]
  unfold parsePacket
  have hb0 : (Reader.getBit ⟨[0xC0], 0, 0, 0⟩) = (true, ⟨[], 0xC0, 0xC0, 7⟩) := rfl
  rw [hb0]
  simp only [if_true, hrun]

end Verif.Packet
