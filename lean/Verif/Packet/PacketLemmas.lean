import Verif.Packet.HeaderLemmas
/-
Round trip of the blocks of a band and of the bands of a packet.
-/
namespace Verif.Packet
open Prog

/-- The parser's block after the packet of layer 0. -/
def Parsed (e : EncBlock) (d : DecBlock) : Prop :=
  (e.passes = 0 → d = { phld := true, layers := [(0, 0)] }) ∧
  (e.passes ≠ 0 → ∃ l, d = { included := true, phld := false, zbp := e.zbp, lblock := l, numPasses := e.passes,
                             passLen := parsedLens e, cap := 4, layers := [(0, e.passes)] })

theorem decBlock_fresh (ps : List (Option Nat)) (fuel : Nat) (t : DecTrees) (idx : Nat) :
    decBlock ps fuel 0 t idx {} =
      (decInc ps 0 t.inc false (rootPath ps idx)).bind fun r =>
        if r.2 then
          (decZbp ps fuel t.zbp (rootPath ps idx)).bind fun z =>
            (decBody fuel { included := true, phld := true, zbp := z.value idx % 256, lblock := 3 } 0).bind fun b =>
              .ret ({ inc := r.1, zbp := z }, b)
        else .ret ({ t with inc := r.1 }, { phld := true, layers := [(0, 0)] }) := rfl

theorem decBlocks_spec {ps : List (Option Nat)} (hwf : WfTree ps) {N : Nat} {incVal zbpVal : Nat → Nat}
    (hparent : ∀ i p, parentFn ps i = some p → N ≤ p)
    (hi : ∀ i p, parentFn ps i = some p → incVal p ≤ incVal i)
    (hz : ∀ i p, parentFn ps i = some p → zbpVal p ≤ zbpVal i) (hz256 : ∀ n, zbpVal n < 256)
    (fuel : Nat) (hf : 256 ≤ fuel) (rest : List Bool) (blocks : List EncBlock) :
    ∀ (t : EncTrees) (d : DecTrees) (idx : Nat),
    (∀ b ∈ blocks, b.Consistent) → idx + blocks.length ≤ N →
    (∀ k (hk : k < blocks.length), incVal (idx + k) = (if (blocks[k]).length ≠ 0 then 0 else 1) ∧
      zbpVal (idx + k) = (blocks[k]).zbp) →
    d.inc = t.inc → IncInv ps incVal t.inc → ZbpInv zbpVal t.zbp d.zbp →
    (∀ m, idx ≤ m → m < N → ¬ touched t.inc m) →
    ∃ tr ds, (decBlocks ps fuel 0 d idx (List.replicate blocks.length {})).run
        (encBlocks ps incVal zbpVal t idx blocks ++ rest) = .ok ((tr, ds), rest) ∧
      List.Forall₂ Parsed blocks ds := by
  induction blocks with
  | nil => intro t d idx _ _ _ _ _ _ _; exact ⟨d, [], by simp [decBlocks, encBlocks], List.Forall₂.nil⟩
  | cons e blocks ih =>
    intro t d idx hcons hlen hvals hd hinc hzbp hun
    have he := hcons e (by simp)
    simp only [List.length_cons] at hlen
    have hv0 := hvals 0 (by simp)
    simp only [Nat.add_zero, List.getElem_cons_zero] at hv0
    have hvals' : ∀ k (hk : k < blocks.length), incVal (idx + 1 + k) = (if (blocks[k]).length ≠ 0 then 0 else 1) ∧
        zbpVal (idx + 1 + k) = (blocks[k]).zbp := by
      intro k hk
      have := hvals (k + 1) (by simp; omega)
      simpa [Nat.add_assoc, Nat.add_comm 1 k] using this
    obtain ⟨front, hfront⟩ := rootPath_last ps idx
    have hch := rootPath_chain ps hwf idx
    have hmem : ∀ m, idx + 1 ≤ m → m < N → m ∉ rootPath ps idx := by
      intro m h1 h2 hm
      unfold rootPath at hm
      rw [List.mem_reverse] at hm
      rcases mem_pathUp hm with h | ⟨j, h⟩
      · omega
      · have := hparent j m h; omega
    -- bits after the inclusion part
    simp only [List.length_cons, List.replicate_succ, decBlocks, bind_eq, encBlocks, List.append_assoc]
    rw [decBlock_fresh]
    have hincspec := fun tl => decInc_spec hwf hi tl (rootPath ps idx) t.inc false none idx front hfront hinc hch
      (by intro p h; cases h) (by intro h; cases h) (hun idx le_rfl (by omega))
    have hinc' : IncInv ps incVal (encInc ps incVal 0 t.inc (rootPath ps idx)).2 := (hincspec []).2.1
    have hun' : ∀ m, idx + 1 ≤ m → m < N → ¬ touched (encInc ps incVal 0 t.inc (rootPath ps idx)).2 m := by
      intro m h1 h2
      have := (hincspec []).2.2 m (hmem m h1 h2)
      unfold touched
      rw [this.1, this.2]
      exact hun m (by omega) h2
    by_cases hp : e.passes = 0
    · have hv1 : incVal idx = 1 := by
        rw [hv0.1, if_neg]; rw [not_not]; exact he.len.2 hp
      have henc : encBlock ps incVal zbpVal t idx e =
          ((encInc ps incVal 0 t.inc (rootPath ps idx)).1,
            { t with inc := (encInc ps incVal 0 t.inc (rootPath ps idx)).2 }) := by
        simp only [encBlock, if_pos hp]
      rw [henc, hd]
      obtain ⟨tr, ds, hrun, hall⟩ := ih { t with inc := (encInc ps incVal 0 t.inc (rootPath ps idx)).2 }
        { d with inc := (encInc ps incVal 0 t.inc (rootPath ps idx)).2 } (idx + 1)
        (fun b hb => hcons b (by simp [hb])) (by omega) hvals' rfl hinc' hzbp hun'
      refine ⟨tr, { phld := true, layers := [(0, 0)] } :: ds, ?_, ?_⟩
      · rw [run_bind_ok (a := ({ d with inc := (encInc ps incVal 0 t.inc (rootPath ps idx)).2 },
          ({ phld := true, layers := [(0, 0)] } : DecBlock)))]
        · rw [run_bind_ok hrun]; rfl
        · rw [run_bind_ok (hincspec _).1]
          simp only [hv1]
          rfl
      · refine List.Forall₂.cons ⟨fun _ => rfl, fun h => absurd hp h⟩ hall
    · have hv1 : incVal idx = 0 := by
        rw [hv0.1, if_pos]; intro h; exact hp (he.len.1 h)
      have henc : encBlock ps incVal zbpVal t idx e =
          ((encInc ps incVal 0 t.inc (rootPath ps idx)).1 ++ (encZbp ps zbpVal t.zbp (rootPath ps idx)).1 ++ encBody e,
            { inc := (encInc ps incVal 0 t.inc (rootPath ps idx)).2,
              zbp := (encZbp ps zbpVal t.zbp (rootPath ps idx)).2 }) := by
        simp only [encBlock, if_neg hp]
      rw [henc, hd]
      simp only [List.append_assoc]
      generalize htail : encBlocks ps incVal zbpVal
        { inc := (encInc ps incVal 0 t.inc (rootPath ps idx)).2,
          zbp := (encZbp ps zbpVal t.zbp (rootPath ps idx)).2 } (idx + 1) blocks ++ rest = tail
      obtain ⟨z, hzr, hzinv, hzall⟩ := decZbp_spec hz fuel (fun n => by have := hz256 n; omega)
        (fun n => by have := hz256 n; omega) (encBody e ++ tail) (rootPath ps idx) t.zbp d.zbp none hzbp hch
        (by intro p h; cases h)
      have hzv : z.value idx = e.zbp := by
        have := hzall idx (Or.inl (by rw [hfront]; simp))
        rw [(hzinv.coded idx this).2, hv0.2]
      obtain ⟨l, hbody⟩ := decBody_spec e he hp fuel hf e.zbp 0 tail
      obtain ⟨tr, ds, hrun, hall⟩ := ih ⟨(encInc ps incVal 0 t.inc (rootPath ps idx)).2, (encZbp ps zbpVal t.zbp (rootPath ps idx)).2⟩
        { inc := (encInc ps incVal 0 t.inc (rootPath ps idx)).2, zbp := z } (idx + 1)
        (fun b hb => hcons b (by simp [hb])) (by omega) hvals' rfl hinc' hzinv hun'
      refine ⟨tr, { included := true, phld := false, zbp := e.zbp, lblock := l, numPasses := e.passes,
                    passLen := parsedLens e, cap := 4, layers := [(0, e.passes)] } :: ds, ?_, ?_⟩
      · rw [run_bind_ok (a := (({ inc := (encInc ps incVal 0 t.inc (rootPath ps idx)).2, zbp := z } : DecTrees),
          ({ included := true, phld := false, zbp := e.zbp, lblock := l, numPasses := e.passes,
             passLen := parsedLens e, cap := 4, layers := [(0, e.passes)] } : DecBlock))) (rest := tail)]
        · rw [← htail, run_bind_ok hrun]; rfl
        · rw [run_bind_ok (hincspec _).1]
          simp only [hv1, beq_self_eq_true, if_true]
          rw [run_bind_ok hzr, hzv, Nat.mod_eq_of_lt he.zbp, run_bind_ok hbody]
          rfl
      · exact List.Forall₂.cons ⟨fun h => absurd h hp, fun _ => ⟨l, rfl⟩⟩ hall

/-! ### Bands -/

theorem buildFrom_lt (ps : List (Option Nat)) (B : Nat) (hB : 0 < B) (n : Nat) : ∀ (vals : List Nat),
    (∀ v ∈ vals, v < B) → ∀ v ∈ buildFrom ps vals n, v < B := by
  induction n with
  | zero => intro vals h; exact h
  | succ n ih =>
    intro vals h
    apply ih
    intro v hv
    rcases List.mem_append.1 hv with hv | hv
    · exact h v hv
    · rw [List.mem_singleton] at hv
      rw [hv]
      refine lt_of_le_of_lt (foldl_min_le _ _).1 ?_
      have hg : ∀ c, vals.getD c 0 < B := by
        intro c
        rw [List.getD_eq_getElem?_getD]
        cases hc : vals[c]? with
        | none => exact hB
        | some x => exact h x (List.mem_of_getElem? hc)
      cases childrenOf ps vals.length with
      | nil => exact hB
      | cons c cs => exact hg c

theorem getD_lt {l : List Nat} {B : Nat} (hB : 0 < B) (h : ∀ v ∈ l, v < B) (i : Nat) : l.getD i 0 < B := by
  rw [List.getD_eq_getElem?_getD]
  cases hc : l[i]? with
  | none => exact hB
  | some x => exact h x (List.mem_of_getElem? hc)

theorem parentsOf_parent (w h : Nat) (hw : 1 ≤ w) (hh : 1 ≤ h) (i p : Nat)
    (hp : parentFn (parentsOf w h) i = some p) : w * h ≤ p := by
  have := (treeParents_spec w h 0 hw hh).leafPar i p (parentFn_some.1 hp)
  omega

theorem decBand_spec (b : EncBand) (hl : b.blocks.length = b.w * b.h) (hc : ∀ e ∈ b.blocks, e.Consistent)
    (fuel : Nat) (hf : 256 ≤ fuel) (rest : List Bool) :
    ∃ d : DecBand, (decBand fuel 0 (DecBand.fresh b.w b.h)).run (encBand b ++ rest) = .ok (d, rest) ∧
      d.w = b.w ∧ d.h = b.h ∧ List.Forall₂ Parsed b.blocks d.blocks := by
  unfold decBand encBand DecBand.fresh
  by_cases h0 : b.w * b.h = 0
  · have hnil : b.blocks = [] := by rw [← List.length_eq_zero_iff]; omega
    simp only [h0, if_true]
    exact ⟨_, rfl, rfl, rfl, by rw [hnil]; exact List.Forall₂.nil⟩
  · simp only [h0, if_false]
    have hw : 1 ≤ b.w := by rcases Nat.eq_zero_or_pos b.w with h | h; · simp [h] at h0
                            · exact h
    have hh : 1 ≤ b.h := by rcases Nat.eq_zero_or_pos b.h with h | h; · simp [h] at h0
                            · exact h
    obtain ⟨hi1, hi2⟩ := buildVals_spec b.w b.h hw hh (b.blocks.map fun k : EncBlock => if k.length ≠ 0 then 0 else 1)
      (by simpa using hl)
    obtain ⟨hz1, hz2⟩ := buildVals_spec b.w b.h hw hh (b.blocks.map (·.zbp)) (by simpa using hl)
    obtain ⟨tr, ds, hrun, hall⟩ := decBlocks_spec (parentsOf_wf b.w b.h hw hh) (N := b.w * b.h)
      (parentsOf_parent b.w b.h hw hh) hi2 hz2
      (fun n => getD_lt (by omega) (buildFrom_lt _ 256 (by omega) _ _ (by
        intro v hv
        obtain ⟨e, he, rfl⟩ := List.mem_map.1 hv
        exact (hc e he).zbp)) n)
      fuel hf rest b.blocks {} {} 0 hc (by omega)
      (by
        intro k hk
        rw [Nat.zero_add]
        rw [hi1 k (by omega), hz1 k (by omega)]
        simp [List.getD_eq_getElem?_getD, hk])
      rfl (incInv_fresh _ _) (zbpInv_fresh _)
      (by
        intro m _ _ h
        rcases h with h | h <;> simp at h)
    rw [hl] at hrun
    refine ⟨{ w := b.w, h := b.h, trees := tr, blocks := ds }, ?_, rfl, rfl, hall⟩
    simp only [bind_eq]
    rw [run_bind_ok hrun]
    rfl

/-- What the parser holds for a band after the packet. -/
def BandParsed (b : EncBand) (d : DecBand) : Prop :=
  d.w = b.w ∧ d.h = b.h ∧ List.Forall₂ Parsed b.blocks d.blocks

theorem decBands_spec (bands : List EncBand) (fuel : Nat) (hf : 256 ≤ fuel) (rest : List Bool)
    (hb : ∀ b ∈ bands, b.blocks.length = b.w * b.h ∧ ∀ e ∈ b.blocks, e.Consistent) :
    ∃ ds, (decBands fuel 0 (bands.map fun b => DecBand.fresh b.w b.h)).run (bands.flatMap encBand ++ rest) =
      .ok (ds, rest) ∧ List.Forall₂ BandParsed bands ds := by
  induction bands with
  | nil => exact ⟨[], rfl, List.Forall₂.nil⟩
  | cons b bands ih =>
    obtain ⟨h1, h2⟩ := hb b (by simp)
    obtain ⟨ds, hr, ha⟩ := ih (fun b hb' => hb b (by simp [hb']))
    obtain ⟨d, hd, hw, hh, hp⟩ := decBand_spec b h1 h2 fuel hf (bands.flatMap encBand ++ rest)
    refine ⟨d :: ds, ?_, List.Forall₂.cons ⟨hw, hh, hp⟩ ha⟩
    simp only [List.map_cons, decBands, List.flatMap_cons, List.append_assoc, bind_eq]
    rw [run_bind_ok hd, run_bind_ok hr]
    rfl

theorem pack_last {last : Nat} (h : last ≠ 255) (bs : List Bool) : pack last bs = pack 0 bs := by
  conv_lhs => rw [pack]
  conv_rhs => rw [pack]
  simp only [h, if_false]
  norm_num

/-- `check_last_FF`, `flush_bits` and the EPH check at the end of a written header. -/
theorem checkEPH_ok (useEPH : Bool) (r : Reader) (tail : List Nat)
    (h : r.src = (if useEPH then [0xFF, 0x92] else []) ++ tail) :
    ∃ r', checkEPH useEPH r = .ok r' ∧ r'.src = tail ∧ r'.last = r.last ∧ r'.bits = r.bits := by
  cases useEPH with
  | false => exact ⟨r, rfl, by simpa using h, rfl, rfl⟩
  | true =>
    obtain ⟨src, tmp, last, bits⟩ := r
    simp only [if_true, List.cons_append, List.nil_append] at h
    subst h
    exact ⟨⟨tail, tmp, last, bits⟩, rfl, rfl, rfl, rfl⟩

theorem parsePacket_spec (bands : List EncBand) (fuel : Nat) (hf : 256 ≤ fuel) (useEPH : Bool)
    (hb : ∀ b ∈ bands, b.blocks.length = b.w * b.h ∧ ∀ e ∈ b.blocks, e.Consistent)
    (tail : List Nat) (r : Reader) (hlast : r.last ≠ 255) (hbits : r.bits = 0)
    (hsrc : r.src = encPacket useEPH bands ++ tail) :
    ∃ ds r', parsePacket fuel useEPH 0 (bands.map fun b => DecBand.fresh b.w b.h) r = .ok (ds, r') ∧
      List.Forall₂ BandParsed bands ds ∧ r'.src = tail ∧ r'.last ≠ 255 ∧ r'.bits = 0 ∧ r.getBit.1 = true := by
  obtain ⟨ds, hrun, hall⟩ := decBands_spec bands fuel hf [] hb
  rw [List.append_nil] at hrun
  generalize hbs : bands.flatMap encBand = bs at *
  obtain ⟨src, tmp, last, bits⟩ := r
  simp only at hlast hbits hsrc
  have hs : src = pack last (true :: bs) ++ ((if useEPH then [0xFF, 0x92] else []) ++ tail) := by
    rw [hsrc, encPacket, hbs, pack_last hlast]
    cases useEPH with
    | false => rw [writer_flush]; simp
    | true => rw [flush_eph, writer_flush]; simp
  obtain ⟨h1, h2, h3, h4⟩ := pack_read last (true :: bs) (by simp)
    ((if useEPH then [0xFF, 0x92] else []) ++ tail) tmp
  rw [← hs] at h1 h2 h3 h4
  subst hbits
  simp only [List.length_cons, Reader.getBits, List.cons.injEq] at h1 h2 h3 h4
  have hprog := runReader_of_run _ bs ds (Reader.getBit ⟨src, tmp, last, 0⟩).2 hrun h1.2
  obtain ⟨r', hr', hsrc', hl', hb'⟩ := checkEPH_ok useEPH _ tail h2
  refine ⟨ds, r', ?_, hall, hsrc', by rw [hl']; exact h3, by rw [hb']; exact h4, h1.1⟩
  unfold parsePacket
  simp only [h1.1, if_true, hprog, hr']
  rfl

end Verif.Packet
