import Verif.Packet.BodyLemmas
import Verif.Packet.PropsPacket
/-!
# Packets with their bodies (C63)

`writePackets` models what the encoder writes behind SOD, `readPackets`/`readPacket` what the decoder reads
(Verif/Packet/Body.lean).
-/
namespace Verif.Packet
open Prog

/-! ## Specification -/

/-- Cut a byte string into pieces of the given lengths; what is missing at the end is missing in the last pieces. -/
def cutBy : List Nat → List Nat → List (List Nat)
  | [], _ => []
  | n :: ns, s => s.take n :: cutBy ns (s.drop n)

/-- The number of bytes the packet header announces for a code-block: the pass lengths of its last layer, as a 32-bit
number. -/
def lastLen (b : DecBlock) : Nat :=
  match b.layers.getLast? with
  | none => 0
  | some (l0, n) => ((b.passLen.drop l0).take n).sum % 2 ^ 32

/-- The code-blocks the HT encoder hands over: consistent numbers, and as many bytes as the pass lengths say. -/
structure CodedBlock.Sound (k : CodedBlock) : Prop where
  info : k.info.Consistent
  length : k.info.length = k.data.length
  lens : (k.info.passLen.take k.info.passes).sum = k.data.length

/-- What must hold of a precinct between packets. -/
structure Precinct.Ok (p : Precinct) : Prop where
  blocks : ∀ d ∈ p.bands, ∀ b ∈ d.blocks, b.Counted
  mem : ∀ m ∈ p.mem, ∀ a ∈ m, a.Ok
  sizes : p.mem.map List.length = p.bands.map (·.blocks.length)

/-! ## Reading any bytes -/

theorem announced_spec (b : DecBlock) (hb : b.Counted) :
    ∃ o, announced b = .ok o ∧ (o = none → lastLen b = 0) ∧ ∀ n, o = some n → lastLen b = n := by
  unfold announced lastLen
  cases h : b.layers.getLast? with
  | none => exact ⟨none, rfl, fun _ => rfl, by simp⟩
  | some x =>
    obtain ⟨l0, n⟩ := x
    simp only
    by_cases h0 : n = 0
    · rw [if_pos h0]; subst h0; exact ⟨none, rfl, by simp, by simp⟩
    · have h1 := hb.start l0 n h h0
      have h2 := hb.ok.fits
      rw [if_neg h0, if_neg (by omega)]
      exact ⟨_, rfl, by simp, fun n e => by injection e⟩

theorem createBuffer_spec (b : DecBlock) (hb : b.Counted) (m : Attached) (hm : m.Ok) (r : Reader) :
    ∃ m', createBuffer b m r = .ok (m', { r with src := r.src.drop (lastLen b) }) ∧ m'.Ok ∧
      m'.bytes = m.bytes ++ r.src.take (lastLen b) := by
  obtain ⟨o, h1, h2, h3⟩ := announced_spec b hb
  unfold createBuffer
  rw [h1]
  cases o with
  | none => rw [h2 rfl]; exact ⟨m, by simp, hm, by simp⟩
  | some n => rw [h3 n rfl]; exact attach_spec m hm n r

theorem skipBuffer_spec (b : DecBlock) (hb : b.Counted) (r : Reader) :
    skipBuffer b r = .ok { r with src := r.src.drop (lastLen b) } := by
  obtain ⟨o, h1, h2, h3⟩ := announced_spec b hb
  unfold skipBuffer
  rw [h1]
  cases o with
  | none => rw [h2 rfl]; simp
  | some n =>
    rw [h3 n rfl]
    simp only
    by_cases h0 : n = 0
    · rw [if_pos h0, h0]; simp
    · rw [if_neg h0]
      by_cases h4 : min n r.src.length = 0
      · rw [if_pos h4]
        have : r.src = [] := List.length_eq_zero_iff.mp (by omega)
        obtain ⟨src, tmp, last, bits⟩ := r
        simp only at this
        simp [this]
      · rw [if_neg h4]
        rcases Nat.le_total n r.src.length with h | h
        · rw [Nat.min_eq_left h]
        · rw [Nat.min_eq_right h, List.drop_eq_nil_of_le h, List.drop_eq_nil_of_le (Nat.le_refl _)]

theorem bodyBlocks_spec (bs : List DecBlock) : ∀ (ms : List Attached) (r : Reader), ms.length = bs.length →
    (∀ b ∈ bs, b.Counted) → (∀ a ∈ ms, a.Ok) →
    ∃ ms', bodyBlocks false bs ms r = .ok (ms', { r with src := r.src.drop (bs.map lastLen).sum }) ∧
      bodyBlocks true bs ms r = .ok (ms, { r with src := r.src.drop (bs.map lastLen).sum }) ∧
      (∀ a ∈ ms', a.Ok) ∧ ms'.length = ms.length ∧
      ms'.map Attached.bytes = List.zipWith (· ++ ·) (ms.map Attached.bytes) (cutBy (bs.map lastLen) r.src) := by
  induction bs with
  | nil =>
    intro ms r hl _ _
    have : ms = [] := List.length_eq_zero_iff.mp hl
    subst this
    exact ⟨[], by simp [bodyBlocks], by simp [bodyBlocks], by simp, rfl, rfl⟩
  | cons b bs ih =>
    intro ms r hl hb hm
    match ms with
    | [] => simp at hl
    | m :: ms =>
      obtain ⟨m', e1, o1, b1⟩ := createBuffer_spec b (hb b (by simp)) m (hm m (by simp)) r
      have e1' := skipBuffer_spec b (hb b (by simp)) r
      obtain ⟨ms', e2, e3, o2, l2, b2⟩ := ih ms { r with src := r.src.drop (lastLen b) } (by simpa using hl)
        (fun b h => hb b (by simp [h])) (fun a h => hm a (by simp [h]))
      refine ⟨m' :: ms', ?_, ?_, ?_, by simp [l2], ?_⟩
      · simp only [bodyBlocks, Bool.false_eq_true, if_false, e1, Except.bind, e2, Except.map, List.drop_drop,
          List.map_cons, List.sum_cons]
      · simp only [bodyBlocks, if_true, e1', Except.bind, e3, Except.map, List.drop_drop,
          List.map_cons, List.sum_cons]
      · intro a ha
        rcases List.mem_cons.1 ha with rfl | ha
        · exact o1
        · exact o2 a ha
      · simp only [List.map_cons, cutBy, List.zipWith_cons_cons, b1, b2]

theorem cutBy_append (as bs s : List Nat) : cutBy (as ++ bs) s = cutBy as s ++ cutBy bs (s.drop as.sum) := by
  induction as generalizing s with
  | nil => simp [cutBy]
  | cons a as ih => simp only [List.cons_append, cutBy, ih, List.sum_cons, List.drop_drop]

theorem cutBy_length (ns s : List Nat) : (cutBy ns s).length = ns.length := by
  induction ns generalizing s with
  | nil => rfl
  | cons a as ih => simp [cutBy, ih]

theorem bodyBands_spec (ds : List DecBand) : ∀ (ms : List (List Attached)) (r : Reader),
    ms.map List.length = ds.map (·.blocks.length) →
    (∀ d ∈ ds, ∀ b ∈ d.blocks, b.Counted) → (∀ m ∈ ms, ∀ a ∈ m, a.Ok) →
    ∃ ms', bodyBands false ds ms r = .ok (ms', { r with src := r.src.drop ((ds.flatMap (·.blocks)).map lastLen).sum }) ∧
      bodyBands true ds ms r = .ok (ms, { r with src := r.src.drop ((ds.flatMap (·.blocks)).map lastLen).sum }) ∧
      (∀ m ∈ ms', ∀ a ∈ m, a.Ok) ∧ ms'.map List.length = ms.map List.length ∧
      ms'.flatten.map Attached.bytes =
        List.zipWith (· ++ ·) (ms.flatten.map Attached.bytes) (cutBy ((ds.flatMap (·.blocks)).map lastLen) r.src) := by
  induction ds with
  | nil =>
    intro ms r hl _ _
    have : ms = [] := by simpa using hl
    subst this
    exact ⟨[], by simp [bodyBands], by simp [bodyBands], by simp, rfl, rfl⟩
  | cons d ds ih =>
    intro ms r hl hb hm
    match ms with
    | [] => simp at hl
    | m :: ms =>
      simp only [List.map_cons, List.cons.injEq] at hl
      obtain ⟨m', e1, e1', o1, l1, b1⟩ := bodyBlocks_spec d.blocks m r hl.1 (hb d (by simp)) (hm m (by simp))
      obtain ⟨ms', e2, e3, o2, l2, b2⟩ := ih ms { r with src := r.src.drop (d.blocks.map lastLen).sum } hl.2
        (fun d h => hb d (by simp [h])) (fun a h => hm a (by simp [h]))
      refine ⟨m' :: ms', ?_, ?_, ?_, by simp [l1, l2], ?_⟩
      · simp only [bodyBands, e1, Except.bind, e2, Except.map, List.drop_drop, List.flatMap_cons, List.map_append,
          List.sum_append]
      · simp only [bodyBands, e1', Except.bind, e3, Except.map, List.drop_drop, List.flatMap_cons, List.map_append,
          List.sum_append]
      · intro a ha
        rcases List.mem_cons.1 ha with rfl | ha
        · exact o1
        · exact o2 a ha
      · simp only [List.flatten_cons, List.map_append, List.flatMap_cons, cutBy_append, b1, b2]
        rw [List.zipWith_append]
        simp [cutBy_length, hl.1]

theorem checkSOP_not_oob (useSOP : Bool) (q : Reader) : checkSOP useSOP q ≠ .error .oob := by
  unfold checkSOP
  cases useSOP with
  | false => simp
  | true =>
    simp only [if_true]
    split_ifs <;> simp

/-- C63, any bytes.  From any state reached by earlier packets and for any layer, reading a packet never sums pass lengths
outside their array and never copies beyond the buffer of a code-block, whether the bodies are attached or skipped; and
the state is in order for the next packet. -/
theorem C63_read_in_bounds (fuel : Nat) (useSOP useEPH skip : Bool) (layer : Nat) (p : Precinct) (hp : p.Ok)
    (r : Reader) :
    readPacket fuel useSOP useEPH skip layer p r ≠ .error .oob ∧
    ∀ p' r', readPacket fuel useSOP useEPH skip layer p r = .ok (p', r') → p'.Ok := by
  unfold readPacket
  cases hs : checkSOP useSOP r with
  | error e =>
    refine ⟨?_, fun _ _ h => by simp [Except.bind] at h⟩
    intro h
    simp only [Except.bind, Except.error.injEq] at h
    exact checkSOP_not_oob useSOP r (by rw [hs, h])
  | ok r1 =>
    obtain ⟨hn, hk⟩ := parsePacket_counted fuel useEPH layer p.bands hp.blocks r1
    cases hpp : parsePacket fuel useEPH layer p.bands r1 with
    | error e =>
      rw [hpp] at hn
      exact ⟨by simpa [Except.bind, hpp] using hn, fun _ _ h => by simp [Except.bind, hpp] at h⟩
    | ok x =>
      obtain ⟨ds, r2⟩ := x
      obtain ⟨hl, hc⟩ := hk ds r2 hpp
      simp only [Except.bind, hpp]
      by_cases hbit : r1.getBit.1 = true
      · rw [if_pos hbit]
        obtain ⟨ms', e1, e2, o, l, -⟩ := bodyBands_spec ds p.mem r2 (hp.sizes.trans hl.symm) hc hp.mem
        cases skip with
        | false =>
          rw [e1]
          refine ⟨by simp [Except.map], fun p' r' h => ?_⟩
          simp only [Except.map, Except.ok.injEq, Prod.mk.injEq] at h
          rw [← h.1]
          exact ⟨hc, o, by rw [l]; exact hp.sizes.trans hl.symm⟩
        | true =>
          rw [e2]
          refine ⟨by simp [Except.map], fun p' r' h => ?_⟩
          simp only [Except.map, Except.ok.injEq, Prod.mk.injEq] at h
          rw [← h.1]
          exact ⟨hc, hp.mem, hp.sizes.trans hl.symm⟩
      · rw [if_neg hbit]
        refine ⟨by simp, fun p' r' h => ?_⟩
        simp only [Except.ok.injEq, Prod.mk.injEq] at h
        rw [← h.1]
        exact ⟨hc, hp.mem, hp.sizes.trans hl.symm⟩

theorem getByte_suffix (r : Reader) : r.getByte.2.src <:+ r.src := by
  unfold Reader.getByte
  cases h : r.src with
  | nil => simp [h]
  | cons b bs => exact List.suffix_cons b bs

theorem getBit_suffix (r : Reader) : r.getBit.2.src <:+ r.src := by
  unfold Reader.getBit
  by_cases h : r.bits = 0
  · simp only [if_pos h]; exact getByte_suffix r
  · simp only [if_neg h]; exact List.suffix_refl _

theorem runReader_suffix {α : Type} (p : Prog α) : ∀ (r r' : Reader) (a : α), p.runReader r = .ok (a, r') →
    r'.src <:+ r.src := by
  induction p with
  | ret a => intro r r' a h; simp only [runReader, Except.ok.injEq, Prod.mk.injEq] at h; rw [h.2]
  | fail e => intro r r' a h; simp [runReader] at h
  | bit k ih => intro r r' a h; exact (ih _ _ _ _ h).trans (getBit_suffix r)

theorem checkEPH_suffix (useEPH : Bool) (r r' : Reader) (h : checkEPH useEPH r = .ok r') : r'.src <:+ r.src := by
  unfold checkEPH at h
  cases useEPH with
  | false => simp only [Bool.false_eq_true, if_false, Except.ok.injEq] at h; rw [h]
  | true =>
    simp only [if_true] at h
    split_ifs at h
    simp only [Except.ok.injEq] at h
    rw [← h]
    exact (getByte_suffix _).trans (getByte_suffix r)

theorem getWord_suffix (r : Reader) : r.getWord.2.src <:+ r.src := (getByte_suffix _).trans (getByte_suffix r)

theorem checkSOP_suffix (useSOP : Bool) (r r' : Reader) (h : checkSOP useSOP r = .ok r') : r'.src <:+ r.src := by
  unfold checkSOP at h
  cases useSOP with
  | false => simp only [Bool.false_eq_true, if_false, Except.ok.injEq] at h; rw [h]
  | true =>
    simp only [if_true] at h
    split_ifs at h
    simp only [Except.ok.injEq] at h
    rw [← h]
    exact ((getWord_suffix _).trans (getWord_suffix _)).trans (getWord_suffix r)

theorem parsePacket_suffix (fuel : Nat) (useEPH : Bool) (layer : Nat) (ds ds' : List DecBand) (r r' : Reader)
    (h : parsePacket fuel useEPH layer ds r = .ok (ds', r')) :
    r'.src <:+ r.src ∧ (r.getBit.1 = false → ds' = ds) := by
  unfold parsePacket at h
  cases hb : r.getBit.1 with
  | false =>
    simp only [hb, Bool.false_eq_true, if_false] at h
    cases hc : checkEPH useEPH { r.getBit.2 with bits := 0 } with
    | error e => rw [hc] at h; simp [Except.map] at h
    | ok q =>
      rw [hc] at h
      simp only [Except.map, Except.ok.injEq, Prod.mk.injEq] at h
      rw [← h.2]
      exact ⟨(checkEPH_suffix _ _ _ hc).trans (getBit_suffix r), fun _ => h.1.symm⟩
  | true =>
    simp only [hb, if_true] at h
    cases hr : (decBands fuel layer ds).runReader r.getBit.2 with
    | error e => rw [hr] at h; simp at h
    | ok x =>
      obtain ⟨ds1, r1⟩ := x
      rw [hr] at h
      simp only at h
      cases hc : checkEPH useEPH r1.finish with
      | error e => rw [hc] at h; simp [Except.map] at h
      | ok q =>
        rw [hc] at h
        simp only [Except.map, Except.ok.injEq, Prod.mk.injEq] at h
        rw [← h.2]
        refine ⟨?_, by simp⟩
        have hfin : r1.finish.src <:+ r1.src := by
          unfold Reader.finish
          by_cases hf : r1.tmp = 0xFF
          · simp only [if_pos hf]; exact getBit_suffix r1
          · simp only [if_neg hf]; exact List.suffix_refl _
        exact (((checkEPH_suffix _ _ _ hc).trans hfin).trans (runReader_suffix _ _ _ _ hr)).trans (getBit_suffix r)

/-- C63, any bytes: what a code-block ends up with.  `r1` is the reader behind the SOP segment.  An empty packet changes
nothing.  Any other packet that is read adds to every code-block, behind the bytes it already has, its piece of the body;
the pieces are the body – the rest of the tile-part from where the header ended – cut by the announced lengths, and the
reader is left behind them.  Skipping the body gives the same header state and leaves the reader at the same place. -/
theorem C63_layers_append (fuel : Nat) (useSOP useEPH : Bool) (layer : Nat) (p p' : Precinct) (hp : p.Ok)
    (r r' : Reader) (h : readPacket fuel useSOP useEPH false layer p r = .ok (p', r')) :
    readPacket fuel useSOP useEPH true layer p r = .ok (⟨p'.bands, p.mem⟩, r') ∧
    ∃ r1, checkSOP useSOP r = .ok r1 ∧
      (r1.getBit.1 = false → p' = p) ∧
      (r1.getBit.1 = true → ∃ body : List Nat, body <:+ r1.src ∧
        p'.mem.flatten.map Attached.bytes = List.zipWith (· ++ ·) (p.mem.flatten.map Attached.bytes)
          (cutBy ((p'.bands.flatMap (·.blocks)).map lastLen) body) ∧
        r'.src = body.drop ((p'.bands.flatMap (·.blocks)).map lastLen).sum) := by
  unfold readPacket at h ⊢
  cases hs : checkSOP useSOP r with
  | error e => rw [hs] at h; simp [Except.bind] at h
  | ok r1 =>
    rw [hs] at h
    obtain ⟨hn, hk⟩ := parsePacket_counted fuel useEPH layer p.bands hp.blocks r1
    cases hpp : parsePacket fuel useEPH layer p.bands r1 with
    | error e => simp [Except.bind, hpp] at h
    | ok x =>
      obtain ⟨ds, r2⟩ := x
      obtain ⟨hl, hc⟩ := hk ds r2 hpp
      obtain ⟨hsuf, hemp⟩ := parsePacket_suffix _ _ _ _ _ _ _ hpp
      simp only [Except.bind, hpp] at h ⊢
      by_cases hbit : r1.getBit.1 = true
      · rw [if_pos hbit] at h ⊢
        obtain ⟨ms', e1, e2, o, l, hby⟩ := bodyBands_spec ds p.mem r2 (hp.sizes.trans hl.symm) hc hp.mem
        rw [e1] at h
        simp only [Except.map, Except.ok.injEq, Prod.mk.injEq] at h
        rw [e2, ← h.1, ← h.2]
        refine ⟨rfl, r1, rfl, by simp [hbit], fun _ => ⟨r2.src, hsuf, hby, rfl⟩⟩
      · rw [if_neg hbit] at h ⊢
        simp only [Except.ok.injEq, Prod.mk.injEq] at h
        rw [← h.1, ← h.2]
        refine ⟨rfl, r1, rfl, fun hf => by rw [hemp hf], fun ht => absurd ht hbit⟩

/-- A fresh precinct meets the hypothesis. -/
theorem fresh_ok (grids : List (Nat × Nat)) : (Precinct.fresh grids).Ok := by
  refine ⟨?_, ?_, ?_⟩
  · intro d hd b hb
    simp only [Precinct.fresh, List.mem_map] at hd
    obtain ⟨g, -, rfl⟩ := hd
    rw [(List.mem_replicate.1 hb).2]
    exact ⟨⟨Or.inl rfl, rfl, by decide⟩, rfl, by intro _ _ h; simp at h⟩
  · intro m hm a ha
    simp only [Precinct.fresh, List.mem_map] at hm
    obtain ⟨g, -, rfl⟩ := hm
    rw [(List.mem_replicate.1 ha).2]
    trivial
  · simp [Precinct.fresh, DecBand.fresh, Function.comp_def]

/-! ## Reading what was written -/

theorem parsed_lastLen {k : CodedBlock} (hk : k.Sound) {d : DecBlock} (h : Parsed k.info d) :
    lastLen d = k.data.length := by
  have hb := hk.info.bounded
  have hl := hk.lens
  by_cases hp : k.info.passes = 0
  · rw [h.1 hp]
    rw [hp] at hl
    simpa [lastLen] using hl
  · obtain ⟨l, hd⟩ := h.2 hp
    rw [hd]
    have hrec := (parsed_recovered hk.info h).total
    rw [hd] at hrec
    simp only at hrec
    simp only [lastLen, List.getLast?_singleton, List.drop_zero]
    have hlen : (parsedLens k.info).length ≤ k.info.passes := by
      unfold parsedLens
      split_ifs with h3
      · simp [h3]
      · simp
    rw [List.take_of_length_le hlen, hrec, hl]
    rw [Nat.mod_eq_of_lt]
    omega

theorem parsed_counted {k : EncBlock} (hk : k.Consistent) {d : DecBlock} (h : Parsed k d) : d.Counted := by
  by_cases hp : k.passes = 0
  · rw [h.1 hp]
    refine ⟨⟨Or.inl rfl, rfl, by decide⟩, rfl, ?_⟩
    intro l0 n e hn
    simp only [List.getLast?_singleton, Option.some.injEq, Prod.mk.injEq] at e
    exact absurd e.2.symm hn
  · obtain ⟨l, hd⟩ := h.2 hp
    rw [hd]
    have h3 := hk.passes
    have hs := hk.stored
    refine ⟨⟨Or.inl rfl, ?_, by simp only; omega⟩, by simp, ?_⟩
    · simp only [parsedLens]
      split_ifs with h3
      · simp [h3]
      · rw [List.length_take]; omega
    · intro l0 n e hn
      simp only [List.getLast?_singleton, Option.some.injEq, Prod.mk.injEq] at e
      simp only
      omega

theorem cutBy_flatten (ds : List (List Nat)) (tail : List Nat) :
    cutBy (ds.map List.length) (ds.flatten ++ tail) = ds ∧
      (ds.flatten ++ tail).drop (ds.map List.length).sum = tail := by
  induction ds with
  | nil => exact ⟨rfl, by simp⟩
  | cons d ds ih =>
    refine ⟨?_, ?_⟩
    · simp only [List.map_cons, cutBy, List.flatten_cons, List.append_assoc]
      rw [List.take_left, List.drop_left, ih.1]
    · rw [List.map_cons, List.sum_cons, ← List.drop_drop, List.flatten_cons, List.append_assoc, List.drop_left, ih.2]

theorem forall₂_flatMap {α β γ δ : Type} {R : γ → δ → Prop} (f : α → List γ) (g : β → List δ) {as : List α} {bs : List β}
    (h : List.Forall₂ (fun a b => List.Forall₂ R (f a) (g b)) as bs) :
    List.Forall₂ R (as.flatMap f) (bs.flatMap g) := by
  induction h with
  | nil => exact List.Forall₂.nil
  | cons h _ ih => exact List.rel_append h ih

theorem body_eq (bands : List CodedBand) (h : ∀ b ∈ bands, ∀ k ∈ b.blocks, k.Sound) :
    bodyOf bands = ((bands.flatMap (·.blocks)).map (·.data)).flatten := by
  have hk : ∀ k : CodedBlock, k.Sound → (if k.info.length > 0 then k.data.take k.info.length else []) = k.data := by
    intro k hk
    rw [hk.length]
    split_ifs with h0
    · simp
    · exact (List.length_eq_zero_iff.mp (by omega)).symm
  unfold bodyOf
  induction bands with
  | nil => rfl
  | cons b bands ih =>
    rw [List.flatMap_cons, List.flatMap_cons, ih (fun b hb => h b (by simp [hb])), List.map_append, List.flatten_append]
    congr 1
    have hb := h b (by simp)
    generalize b.blocks = ks at hb
    induction ks with
    | nil => rfl
    | cons k ks ih2 =>
      rw [List.flatMap_cons, hk k (hb k (by simp)), ih2 (fun k h => hb k (by simp [h]))]
      simp

/-- What C63 asks of a precinct read: every code-block has the numbers and the bytes the encoder wrote. -/
def Delivered (bands : List CodedBand) (p : Precinct) : Prop :=
  List.Forall₂ (fun b d => List.Forall₂ Recovered (b.blocks.map (·.info)) d.blocks) bands p.bands ∧
  p.mem.map (List.map Attached.bytes) = bands.map fun b => b.blocks.map (·.data)

theorem checkSOP_ok (useSOP : Bool) (seq : Nat) (rest : List Nat) (r : Reader) (h : r.src = sopOf useSOP seq ++ rest) :
    checkSOP useSOP r = .ok { r with src := rest } := by
  obtain ⟨src, tmp, last, bits⟩ := r
  simp only at h
  subst h
  cases useSOP with
  | false => rfl
  | true => rfl

theorem split_lengths {α : Type} (xs ys : List (List α)) (hl : xs.map List.length = ys.map List.length)
    (h : xs.flatten = ys.flatten) : xs = ys := by
  induction xs generalizing ys with
  | nil => exact (by simpa using hl.symm : ys = []).symm
  | cons x xs ih =>
    match ys with
    | [] => simp at hl
    | y :: ys =>
      simp only [List.map_cons, List.cons.injEq] at hl
      simp only [List.flatten_cons] at h
      obtain ⟨e1, e2⟩ := List.append_inj h hl.1
      rw [e1, ih ys hl.2 e2]

theorem recovered_all {bands : List CodedBand} {ds : List DecBand} (hb : ∀ b ∈ bands, ∀ k ∈ b.blocks, k.Sound)
    (h : List.Forall₂ (fun b d => List.Forall₂ (fun k d => Parsed k.info d) b.blocks d.blocks) bands ds) :
    List.Forall₂ (fun b d => List.Forall₂ Recovered (b.blocks.map (·.info)) d.blocks) bands ds := by
  induction h with
  | nil => exact List.Forall₂.nil
  | cons h _ ih =>
    refine List.Forall₂.cons ?_ (ih (fun b h => hb b (by simp [h])))
    refine parsed_all _ _ ?_ (List.forall₂_map_left_iff.2 h)
    intro e he
    obtain ⟨k, hk, rfl⟩ := List.mem_map.1 he
    exact (hb _ (by simp) k hk).info

theorem zipWith_nil_append (xs : List (List Nat)) : ∀ es : List (List Nat), es.length = xs.length → (∀ e ∈ es, e = []) →
    List.zipWith (· ++ ·) es xs = xs := by
  induction xs with
  | nil => intro es _ _; simp
  | cons x xs ih =>
    intro es hl he
    match es with
    | [] => simp at hl
    | e :: es =>
      rw [List.zipWith_cons_cons, he e (by simp), ih es (by simpa using hl) (fun e h => he e (by simp [h]))]
      rfl

/-- C63, one packet.  For any subbands, code-block grids and code-blocks the encoder can produce, with or without SOP and
EPH, reading the packet the encoder wrote gives every code-block the numbers and exactly the bytes of the encoder's
code-block, and leaves the reader at the first byte behind the packet, ready for the next one. -/
theorem C63_packet_round_trip (bands : List CodedBand)
    (hb : ∀ b ∈ bands, b.blocks.length = b.w * b.h ∧ ∀ k ∈ b.blocks, k.Sound)
    (useSOP useEPH : Bool) (seq : Nat) (tail : List Nat) (fuel : Nat) (hf : 256 ≤ fuel)
    (r : Reader) (hlast : r.last ≠ 255) (hbits : r.bits = 0)
    (hsrc : r.src = writePacket useSOP useEPH seq bands ++ tail) :
    ∃ p r', readPacket fuel useSOP useEPH false 0 (.fresh (bands.map fun b => (b.w, b.h))) r = .ok (p, r') ∧
      Delivered bands p ∧ r'.src = tail ∧ r'.bits = 0 ∧ r'.last ≠ 255 := by
  have hb' : ∀ b ∈ bands.map CodedBand.header, b.blocks.length = b.w * b.h ∧ ∀ e ∈ b.blocks, e.Consistent := by
    intro e he
    obtain ⟨b, hm, rfl⟩ := List.mem_map.1 he
    refine ⟨by simpa [CodedBand.header] using (hb b hm).1, ?_⟩
    intro i hi
    obtain ⟨k, hk, rfl⟩ := List.mem_map.1 hi
    exact ((hb b hm).2 k hk).info
  have h1 := checkSOP_ok useSOP seq (encPacket useEPH (bands.map CodedBand.header) ++ (bodyOf bands ++ tail)) r
    (by rw [hsrc, writePacket]; simp)
  obtain ⟨ds, r', hp, hall, hs, hl, hbt, hbit⟩ := parsePacket_spec (bands.map CodedBand.header) fuel hf useEPH hb'
    (bodyOf bands ++ tail) { r with src := encPacket useEPH (bands.map CodedBand.header) ++ (bodyOf bands ++ tail) }
    hlast hbits rfl
  have hfresh : ((bands.map CodedBand.header).map fun b => DecBand.fresh b.w b.h) =
      (Precinct.fresh (bands.map fun b => (b.w, b.h))).bands := by
    simp [Precinct.fresh, CodedBand.header, Function.comp_def]
  rw [hfresh] at hp
  have hall' : List.Forall₂ (fun b d => List.Forall₂ (fun k d => Parsed k.info d) b.blocks d.blocks) bands ds := by
    rw [List.forall₂_map_left_iff] at hall
    refine hall.imp fun b d h => ?_
    have := h.2.2
    simp only [CodedBand.header] at this
    rwa [List.forall₂_map_left_iff] at this
  have hflat := forall₂_flatMap (fun b : CodedBand => b.blocks) (fun d : DecBand => d.blocks) hall'
  have hsound : ∀ k ∈ bands.flatMap (·.blocks), k.Sound := by
    intro k hk
    obtain ⟨b, hm, hk⟩ := List.mem_flatMap.1 hk
    exact (hb b hm).2 k hk
  have hlens : (ds.flatMap (·.blocks)).map lastLen = ((bands.flatMap (·.blocks)).map (·.data)).map List.length := by
    generalize bands.flatMap (·.blocks) = ks at hflat hsound
    generalize ds.flatMap (·.blocks) = bs at hflat
    induction hflat with
    | nil => rfl
    | cons h _ ih =>
      simp only [List.map_cons]
      rw [parsed_lastLen (hsound _ (by simp)) h, ih (fun k hk => hsound k (by simp [hk]))]
  have hcount : ∀ d ∈ ds, ∀ b ∈ d.blocks, b.Counted := by
    intro d hd b hbd
    have hm : b ∈ ds.flatMap (·.blocks) := List.mem_flatMap.2 ⟨d, hd, hbd⟩
    generalize bands.flatMap (·.blocks) = ks at hflat hsound
    generalize ds.flatMap (·.blocks) = bs at hflat hm
    induction hflat with
    | nil => simp at hm
    | cons h _ ih =>
      rcases List.mem_cons.1 hm with rfl | hm
      · exact parsed_counted (hsound _ (by simp)).info h
      · exact ih (fun k hk => hsound k (by simp [hk])) hm
  have hsz : (Precinct.fresh (bands.map fun b => (b.w, b.h))).mem.map List.length = ds.map (·.blocks.length) := by
    have h0 := (parsePacket_counted fuel useEPH 0 _ (fresh_ok (bands.map fun b => (b.w, b.h))).blocks
      { r with src := encPacket useEPH (bands.map CodedBand.header) ++ (bodyOf bands ++ tail) }).2 ds r' hp
    rw [h0.1]
    exact (fresh_ok _).sizes
  obtain ⟨ms', e1, -, -, l, hby⟩ := bodyBands_spec ds _ r' hsz hcount (fresh_ok _).mem
  refine ⟨⟨ds, ms'⟩, { r' with src := tail }, ?_, ⟨?_, ?_⟩, rfl, hbt, hl⟩
  · unfold readPacket
    rw [h1]
    simp only [Except.bind, hp, hbit, if_true, e1, Except.map]
    rw [hs, body_eq bands (fun b h => (hb b h).2), hlens, (cutBy_flatten _ tail).2]
  · exact recovered_all (fun b h => (hb b h).2) hall'
  · apply split_lengths
    · simp only [List.map_map, Function.comp_def, List.length_map]
      rw [show (List.map (fun x : List Attached => x.length) ms') = ms'.map List.length from rfl, l]
      simp only [Precinct.fresh, List.map_map, Function.comp_def, List.length_replicate]
      apply List.map_congr_left
      intro b h
      exact (hb b h).1.symm
    · rw [← List.map_flatten, hby, hs, hlens, body_eq bands (fun b h => (hb b h).2), (cutBy_flatten _ tail).1]
      rw [show (bands.map fun b => b.blocks.map (·.data)).flatten = (bands.flatMap (·.blocks)).map (·.data) by
        rw [List.map_flatMap, List.flatMap_def]]
      apply zipWith_nil_append
      · rw [List.length_map, List.length_flatten, hsz, List.length_map]
        have := congrArg List.length hlens
        simp only [List.length_map] at this
        rw [← this, List.length_flatMap]
      · intro e he
        obtain ⟨a, ha, rfl⟩ := List.mem_map.1 he
        obtain ⟨m, hm, ha⟩ := List.mem_flatten.1 ha
        simp only [Precinct.fresh, List.mem_map] at hm
        obtain ⟨g, -, rfl⟩ := hm
        rw [(List.mem_replicate.1 ha).2]
        rfl

/-- C63, all packets of a tile.  For any sequence of packets written by the encoder, reading them in the same order gives
every code-block of every precinct its numbers and its bytes, and leaves what follows the last packet. -/
theorem C63_packets_round_trip (useSOP useEPH : Bool) (tail : List Nat) (fuel : Nat) (hf : 256 ≤ fuel)
    (packets : List (List CodedBand))
    (hb : ∀ bands ∈ packets, ∀ b ∈ bands, b.blocks.length = b.w * b.h ∧ ∀ k ∈ b.blocks, k.Sound) :
    ∀ (seq : Nat) (r : Reader), r.last ≠ 255 → r.bits = 0 → r.src = writePackets useSOP useEPH seq packets ++ tail →
    ∃ ps r', readPackets fuel useSOP useEPH (packets.map fun bands => .fresh (bands.map fun b => (b.w, b.h))) r =
        .ok (ps, r') ∧
      List.Forall₂ Delivered packets ps ∧ r'.src = tail := by
  induction packets with
  | nil => intro seq r _ _ h; exact ⟨[], r, rfl, List.Forall₂.nil, by simpa [writePackets] using h⟩
  | cons p packets ih =>
    intro seq r h1 h2 h3
    rw [writePackets, List.append_assoc] at h3
    obtain ⟨q, r', e1, d1, h4, h5, h6⟩ := C63_packet_round_trip p (hb p (by simp)) useSOP useEPH seq _ fuel hf r h1 h2 h3
    obtain ⟨ps, r'', e2, d2, h7⟩ := ih (fun b h => hb b (by simp [h])) (seq + 1) r' h6 h5 h4
    refine ⟨q :: ps, r'', ?_, List.Forall₂.cons d1 d2, h7⟩
    simp only [List.map_cons, readPackets, e1, Except.bind, e2, Except.map]

/-- C63, what the code does not give: asked for more than one layer, the encoder writes the header of a precinct for the last
layer only, to which no code-block contributes.  Whatever was coded, the header is a zero bit for every code-block – it
announces none of the bytes that follow it. -/
theorem C63_more_layers_announce_nothing (layer : Nat) (b : EncBand) (hl : b.blocks.length = b.w * b.h)
    (hb : ∀ e ∈ b.blocks, e.passes ≠ 0) : encBandLast layer b = List.replicate (b.w * b.h) false := by
  have h : ∀ (es : List EncBlock), (∀ e ∈ es, e.passes ≠ 0) → ∀ ps iv s idx,
      encBlocksLast ps iv layer s idx es = List.replicate es.length false := by
    intro es
    induction es with
    | nil => intros; rfl
    | cons e es ih =>
      intro he ps iv s idx
      simp only [encBlocksLast, encBlockLast, if_pos (he e (by simp)), List.length_cons, List.replicate_succ]
      rw [ih (fun e h => he e (by simp [h]))]
      rfl
  unfold encBandLast
  by_cases h0 : b.w * b.h = 0
  · rw [if_pos h0, h0]; rfl
  · rw [if_neg h0, h _ hb, hl]

/-! ## Examples -/

/-- Two packets meeting the hypotheses: two subbands with an empty code-block and one with three passes, and one code-block
of one pass. -/
def sampleBodies : List (List CodedBand) :=
  [[⟨2, 1, [⟨⟨5, 3, 4, [2, 1, 2]⟩, [10, 11, 12, 255, 14]⟩, ⟨⟨0, 0, 9, []⟩, []⟩]⟩],
   [⟨1, 1, [⟨⟨3, 1, 2, [3]⟩, [1, 2, 3]⟩]⟩]]

example : ∀ bands ∈ sampleBodies, ∀ b ∈ bands, b.blocks.length = b.w * b.h ∧ ∀ k ∈ b.blocks, k.Sound := by
  intro bands hbs b hb
  simp only [sampleBodies, List.mem_cons, List.not_mem_nil, or_false] at hbs
  rcases hbs with rfl | rfl <;> simp only [List.mem_cons, List.not_mem_nil, or_false] at hb <;> subst hb <;>
    refine ⟨rfl, ?_⟩ <;> intro k hk <;> simp only [List.mem_cons, List.not_mem_nil, or_false] at hk
  · rcases hk with rfl | rfl <;> refine ⟨?_, rfl, rfl⟩ <;> constructor <;> simp
  · subst hk; refine ⟨?_, rfl, rfl⟩; constructor <;> simp

example : writePackets true false 7 sampleBodies =
    [255, 145, 0, 4, 0, 7, 225, 225, 24, 10, 11, 12, 255, 14, 255, 145, 0, 4, 0, 8, 200, 192, 1, 2, 3] := by
  decide +kernel

/-- Two layers of one code-block: the second one has two passes, of which one is announced longer than the tile-part is.  The
bytes are appended and the excess is cut off. -/
example : ((readPacket 300 false false false 0 (.fresh [(1, 1)])
      ⟨writePackets false false 0 [[⟨1, 1, [⟨⟨3, 1, 2, [3]⟩, [1, 2, 3]⟩]⟩]] ++ [0xE4, 0x80, 40, 41], 0, 0, 0⟩).bind
    fun (p, r) => (readPacket 300 false false false 1 p r).map fun (p, r) => (p.mem, r.src)) =
    .ok ([[.owned [1, 2, 3, 40, 41] 8192]], []) := by
  decide +kernel

end Verif.Packet
