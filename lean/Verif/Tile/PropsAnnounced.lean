import Verif.Tile.Announced
import Verif.Tile.PropsCodestream

/-!
C71: the length the encoder announces for a tile-part, and allots in the output buffer, is the number of bytes it writes.
-/

namespace Verif.Tile.Pipe
open Verif.Packet (CodedBand CodedBlock encBand encBandLast bodyOf sopOf encPacket writePackets writePacket)

/-! ## Lemmas -/

theorem wsum_eq (l : List Nat) : wsum l = w32 l.sum := by
  have h : ∀ (l : List Nat) (a : Nat), l.foldl (fun a x => w32 (a + x)) (w32 a) = w32 (a + l.sum) := by
    intro l
    induction l with
    | nil => intro a; simp
    | cons x l ih =>
      intro a
      have e : w32 (w32 a + x) = w32 (a + x) := by unfold w32; omega
      rw [List.foldl_cons, e, ih, List.sum_cons, Nat.add_assoc]
  have := h l 0
  rw [Nat.zero_add] at this
  exact this

theorem sum_map_flatMap {α β : Type} (g : α → List β) (f : β → Nat) : ∀ l : List α,
    ((l.flatMap g).map f).sum = (l.map fun a => ((g a).map f).sum).sum := by
  intro l
  induction l with
  | nil => rfl
  | cons a l ih => rw [List.flatMap_cons, List.map_append, List.sum_append, ih, List.map_cons, List.sum_cons]

theorem nodup_allPkts (T : TileP) : (allPkts T).Nodup := by
  unfold allPkts
  refine nodup_flatMap_key List.nodup_range (key := Pkt.c) (fun c _ => ?_) ?_
  · refine nodup_flatMap_key List.nodup_range (key := Pkt.r) (fun r _ => ?_) ?_
    · refine nodup_flatMap_key List.nodup_range (key := Pkt.p) (fun p _ => ?_) ?_
      · exact List.nodup_range.map fun a b e => congrArg Pkt.l e
      · intro p _ q hq; obtain ⟨l, _, rfl⟩ := List.mem_map.1 hq; rfl
    · intro r _ q hq
      obtain ⟨p, _, hq⟩ := List.mem_flatMap.1 hq
      obtain ⟨l, _, rfl⟩ := List.mem_map.1 hq; rfl
  · intro c _ q hq
    obtain ⟨r, _, hq⟩ := List.mem_flatMap.1 hq
    obtain ⟨p, _, hq⟩ := List.mem_flatMap.1 hq
    obtain ⟨l, _, rfl⟩ := List.mem_map.1 hq; rfl

theorem valid_of_mem_allPkts {T : TileP} {q : Pkt} (hq : q ∈ allPkts T) : T.Valid q := by
  unfold allPkts at hq
  obtain ⟨c, hc, hq⟩ := List.mem_flatMap.1 hq
  obtain ⟨r, hr, hq⟩ := List.mem_flatMap.1 hq
  obtain ⟨p, hp, hq⟩ := List.mem_flatMap.1 hq
  obtain ⟨l, hl, rfl⟩ := List.mem_map.1 hq
  rw [List.mem_range] at hc hr hp hl
  exact ⟨hl, hc, by show r ≤ (T.comp c).NL; omega, hp⟩

/-- Packets as layers of precincts. -/
theorem sum_allPkts {C : Coding} (h : C.T.Ok) {f : Pkt → Nat} (hf : ∀ q l, f { q with l := l } = f q) :
    ((allPkts C.T).map f).sum = C.T.layers * ((precinctsOf C).map f).sum := by
  unfold allPkts precinctsOf
  rw [sum_map_flatMap, sum_map_flatMap, Nat.mul_comm, ← sum_map_mul]
  congr 1
  refine List.map_congr_left fun c hc => ?_
  rw [sum_map_flatMap, sum_map_flatMap, List.map_reverse, List.sum_reverse, ← sum_map_mul]
  congr 1
  refine List.map_congr_left fun r hr => ?_
  rw [sum_map_flatMap, List.map_map, np_eq h (List.mem_range.1 hc) (by have := List.mem_range.1 hr; omega), ← sum_map_mul]
  congr 1
  refine List.map_congr_left fun p _ => ?_
  have e : ∀ l ∈ List.range C.T.layers, (f ∘ fun l => (⟨l, r, c, p⟩ : Pkt)) l = (fun _ => f ⟨0, r, c, p⟩) l := by
    intro l _
    exact hf ⟨0, r, c, p⟩ l
  rw [List.map_map, List.map_congr_left e, List.map_const', List.sum_replicate, List.length_range, smul_eq_mul, Nat.mul_comm]
  rfl

/-- The length of a coded block is that of its bytes. -/
theorem codedBlock_length {mb w h : Nat} {f : Nat → Nat → Int} {k : CodedBlock} (e : codedBlock mb w h f = some k) :
    k.info.length = k.data.length := by
  unfold codedBlock at e
  rw [Option.map_eq_some_iff] at e
  obtain ⟨d, -, rfl⟩ := e
  rfl

theorem codedBand_length {C : Coding} {img : Nat → List (List Int)} {q : Pkt} {b : Nat} {cb : CodedBand}
    (e : codedBand C img q b = some cb) : ∀ k ∈ cb.blocks, k.info.length = k.data.length := by
  unfold codedBand at e
  simp only [Option.bind_eq_bind, Option.bind_eq_some_iff] at e
  obtain ⟨rows, -, mb, -, blocks, hb, e⟩ := e
  cases e
  intro k hk
  obtain ⟨a, -, ha⟩ := mapM_mem hb hk
  exact codedBlock_length ha

/-- The bytes of the code-blocks of a precinct. -/
theorem bodyOf_length {bands : List CodedBand} (h : ∀ b ∈ bands, ∀ k ∈ b.blocks, k.info.length = k.data.length) :
    (bodyOf bands).length = (bands.flatMap fun b => b.blocks.map fun k => k.info.length).sum := by
  unfold bodyOf
  induction bands with
  | nil => rfl
  | cons b bands ih =>
    rw [List.flatMap_cons, List.flatMap_cons, List.length_append, List.sum_append, ih fun b hb => h b (by simp [hb])]
    congr 1
    have hb := h b (by simp)
    generalize b.blocks = l at hb
    induction l with
    | nil => rfl
    | cons k l ih' =>
      rw [List.flatMap_cons, List.length_append, ih' fun k hk => hb k (by simp [hk]), List.map_cons, List.sum_cons]
      congr 1
      split
      · rw [List.length_take, hb k (by simp), Nat.min_self]
      · rw [List.length_nil]; omega

theorem flush_pos (w : Packet.Writer) (eph : Bool) : 0 < (w.flush eph).length := by
  unfold Packet.Writer.flush
  simp only [List.length_append, List.length_cons]
  omega

/-- A precinct as written, without SOP. -/
def precinctBytes (C : Coding) (bands : List CodedBand) : Nat := (precinctHeader C bands).length + (bodyOf bands).length

theorem writePrecincts_length (C : Coding) : ∀ (ps : List (List CodedBand)) (seq : Nat),
    (writePrecincts C seq ps).length = (ps.map (precinctBytes C)).sum + ps.length * (6 * C.sop.toNat) := by
  intro ps
  induction ps with
  | nil => intro seq; simp [writePrecincts]
  | cons p ps ih =>
    intro seq
    have e : (sopOf C.sop seq).length = 6 * C.sop.toNat := by
      unfold sopOf; cases C.sop <;> rfl
    rw [writePrecincts, List.length_append, List.length_append, List.length_append, e, ih, List.map_cons, List.sum_cons,
      List.length_cons, Nat.add_mul, Nat.one_mul]
    unfold precinctBytes
    omega

theorem precinctLength_eq {C : Coding} {bands : List CodedBand} (h : ∀ b ∈ bands, ∀ k ∈ b.blocks, k.info.length = k.data.length) :
    precinctLength C bands = w32 (precinctBytes C bands) := by
  unfold precinctLength precinctBytes
  rw [wsum_eq, ← bodyOf_length h, Nat.add_comm (precinctHeader C bands).length]
  unfold w32; omega

theorem mapM_sum {α β : Type} {f : α → Option β} {g : β → Nat} {h : α → Nat} (hh : ∀ a b, f a = some b → g b = h a) :
    ∀ {l : List α} {bs : List β}, l.mapM f = some bs → (bs.map g).sum = (l.map h).sum := by
  intro l
  induction l with
  | nil => intro bs e; cases e; rfl
  | cons a l ih =>
    intro bs e
    rw [List.mapM_cons] at e
    simp only [Option.bind_eq_bind, Option.bind_eq_some_iff] at e
    obtain ⟨b, hb, bs', hbs, e⟩ := e
    cases e
    rw [List.map_cons, List.sum_cons, List.map_cons, List.sum_cons, ih hbs, hh a b hb]

theorem w32_sum_map {α : Type} (f : α → Nat) (l : List α) : w32 (l.map fun a => w32 (f a)).sum = w32 (l.map f).sum := by
  induction l with
  | nil => rfl
  | cons a l ih =>
    rw [List.map_cons, List.sum_cons, List.map_cons, List.sum_cons]
    unfold w32 at *
    omega

/-! ## The property -/

/-- **C71**, any number of layers: `S` bytes for the precincts, each at least one.  The encoder announces `S`, SOP for every packet,
and the 14 bytes of SOT and SOD; it writes `S` for every layer. -/
theorem C71_length (C : Coding) (h : C.T.Ok) (hpoc : ∀ S ∈ C.poc, S.PO ≤ 5) (hpo : C.po ≤ 5) (hL : 1 ≤ C.T.layers)
    (img : Nat → List (List Int)) {bytes : List Nat} (hw : writtenTile C img = some bytes) :
    ∃ S, C.T.total ≤ C.T.layers * S ∧
      announcedSize C img = some (w32 (S + 6 * C.T.total * C.sop.toNat + 14)) ∧
      bytes.length = C.T.layers * S + 6 * C.T.total * C.sop.toNat := by
  obtain ⟨out, ht, hnd, hlen, hmem⟩ := C26_exactly_once h hpoc hpo
  unfold writtenTile at hw
  rw [ht] at hw
  simp only [Except.toOption, Option.bind_eq_bind, Option.bind_some, Option.bind_eq_some_iff] at hw
  obtain ⟨coded, hc, hw⟩ := hw
  cases hw
  have hperm : out.Perm (allPkts C.T) := by
    rw [List.perm_ext_iff_of_nodup hnd (nodup_allPkts C.T)]
    intro q
    rw [hmem]
    exact ⟨mem_allPkts, valid_of_mem_allPkts⟩
  let f : Pkt → Nat := fun q => match precinctBands C img q with
    | some bs => precinctBytes C bs
    | none => 0
  have hf : ∀ q l, f { q with l := l } = f q := fun q l => rfl
  have hsum : (coded.map (precinctBytes C)).sum = (out.map f).sum :=
    mapM_sum (fun a b e => by show _ = f a; simp only [f, e]) hc
  have hS : (out.map f).sum = C.T.layers * ((precinctsOf C).map f).sum := by
    rw [(hperm.map f).sum_eq, sum_allPkts h hf]
  have hbytes : ∀ q bs, precinctBands C img q = some bs → ∀ b ∈ bs, ∀ k ∈ b.blocks, k.info.length = k.data.length := by
    intro q bs e b hb
    obtain ⟨a, -, ha⟩ := mapM_mem e hb
    exact codedBand_length ha
  refine ⟨((precinctsOf C).map f).sum, ?_, ?_, ?_⟩
  · rw [← hS, ← hlen]
    have : ∀ q ∈ out, 1 ≤ f q := by
      intro q hq
      obtain ⟨k, hk, rfl⟩ := List.mem_iff_getElem.1 hq
      obtain ⟨bs, -, hb⟩ := mapM_get hc (List.getElem?_eq_getElem hk)
      simp only [f, hb]
      unfold precinctBytes
      have : 0 < (precinctHeader C bs).length := flush_pos _ _
      omega
    clear hS hsum hperm hmem hlen hnd hc ht
    induction out with
    | nil => simp
    | cons q out ih =>
      rw [List.map_cons, List.sum_cons, List.length_cons]
      have := ih fun q hq => this q (by simp [hq])
      have := ‹∀ a ∈ q :: out, 1 ≤ f a› q (by simp)
      omega
  · have hm : ∀ q ∈ precinctsOf C, ∃ bs, precinctBands C img q = some bs := by
      intro q hq
      unfold precinctsOf at hq
      obtain ⟨c, hcc, hq⟩ := List.mem_flatMap.1 hq
      obtain ⟨r, hr, hq⟩ := List.mem_flatMap.1 hq
      obtain ⟨p, hp, rfl⟩ := List.mem_map.1 hq
      rw [List.mem_reverse] at hr
      rw [np_eq h (List.mem_range.1 hcc) (by have := List.mem_range.1 hr; omega)] at hp
      rw [List.mem_range] at hcc hr hp
      have hv : C.T.Valid ⟨0, r, c, p⟩ := ⟨hL, hcc, by show r ≤ (C.T.comp c).NL; omega, hp⟩
      obtain ⟨k, hk, e⟩ := List.mem_iff_getElem.1 ((hmem _).2 hv)
      obtain ⟨bs, -, hb⟩ := mapM_get hc (List.getElem?_eq_getElem hk)
      rw [e] at hb
      exact ⟨bs, hb⟩
    have hlens : (precinctsOf C).mapM (fun q => (precinctBands C img q).map (precinctLength C)) =
        some ((precinctsOf C).map fun q => w32 (f q)) := by
      refine mapM_map' fun q hq => ?_
      obtain ⟨bs, hb⟩ := hm q hq
      rw [hb, Option.map_some, precinctLength_eq (hbytes q bs hb)]
      simp only [f, hb]
    unfold announcedSize
    simp only [hlens, Option.bind_eq_bind, Option.bind_some, wsum_eq, numPackets_eq h, w32_sum_map]
    congr 1
    generalize ((precinctsOf C).map f).sum = S
    unfold w32
    omega
  · rw [writePrecincts_length, hsum, hS, mapM_length hc, hlen]
    ring

/-- With one layer, what is written is what `encodeTile` gives. -/
theorem C71_one_layer (C : Coding) (hL : C.T.layers = 1) (img : Nat → List (List Int)) : writtenTile C img = encodeTile C img := by
  have e : ∀ (ps : List (List CodedBand)) (seq : Nat), writePrecincts C seq ps = writePackets C.sop C.eph seq ps := by
    intro ps
    induction ps with
    | nil => intro seq; rfl
    | cons p ps ih =>
      intro seq
      rw [writePrecincts, writePackets, ih, writePacket, precinctHeader, encPacket, List.flatMap_map]
      simp only [hL, Nat.le_refl, if_true]
  unfold writtenTile encodeTile
  simp only [e]
  rfl

/-- **C71**.  The length of a tile-part that the encoder announces is the number of bytes it writes. -/
theorem C71_announced (C : Coding) (h : C.Legal) (img : Nat → List (List Int)) {bytes : List Nat}
    (hw : encodeTile C img = some bytes) (hlt : bytes.length + 14 < 2 ^ 32) : announcedSize C img = some (bytes.length + 14) := by
  rw [← C71_one_layer C h.layers] at hw
  obtain ⟨S, -, h1, h2⟩ := C71_length C h.tile h.poc h.po (by rw [h.layers]) img hw
  rw [h.layers, Nat.one_mul] at h2
  rw [h1, ← h2, w32_eq hlt]

/-- **C71**, what the code does not give.  With several layers the encoder writes more than it announces, in SOT and for the size of
the output buffer. -/
theorem C71_more_layers_overrun (C : Coding) (h : C.T.Ok) (hpoc : ∀ S ∈ C.poc, S.PO ≤ 5) (hpo : C.po ≤ 5) (hL : 2 ≤ C.T.layers)
    (h0 : 0 < C.T.total) (img : Nat → List (List Int)) {bytes : List Nat} (hw : writtenTile C img = some bytes)
    (hlt : bytes.length + 14 < 2 ^ 32) : ∃ a, announcedSize C img = some a ∧ a < bytes.length + 14 := by
  obtain ⟨S, h3, h1, h2⟩ := C71_length C h hpoc hpo (by omega) img hw
  refine ⟨_, h1, ?_⟩
  have hS : 0 < S := Nat.pos_of_ne_zero fun e => by rw [e] at h3; omega
  have : 2 * S ≤ C.T.layers * S := Nat.mul_le_mul_right _ hL
  generalize C.T.layers * S = X at *
  generalize 6 * C.T.total * C.sop.toNat = Y at *
  rw [w32_eq (by omega)]
  omega

theorem mapM_map_some {α β γ : Type} {f : α → Option β} {g : α → Option γ} {k : β → γ} : ∀ {l : List α} {bs : List β},
    l.mapM f = some bs → (∀ a ∈ l, ∀ b, f a = some b → b ∈ bs → g a = some (k b)) → l.mapM g = some (bs.map k) := by
  intro l bs h hg
  refine mapM_of_get (by rw [List.length_map, mapM_length h]) fun i c hc => ?_
  rw [List.getElem?_map, Option.map_eq_some_iff] at hc
  obtain ⟨b, hb, rfl⟩ := hc
  have hi : i < l.length := by rw [← mapM_length h]; exact (List.getElem?_eq_some_iff.1 hb).1
  obtain ⟨b', hb', e⟩ := mapM_get h (List.getElem?_eq_getElem hi)
  rw [hb, Option.some.injEq] at hb'
  subst hb'
  exact ⟨l[i], List.getElem?_eq_getElem hi, hg _ (List.getElem_mem hi) b e (List.mem_of_getElem? hb)⟩

theorem writeTiles_length : ∀ (bs : List (List UInt8)) (i : Nat),
    (Cs.writeTiles i bs).length = (bs.map fun b => b.length + 14).sum := by
  intro bs
  induction bs with
  | nil => intro i; rfl
  | cons b bs ih =>
    intro i
    rw [Cs.writeTiles, List.length_append, ih, List.map_cons, List.sum_cons]
    congr 1

/-- **C71**, the codestream of a picture.  The sizes in TLM and SOT are those of the tile-parts, and the output buffer, allotted from
them, is filled exactly. -/
theorem C71_buffer_exact (P : Picture) (h : P.Legal) (img : Nat → List Int) {bodies : List (List Nat)}
    (hb : encodePicture P img = some bodies) (hlt : ∀ b ∈ bodies, b.length + 14 < 2 ^ 32) (hdr : List UInt8) :
    pictureSizes P img = some (bodies.map fun b => b.length + 14) ∧
      (Cs.writeContainer hdr (bodies.map fun b => b.map UInt8.ofNat)).length =
        codestreamSize (2 + hdr.length) (bodies.map fun b => b.length + 14) := by
  constructor
  · unfold encodePicture at hb
    split at hb
    · simp at hb
    · refine mapM_map_some hb fun t ht b e hbm => ?_
      simp only [Option.bind_eq_bind, Option.bind_eq_some_iff] at e ⊢
      obtain ⟨s, hs, e⟩ := e
      refine ⟨s, hs, C71_announced _ (h.tile t ?_) _ e (hlt b hbm)⟩
      rw [← h.tiles]; exact List.mem_range.1 ht
  · rw [Cs.writeContainer, List.length_append, List.length_append, List.length_append, writeTiles_length, List.map_map, codestreamSize]
    have e : ((fun b : List UInt8 => b.length + 14) ∘ fun b : List Nat => b.map UInt8.ofNat) = fun b => b.length + 14 := by
      funext b; simp
    rw [e]
    rfl

/-- A tile of two components with precincts, SOP and EPH. -/
example : exCoding.Legal ∧ ∃ bytes, encodeTile exCoding exImg = some bytes ∧ bytes.length + 14 < 2 ^ 32 := by
  refine ⟨exCoding_legal, ?_⟩
  have : ((encodeTile exCoding exImg).map fun b => decide (b.length + 14 < 2 ^ 32)) = some true := by decide +kernel
  obtain ⟨b, h1, h2⟩ := Option.map_eq_some_iff.1 this
  exact ⟨b, h1, of_decide_eq_true h2⟩

/-- The same with two layers. -/
def exLayers : Coding := { exCoding with T := { exCoding.T with layers := 2 } }

example : exLayers.T.Ok ∧ 0 < exLayers.T.total ∧ ∃ bytes, writtenTile exLayers exImg = some bytes ∧ bytes.length + 14 < 2 ^ 32 := by
  refine ⟨⟨by decide, by decide, by decide, by decide, by decide, by decide, by decide, by decide, by decide +kernel⟩,
    by decide +kernel, ?_⟩
  have : ((writtenTile exLayers exImg).map fun b => decide (b.length + 14 < 2 ^ 32)) = some true := by decide +kernel
  obtain ⟨b, h1, h2⟩ := Option.map_eq_some_iff.1 this
  exact ⟨b, h1, of_decide_eq_true h2⟩

end Verif.Tile.Pipe
