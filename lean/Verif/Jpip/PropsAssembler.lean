import Verif.Jpip.Assembler
import Verif.Jpip.PropsWalker
import Verif.Jpip.PropsIndex
import Verif.Jpip.ViewLemmas
/-
C41, C46: a codestream put together from data-bins is well framed and holds exactly the bins, with empty packets for
precincts that are absent; with all bins of a codestream it is that codestream.
-/
namespace Verif.Jpip

/-! ### Specification -/

/-- One tile-part as the standard frames it, with the whole tile in one part (TPsot 0, TNsot 1); Psot counts from the
SOT marker to the end of the packet data. -/
def wirePart (t : Nat) (hdr body : List UInt8) : List UInt8 :=
  be16 mSOT ++ be16 10 ++ be16 t ++ be32 (hdr.length + body.length + 14) ++ [0, 1] ++ hdr ++ be16 mSOD ++ body

/-- The bytes of a precinct: its bin if there is one, else one empty packet (a zero byte) for each layer. -/
def precinctSpec (set : DataBinSet) (i : Index) (layers : Nat) (k : Key) : List UInt8 :=
  match i.I k with
  | none => []
  | some id =>
    match set.bins kMsgClassPrecinct id with
    | some e => e.bytes
    | none => List.replicate layers 0

/-- The bytes of a tile's precincts in the given order. -/
def tileSpec (set : DataBinSet) (i : Index) (order : List Key) : List UInt8 := order.flatMap (precinctSpec set i i.hdr.layers)

/-- A codestream from a main header, and for each tile a header and packet data. -/
def framed (main : List UInt8) (nT : Nat) (hdr body : Nat → List UInt8) : List UInt8 :=
  main ++ (List.range nT).flatMap (fun t => wirePart t (hdr t) (body t)) ++ be16 mEOC

/-- The declared length of a tile-part is its actual length. -/
theorem wirePart_length (t : Nat) (hdr body : List UInt8) : (wirePart t hdr body).length = hdr.length + body.length + 14 := by
  simp [wirePart, be16_length, be32_length]; omega

theorem putU16_eq (v : Nat) : putU16 v = be16 v := by
  rw [putU16, be16, Nat.shiftRight_eq_div_pow, show (0xFF : Nat) = 2 ^ 8 - 1 from rfl, Nat.and_two_pow_sub_one_eq_mod]

theorem putU32_eq (v : Nat) (h : v < 2 ^ 32) : putU32 v = be32 v := by
  have e1 : v / 2 ^ 24 % 2 ^ 8 = v / 65536 / 256 := by omega
  have e2 : v / 2 ^ 16 % 2 ^ 8 = v / 65536 % 256 := by omega
  have e3 : v / 2 ^ 8 % 2 ^ 8 = v % 65536 / 256 := by omega
  have e4 : v % 2 ^ 8 = v % 65536 % 256 := by omega
  unfold putU32 be32 be16
  rw [show (0xFF : Nat) = 2 ^ 8 - 1 from rfl]
  simp only [Nat.and_two_pow_sub_one_eq_mod, Nat.shiftRight_eq_div_pow, List.cons_append, List.nil_append, e1, e2, e3, e4]

theorem tilePartOut_eq (t : Nat) (hdr body : List UInt8) (ht : t < 65536) :
    tilePartOut t hdr body = if hdr.length + body.length + 14 < 2 ^ 32 then some (wirePart t hdr body) else none := by
  unfold tilePartOut
  by_cases h : hdr.length + body.length + 14 < 2 ^ 32
  · rw [if_pos h]
    simp only
    rw [if_neg (by omega), putU16_eq, putU16_eq, putU16_eq, putU16_eq, putU32_eq _ (by omega), Nat.mod_eq_of_lt (by omega)]
    rw [show 12 + hdr.length + 2 + body.length = hdr.length + body.length + 14 by omega]
    simp [wirePart]
  · rw [if_neg h]
    simp only
    rw [if_pos (by omega)]

theorem precinctOut_eq (set : DataBinSet) (i : Index) (k : Key) (h : (i.I k).isSome) :
    precinctOut set i k = some (precinctSpec set i i.hdr.layers k) := by
  obtain ⟨id, hid⟩ := Option.isSome_iff_exists.1 h
  unfold precinctOut precinctSpec DataBinSet.contains DataBinSet.get
  rw [hid]
  cases hb : set.bins kMsgClassPrecinct id with
  | none => simp [hb]
  | some e => simp [hb]

theorem concatM_iff {α β : Type} (l : List α) (f : α → Option (List β)) (g : α → List β)
    (hf : ∀ a ∈ l, f a = none ∨ f a = some (g a)) (r : List β) :
    concatM l f = some r ↔ (∀ a ∈ l, (f a).isSome) ∧ r = l.flatMap g := by
  unfold concatM
  induction l generalizing r with
  | nil =>
    rw [List.mapM_nil]
    constructor
    · intro h
      cases h
      exact ⟨by simp, rfl⟩
    · rintro ⟨-, rfl⟩
      rfl
  | cons a l ih =>
    have ih := ih fun x hx => hf x (List.mem_cons_of_mem _ hx)
    rw [List.mapM_cons]
    rcases hf a (by simp) with h | h
    · simp [h]
    · simp only [Option.map_eq_some_iff] at ih
      simp only [h, Option.bind_eq_bind, Option.bind_some, Option.pure_def, Option.map_eq_some_iff, Option.bind_eq_some_iff,
        Option.some.injEq, List.mem_cons, forall_eq_or_imp, Option.isSome_some, true_and, List.flatMap_cons]
      constructor
      · rintro ⟨x, ⟨y, hy, rfl⟩, rfl⟩
        obtain ⟨h1, h2⟩ := (ih y.flatten).1 ⟨y, hy, rfl⟩
        exact ⟨h1, by rw [List.flatten_cons, h2]⟩
      · rintro ⟨h1, rfl⟩
        obtain ⟨y, hy, hy2⟩ := (ih _).2 ⟨h1, rfl⟩
        exact ⟨g a :: y, ⟨y, hy, rfl⟩, by rw [List.flatten_cons, hy2]⟩

/-! ### The server-side path -/

/-- When reassembly can succeed: an order in which the packets of a precinct are contiguous, no packet markers, a main
header, and for each tile a header, known precincts and a length that fits in Psot. -/
structure Servable (set : DataBinSet) (i : Index) (order : Nat → List Key) : Prop where
  prog : i.hdr.prog = 2 ∨ i.hdr.prog = 3 ∨ i.hdr.prog = 4 ∨ i.hdr.prog = 5
  noMarkers : i.hdr.useSOP = false ∧ i.hdr.useEPH = false
  main : set.contains kMsgClassMainHeader 0 = true
  tiles : ∀ t, t < i.nT → (∀ k ∈ order t, (i.I k).isSome) ∧ set.contains kMsgClassTileHeader t = true ∧
    (set.get kMsgClassTileHeader t).length + (tileSpec set i (order t)).length + 14 < 2 ^ 32

theorem serverTiles_iff (set : DataBinSet) (i : Index) (order : Nat → List Key) (ts : List Nat) (hts : ∀ t ∈ ts, t < 65536)
    (pre out : List UInt8) :
    serverTiles set i order ts pre = some (out, .ok) ↔
      (∀ t ∈ ts, (∀ k ∈ order t, (i.I k).isSome) ∧ set.contains kMsgClassTileHeader t = true ∧
        (set.get kMsgClassTileHeader t).length + (tileSpec set i (order t)).length + 14 < 2 ^ 32) ∧
      out = pre ++ ts.flatMap (fun t => wirePart t (set.get kMsgClassTileHeader t) (tileSpec set i (order t))) ++ be16 mEOC := by
  induction ts generalizing pre with
  | nil =>
    rw [serverTiles, putU16_eq]
    constructor
    · intro h
      cases h
      exact ⟨by simp, by simp⟩
    · rintro ⟨-, rfl⟩
      simp
  | cons t ts ih =>
    have ih := fun pre => ih (fun x hx => hts x (List.mem_cons_of_mem _ hx)) pre
    have ht := hts t (by simp)
    rw [serverTiles, Nat.mod_eq_of_lt (by omega)]
    have hc := concatM_iff (order t) (precinctOut set i) (precinctSpec set i i.hdr.layers) (by
      intro k _
      cases hk : i.I k with
      | none => left; simp [precinctOut, hk]
      | some id => right; exact precinctOut_eq set i k (by simp [hk]))
    have hsome : (∀ a ∈ order t, (precinctOut set i a).isSome) ↔ ∀ k ∈ order t, (i.I k).isSome := by
      refine forall₂_congr fun k _ => ?_
      cases hk : i.I k with
      | none => simp [precinctOut, hk]
      | some id => simp [precinctOut, hk]
    simp only [hsome] at hc
    simp only [List.mem_cons, forall_eq_or_imp, List.flatMap_cons]
    by_cases hk : ∀ k ∈ order t, (i.I k).isSome
    · have e : concatM (order t) (precinctOut set i) = some (tileSpec set i (order t)) := (hc _).2 ⟨hk, rfl⟩
      rw [e]
      simp only [Option.bind_eq_bind, Option.bind_some]
      by_cases hh : set.contains kMsgClassTileHeader t = false
      · rw [if_pos hh]
        simp [hh]
      · rw [if_neg hh, tilePartOut_eq _ _ _ ht]
        by_cases hl : (set.get kMsgClassTileHeader t).length + (tileSpec set i (order t)).length + 14 < 2 ^ 32
        · rw [if_pos hl]
          simp only
          rw [ih, and_iff_right (⟨hk, by simpa using hh, hl⟩ : _ ∧ _ ∧ _)]
          simp
        · rw [if_neg hl]
          simp only [Option.some.injEq, Prod.mk.injEq, reduceCtorEq, and_false, false_iff]
          rintro ⟨⟨⟨-, -, h⟩, -⟩, -⟩
          exact hl h
    · have e : concatM (order t) (precinctOut set i) = none := by
        cases h : concatM (order t) (precinctOut set i) with
        | none => rfl
        | some r => exact absurd ((hc r).1 h).1 hk
      rw [e]
      simp only [Option.bind_eq_bind, Option.bind_none, reduceCtorEq, false_iff]
      rintro ⟨⟨⟨h, -⟩, -⟩, -⟩
      exact hk h

/-- C41: server-side reassembly succeeds exactly when it can, and then the output is the main header bin, one tile-part
per tile in order, whose declared length is its actual length, with the tile header bin and, for each precinct in the
locator's order, the bin or empty packets; and EOC. -/
theorem C41_server_frame (set : DataBinSet) (i : Index) (order : Nat → List Key) (hT : i.nT ≤ 65535) (out : List UInt8) :
    reassembleServer set i order [] = some (out, .ok) ↔
      Servable set i order ∧ out = framed (set.get kMsgClassMainHeader 0) i.nT (set.get kMsgClassTileHeader)
        (fun t => tileSpec set i (order t)) := by
  have key := serverTiles_iff set i order (List.range i.nT) (fun t ht => by rw [List.mem_range] at ht; omega)
    ([] ++ set.get kMsgClassMainHeader 0) out
  simp only [List.mem_range, List.nil_append] at key
  unfold reassembleServer
  constructor
  · intro h
    split_ifs at h with h1 h2 h3 h4 <;> try simp only [Option.some.injEq, Prod.mk.injEq, reduceCtorEq, and_false] at h
    rw [List.nil_append] at h
    obtain ⟨k1, k2⟩ := key.1 h
    refine ⟨⟨by omega, ?_, by simpa using h4, k1⟩, by rw [k2, framed]⟩
    simpa using h3
  · rintro ⟨⟨h1, h2, h3, h4⟩, rfl⟩
    rw [if_neg (by omega), if_neg (by omega), if_neg (by simp [h2.1, h2.2]), if_neg (by simp [h3])]
    rw [List.nil_append]
    exact key.2 ⟨h4, by rw [framed]⟩

/-! ### The framed codestream is read back -/

/-- C41: when the main header bin and the tile header bins are made of marker segments, the walker finds in a framed
codestream the main header, for each tile one tile-part with its header and packet data, and the end marker. -/
theorem C41_framed_walks_back (main : List Seg) (nT : Nat) (hdr : Nat → List Seg) (body : Nat → List UInt8)
    (h0 : 0 < nT) (hT : nT ≤ 65535) (hm : ∀ s ∈ main, s.Wf) (hh : ∀ t < nT, ∀ s ∈ hdr t, s.Wf)
    (hl : ∀ t < nT, ((hdr t).flatMap Seg.bytes).length + (body t).length + 14 < 2 ^ 32) :
    let d := framed (be16 mSOC ++ main.flatMap Seg.bytes) nT (fun t => (hdr t).flatMap Seg.bytes) body
    ∃ lay, walk d = some (some lay) ∧ slice d lay.soc lay.mainEnd = be16 mSOC ++ main.flatMap Seg.bytes ∧
      lay.parts.map (·.view d) = (List.range nT).map (fun t => (t, 0, 1, (hdr t).flatMap Seg.bytes, body t)) ∧
      slice d lay.eoc d.length = be16 mEOC := by
  intro d
  have hd : d = (Stream.mk main ((List.range nT).map fun t => ⟨t, 0, 1, hdr t, body t⟩)).bytes := by
    simp only [d, framed, Stream.bytes, Stream.mainBytes, List.flatMap_map]
    rfl
  obtain ⟨lay, h1, h2, h3, h4⟩ := C38_walk_recovers ⟨main, (List.range nT).map fun t => ⟨t, 0, 1, hdr t, body t⟩⟩ (by
    refine ⟨hm, by simp; omega, ?_⟩
    intro p hp
    simp only [List.mem_map, List.mem_range] at hp
    obtain ⟨t, ht, rfl⟩ := hp
    exact ⟨by simp only; omega, by simp, by simp, hh t ht, hl t ht⟩)
  rw [← hd] at h1 h2 h3 h4
  refine ⟨lay, h1, h2, ?_, h4⟩
  rw [h3]
  simp only [List.map_map]
  rfl

/-! ### All bins of a codestream give the codestream back -/

/-- The bins of a codestream with one tile-part per tile, as the emitter reads them through the walker's layout and the
packet locator's ranges. -/
structure HoldsAll (set : DataBinSet) (i : Index) (d : List UInt8) (lay : Layout) (order : Nat → List Key)
    (packets : Key → List (Nat × Nat)) : Prop where
  main : ∃ e, set.bins kMsgClassMainHeader 0 = some e ∧ mainHeaderPayload d lay = some e.bytes
  tiles : ∀ t < i.nT, ∃ e, set.bins kMsgClassTileHeader t = some e ∧ tileHeaderPayload d lay t = some e.bytes
  precincts : ∀ t < i.nT, ∀ k ∈ order t, ∃ id e, i.I k = some id ∧ set.bins kMsgClassPrecinct id = some e ∧
    precinctPayload d (packets k) = some e.bytes

/-- The locator lists the packets of a tile in codestream order and misses none. -/
def Located (d : List UInt8) (lay : Layout) (nT : Nat) (order : Nat → List Key) (packets : Key → List (Nat × Nat)) : Prop :=
  ∀ t < nT, ((order t).flatMap packets).flatMap (fun r => slice d r.1 (r.1 + r.2)) = tileData d t lay.parts

theorem locs_of (ps : List Part) (o t : Nat) (d : List UInt8) (g : TilePartLoc → List UInt8) :
    ((locs ps o).filter (·.tile = t)).flatMap g = (locs ps o).flatMap fun tp => if tp.tile = t then g tp else [] := by
  induction (locs ps o) with
  | nil => rfl
  | cons a l ih =>
    by_cases h : a.tile = t <;> simp [h, ih]

theorem view_pick (ps : List Part) (tps : List TilePartLoc) (d : List UInt8) (t : Nat)
    (hv : tps.map (·.view d) = ps.map fun p => (p.tile, p.idx, p.cnt, p.hdrBytes, p.body)) :
    (tps.flatMap fun tp => if tp.tile = t then slice d (tp.sot + 12) tp.headerEnd else []) =
      (ps.flatMap fun p => if p.tile = t then p.hdrBytes else []) ∧
    (tps.flatMap fun tp => if tp.tile = t then slice d tp.bodyOff tp.bodyEnd else []) =
      (ps.flatMap fun p => if p.tile = t then p.body else []) := by
  induction tps generalizing ps with
  | nil =>
    cases ps with
    | nil => simp
    | cons p ps => simp at hv
  | cons tp tps ih =>
    cases ps with
    | nil => simp at hv
    | cons p ps =>
      simp only [List.map_cons, List.cons.injEq, TilePartLoc.view, Prod.mk.injEq] at hv
      obtain ⟨⟨h1, -, -, h2, h3⟩, h4⟩ := hv
      obtain ⟨i1, i2⟩ := ih ps h4
      simp only [List.flatMap_cons, h1, h2, h3, i1, i2, and_self]

theorem range_pick (n t : Nat) (f : Nat → List UInt8) (ht : t < n) :
    ((List.range n).flatMap fun x => if x = t then f x else []) = f t := by
  induction n with
  | zero => omega
  | succ n ih =>
    rw [List.range_succ, List.flatMap_append]
    by_cases h : t = n
    · subst h
      have : ((List.range t).flatMap fun x => if x = t then f x else []) = [] := by
        rw [List.flatMap_eq_nil_iff]
        intro x hx
        rw [List.mem_range] at hx
        rw [if_neg (by omega)]
      simp [this]
    · rw [ih (by omega)]
      simp [Ne.symm h]

/-- C46: if a well-formed codestream has one tile-part per tile, its packets are where the locator says, and the bins in
the set are what the emitter sends for it, then reassembly returns the codestream, byte for byte. -/
theorem C46_reassembly_is_identity (main : List Seg) (i : Index) (hdr : Nat → List Seg) (body : Nat → List UInt8)
    (h0 : 0 < i.nT) (hT : i.nT ≤ 65535) (hm : ∀ s ∈ main, s.Wf) (hh : ∀ t < i.nT, ∀ s ∈ hdr t, s.Wf)
    (hl : ∀ t < i.nT, ((hdr t).flatMap Seg.bytes).length + (body t).length + 14 < 2 ^ 32)
    (hprog : i.hdr.prog = 2 ∨ i.hdr.prog = 3 ∨ i.hdr.prog = 4 ∨ i.hdr.prog = 5)
    (hmk : i.hdr.useSOP = false ∧ i.hdr.useEPH = false)
    (d : List UInt8) (hd : d = framed (be16 mSOC ++ main.flatMap Seg.bytes) i.nT (fun t => (hdr t).flatMap Seg.bytes) body)
    (lay : Layout) (hw : walk d = some (some lay)) (order : Nat → List Key) (packets : Key → List (Nat × Nat))
    (hloc : Located d lay i.nT order packets) (set : DataBinSet) (hset : HoldsAll set i d lay order packets) :
    reassembleServer set i order [] = some (d, .ok) := by
  obtain ⟨lay', w1, w2, w3, w4⟩ := C41_framed_walks_back main i.nT hdr body h0 hT hm hh hl
  rw [← hd] at w1 w2 w3 w4
  rw [hw] at w1
  cases w1
  obtain ⟨r, e, hr⟩ := C38_walk_safe d
  rw [hw] at e
  cases e
  have hin := hr lay rfl
  have hv : lay.parts.map (·.view d) =
      ((List.range i.nT).map fun t => (⟨t, 0, 1, hdr t, body t⟩ : Part)).map fun p => (p.tile, p.idx, p.cnt, p.hdrBytes, p.body) := by
    rw [w3, List.map_map]; rfl
  have pick := fun t => view_pick _ _ d t hv
  simp only [List.flatMap_map] at pick
  -- main header bin
  have gm : set.contains kMsgClassMainHeader 0 = true ∧ set.get kMsgClassMainHeader 0 = be16 mSOC ++ main.flatMap Seg.bytes := by
    obtain ⟨e, he, hp⟩ := hset.main
    unfold mainHeaderPayload at hp
    split_ifs at hp
    rw [w2, Option.some.injEq] at hp
    exact ⟨by simp [DataBinSet.contains, he], by simp only [DataBinSet.get, he, hp]⟩
  -- tile header bins
  have gt : ∀ t < i.nT, set.contains kMsgClassTileHeader t = true ∧ set.get kMsgClassTileHeader t = (hdr t).flatMap Seg.bytes := by
    intro t ht
    obtain ⟨e, he, hp⟩ := hset.tiles t ht
    have hb : ∀ tps : List TilePartLoc, (∀ tp ∈ tps, tp.Inside d.length) → tileHeaderBytes d t tps =
        tps.flatMap fun tp => if tp.tile = t then slice d (tp.sot + 12) tp.headerEnd else [] := by
      intro tps htps
      induction tps with
      | nil => rfl
      | cons tp tps ih =>
        obtain ⟨a1, a2, a3, a4, a5⟩ := htps tp (by simp)
        rw [tileHeaderBytes, ih fun x hx => htps x (List.mem_cons_of_mem _ hx), List.flatMap_cons]
        congr 1
        by_cases hx : tp.tile = t
        · rw [if_neg (by simpa using hx), if_neg (by omega), if_pos hx]
        · rw [if_pos hx, if_neg hx]
    unfold tileHeaderPayload at hp
    split_ifs at hp
    rw [hb _ hin.parts, (pick t).1] at hp
    simp only [Part.hdrBytes] at hp
    rw [range_pick i.nT t _ ht, Option.some.injEq] at hp
    exact ⟨by simp [DataBinSet.contains, he], by simp only [DataBinSet.get, he, hp]⟩
  -- precinct bins
  have gp : ∀ t < i.nT, (∀ k ∈ order t, (i.I k).isSome) ∧ tileSpec set i (order t) = body t := by
    intro t ht
    refine ⟨fun k hk => ?_, ?_⟩
    · obtain ⟨id, e, h1, -⟩ := hset.precincts t ht k hk
      simp [h1]
    · have h1 : tileSpec set i (order t) = ((order t).flatMap packets).flatMap (fun r => slice d r.1 (r.1 + r.2)) := by
        rw [tileSpec, List.flatMap_assoc]
        refine List.flatMap_congr fun k hk => ?_
        obtain ⟨id, e, h1, h2, h3⟩ := hset.precincts t ht k hk
        unfold precinctPayload at h3
        split_ifs at h3
        rw [Option.some.injEq] at h3
        simp only [precinctSpec, h1, h2, h3]
      rw [h1, hloc t ht]
      unfold tileData
      have hf : ∀ l : List TilePartLoc, (l.filter (·.tile = t)).flatMap (fun tp => slice d tp.bodyOff tp.bodyEnd) =
          l.flatMap fun tp => if tp.tile = t then slice d tp.bodyOff tp.bodyEnd else [] := by
        intro l
        induction l with
        | nil => rfl
        | cons a l ih => by_cases h : a.tile = t <;> simp [h, ih]
      rw [hf, (pick t).2]
      exact range_pick i.nT t _ ht
  refine (C41_server_frame set i order hT d).2 ⟨⟨hprog, hmk, gm.1, ?_⟩, ?_⟩
  · intro t ht
    obtain ⟨p1, p2⟩ := gp t ht
    exact ⟨p1, (gt t ht).1, by rw [(gt t ht).2, p2]; exact hl t ht⟩
  · rw [hd, gm.2]
    unfold framed
    congr 2
    refine List.flatMap_congr fun t ht => ?_
    rw [List.mem_range] at ht
    simp only [(gt t ht).2, (gp t ht).2]

end Verif.Jpip
