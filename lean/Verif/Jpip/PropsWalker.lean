import Verif.Jpip.Walker
import Verif.Tactics
/-
C38: walking the markers of any byte string ends and reports only offsets inside it; for a well-formed codestream the
walker finds exactly its parts; an offset into a tile's packet data is translated to the same byte of the codestream.
-/
namespace Verif.Jpip

/-! ### Reads -/

theorem u16At_some (d : List UInt8) (i : Nat) (h : i + 2 ≤ d.length) : ∃ m, u16At d i = some m := by
  unfold u16At
  rw [List.getElem?_eq_getElem (by omega), List.getElem?_eq_getElem (by omega)]
  exact ⟨_, rfl⟩

theorem u32At_some (d : List UInt8) (i : Nat) (h : i + 4 ≤ d.length) : ∃ m, u32At d i = some m := by
  obtain ⟨a, ha⟩ := u16At_some d i (by omega)
  obtain ⟨b, hb⟩ := u16At_some d (i + 2) (by omega)
  unfold u32At
  rw [ha, hb]
  exact ⟨_, rfl⟩

/-! ### Any byte string -/

/-- A tile-part lies inside a buffer of `n` bytes: a 12-byte SOT segment, the header, the SOD marker, and an end that
is after its start. -/
def TilePartLoc.Inside (n : Nat) (tp : TilePartLoc) : Prop :=
  tp.sot + 12 ≤ tp.headerEnd ∧ tp.bodyOff = tp.headerEnd + 2 ∧ tp.bodyOff ≤ n ∧ tp.sot < tp.bodyEnd ∧ tp.bodyEnd ≤ n

/-- All offsets of a layout lie inside a buffer of `n` bytes and the tile-parts follow one another. -/
structure Layout.Inside (n : Nat) (lay : Layout) : Prop where
  soc : lay.soc = 0
  main : lay.mainEnd ≤ n
  eoc : lay.eoc ≤ n
  parts : ∀ tp ∈ lay.parts, tp.Inside n
  afterMain : ∀ tp ∈ lay.parts, lay.mainEnd ≤ tp.sot
  inOrder : lay.parts.Pairwise fun a b => a.bodyEnd ≤ b.sot

theorem findSod_some (d : List UInt8) (f j : Nat) (hj : j ≤ d.length) (hf : d.length < f + j) :
    ∃ r, findSod d f j = some r ∧ ∀ k, r = some k → j ≤ k ∧ k + 2 ≤ d.length := by
  induction f generalizing j with
  | zero => omega
  | succ f ih =>
    rw [findSod]
    by_cases h : j + 2 ≤ d.length
    · rw [if_pos h]
      obtain ⟨m, hm⟩ := u16At_some d j h
      simp only [hm, Option.bind_eq_bind, Option.bind_some]
      split_ifs with h1 h2 h3
      · exact ⟨_, rfl, by rintro k hk; cases hk; omega⟩
      · obtain ⟨r, e, hr⟩ := ih (j + 2) (by omega) (by omega)
        exact ⟨r, e, fun k hk => by have := hr k hk; omega⟩
      · exact ⟨_, rfl, by simp⟩
      · obtain ⟨l, hl⟩ := u16At_some d (j + 2) (by omega)
        simp only [hl, Option.bind_some]
        split_ifs with h4
        · exact ⟨_, rfl, by simp⟩
        · obtain ⟨r, e, hr⟩ := ih (j + 2 + l) (by omega) (by omega)
          exact ⟨r, e, fun k hk => by have := hr k hk; omega⟩
    · rw [if_neg h]
      exact ⟨_, rfl, by simp⟩

theorem walkLoop_some (d : List UInt8) (f i : Nat) (seen : Bool) (lay : Layout) (hi : i ≤ d.length) (hf : d.length < f + i)
    (hL : lay.Inside d.length) (hE : ∀ tp ∈ lay.parts, tp.bodyEnd ≤ i) (hm : lay.mainEnd ≤ i)
    (hs : seen = false → lay.parts = []) :
    ∃ r, walkLoop d f i seen lay = some r ∧ r.Inside d.length := by
  induction f generalizing i seen lay with
  | zero => omega
  | succ f ih =>
    rw [walkLoop]
    by_cases h : i + 2 ≤ d.length
    · rw [if_pos h]
      obtain ⟨m, hmm⟩ := u16At_some d i h
      simp only [hmm, Option.bind_eq_bind, Option.bind_some]
      by_cases h1 : m = mEOC
      · rw [if_pos h1]
        exact ⟨_, rfl, hL.soc, hL.main, hi, hL.parts, hL.afterMain, hL.inOrder⟩
      rw [if_neg h1]
      by_cases h2 : m = mSOT
      · rw [if_pos h2]
        by_cases h3 : d.length < i + 12
        · rw [if_pos h3]; exact ⟨_, rfl, hL⟩
        rw [if_neg h3]
        obtain ⟨lsot, e1⟩ := u16At_some d (i + 2) (by omega)
        simp only [e1, Option.bind_some]
        by_cases h4 : lsot ≠ 10
        · rw [if_pos h4]; exact ⟨_, rfl, hL⟩
        rw [if_neg h4]
        obtain ⟨isot, e2⟩ := u16At_some d (i + 4) (by omega)
        obtain ⟨psot, e3⟩ := u32At_some d (i + 6) (by omega)
        simp only [e2, e3, Option.bind_some]
        rw [List.getElem?_eq_getElem (by omega), List.getElem?_eq_getElem (by omega)]
        simp only [Option.bind_some]
        obtain ⟨r, e4, hr⟩ := findSod_some d (d.length + 1) (i + 12) (by omega) (by omega)
        rw [e4]
        simp only [Option.bind_some]
        have hL' : (if seen = true then lay else { lay with mainEnd := i }).Inside d.length ∧
            (∀ tp ∈ (if seen = true then lay else { lay with mainEnd := i }).parts, tp.bodyEnd ≤ i) ∧
            (if seen = true then lay else { lay with mainEnd := i }).mainEnd ≤ i := by
          split_ifs with h5
          · exact ⟨hL, hE, hm⟩
          · have hp := hs (by simpa using h5)
            refine ⟨⟨hL.soc, hi, hL.eoc, hL.parts, ?_, hL.inOrder⟩, hE, le_rfl⟩
            intro tp htp
            simp only [hp, List.not_mem_nil] at htp
        generalize (if seen = true then lay else { lay with mainEnd := i }) = lay' at hL'
        obtain ⟨hL', hE', hm'⟩ := hL'
        cases r with
        | none => exact ⟨_, rfl, hL'⟩
        | some j =>
          have hj := hr j rfl
          simp only
          have he : i < (if psot ≠ 0 then min (i + psot) d.length else d.length) ∧
              (if psot ≠ 0 then min (i + psot) d.length else d.length) ≤ d.length := by
            split_ifs <;> omega
          generalize (if psot ≠ 0 then min (i + psot) d.length else d.length) = e at he
          refine ih e true _ he.2 (by omega) ⟨hL'.soc, hL'.main, hL'.eoc, ?_, ?_, ?_⟩ ?_ (by simp only; omega) (by simp)
          · intro tp htp
            rcases List.mem_append.1 htp with htp | htp
            · exact hL'.parts tp htp
            · rw [List.mem_singleton.1 htp]
              exact ⟨hj.1, rfl, hj.2, he.1, he.2⟩
          · intro tp htp
            rcases List.mem_append.1 htp with htp | htp
            · exact hL'.afterMain tp htp
            · rw [List.mem_singleton.1 htp]
              exact hm'
          · rw [List.pairwise_append]
            refine ⟨hL'.inOrder, by simp, ?_⟩
            intro a ha b hb
            rw [List.mem_singleton.1 hb]
            exact hE' a ha
          · intro tp htp
            rcases List.mem_append.1 htp with htp | htp
            · have := hE' tp htp; omega
            · rw [List.mem_singleton.1 htp]
      rw [if_neg h2]
      have step : ∀ k, k ≤ d.length → i < k → ∃ r, walkLoop d f k seen lay = some r ∧ r.Inside d.length := by
        intro k hk hik
        exact ih k seen lay hk (by omega) hL (fun tp htp => by have := hE tp htp; omega) (by omega) hs
      split_ifs with h5 h6
      · exact step _ h (by omega)
      · exact ⟨_, rfl, hL⟩
      · obtain ⟨l, hl⟩ := u16At_some d (i + 2) (by omega)
        simp only [hl, Option.bind_some]
        split_ifs with h7
        · exact ⟨_, rfl, hL⟩
        · exact step _ (by omega) (by omega)
    · rw [if_neg h]
      exact ⟨_, rfl, hL⟩

/-- C38: for every byte string the walk ends without reading outside it, and every offset it reports lies inside it. -/
theorem C38_walk_safe (d : List UInt8) : ∃ r, walk d = some r ∧ ∀ lay, r = some lay → lay.Inside d.length := by
  unfold walk
  by_cases h : d.length < 2
  · rw [if_pos h]; exact ⟨_, rfl, by simp⟩
  rw [if_neg h]
  obtain ⟨m, hm⟩ := u16At_some d 0 (by omega)
  simp only [hm, Option.bind_eq_bind, Option.bind_some]
  by_cases h1 : m ≠ mSOC
  · rw [if_pos h1]; exact ⟨_, rfl, by simp⟩
  rw [if_neg h1]
  obtain ⟨r, e, hr⟩ := walkLoop_some d (d.length + 1) 2 false { eoc := d.length } (by omega) (by omega)
    ⟨rfl, Nat.zero_le _, le_rfl, by simp, by simp, by simp⟩ (by simp) (Nat.zero_le _) (by simp)
  rw [e]
  exact ⟨_, rfl, by rintro lay hl; cases hl; exact hr⟩

/-! ### Well-formed codestreams -/

/-- A 16-bit number, high byte first. -/
def be16 (n : Nat) : List UInt8 := [UInt8.ofNat (n / 256), UInt8.ofNat (n % 256)]

/-- A 32-bit number, high byte first. -/
def be32 (n : Nat) : List UInt8 := be16 (n / 65536) ++ be16 (n % 65536)

/-- A marker segment: code and contents. -/
structure Seg where
  code : Nat
  body : List UInt8

/-- A marker segment as it is written: code, length (counting itself), contents. -/
def Seg.bytes (s : Seg) : List UInt8 := be16 s.code ++ be16 (s.body.length + 2) ++ s.body

/-- The markers without a length field (ITU-T T.800, Table A.2): SOC, SOD, EOC, EPH and 0xFF30 to 0xFF3F. -/
def Delimiter (m : Nat) : Prop := m = 0xFF4F ∨ m = 0xFF93 ∨ m = 0xFFD9 ∨ m = 0xFF92 ∨ 0xFF30 ≤ m ∧ m ≤ 0xFF3F

theorem noLength_iff (m : Nat) (h : 0xFF00 ≤ m) (h' : m < 65536) : noLength m = true ↔ Delimiter m := by
  unfold noLength Delimiter mSOC mSOD mEOC
  simp only [Bool.or_eq_true, decide_eq_true_eq, Bool.and_eq_true]
  omega

/-- A segment with a length field that may stand in a header. -/
def Seg.Wf (s : Seg) : Prop :=
  0xFF00 ≤ s.code ∧ s.code < 65536 ∧ ¬ Delimiter s.code ∧ s.code ≠ 0xFF90 ∧ s.body.length + 2 < 65536

/-- The same, as the walker sees it. -/
def Seg.Ok (s : Seg) : Prop := s.code < 65536 ∧ noLength s.code = false ∧ s.code ≠ mSOT ∧ s.body.length + 2 < 65536

theorem Seg.Wf.ok {s : Seg} (h : s.Wf) : s.Ok := by
  obtain ⟨h1, h2, h3, h4, h5⟩ := h
  refine ⟨h2, ?_, h4, h5⟩
  rw [Bool.eq_false_iff]
  intro hc
  exact h3 ((noLength_iff _ h1 h2).1 hc)

/-- A tile-part: tile, number and count, the header's segments, the packet data. -/
structure Part where
  tile : Nat
  idx : Nat
  cnt : Nat
  hdr : List Seg
  body : List UInt8

/-- The bytes of the header segments. -/
def Part.hdrBytes (p : Part) : List UInt8 := p.hdr.flatMap Seg.bytes

/-- A tile-part as it is written, SOT to the end of the packet data. -/
def Part.bytes (p : Part) : List UInt8 :=
  be16 mSOT ++ be16 10 ++ be16 p.tile ++ be32 (p.hdrBytes.length + p.body.length + 14) ++
    [UInt8.ofNat p.idx, UInt8.ofNat p.cnt] ++ p.hdrBytes ++ be16 mSOD ++ p.body

def Part.Ok (p : Part) : Prop :=
  p.tile < 65536 ∧ p.idx < 256 ∧ p.cnt < 256 ∧ (∀ s ∈ p.hdr, s.Ok) ∧ p.hdrBytes.length + p.body.length + 14 < 2 ^ 32

/-- A codestream: main header segments and tile-parts. -/
structure Stream where
  main : List Seg
  parts : List Part

/-- SOC and the segments. -/
def Stream.mainBytes (s : Stream) : List UInt8 := be16 mSOC ++ s.main.flatMap Seg.bytes

def Stream.bytes (s : Stream) : List UInt8 := s.mainBytes ++ s.parts.flatMap Part.bytes ++ be16 mEOC

def Stream.Ok (s : Stream) : Prop := (∀ x ∈ s.main, x.Ok) ∧ s.parts ≠ [] ∧ ∀ p ∈ s.parts, p.Ok

def Part.Wf (p : Part) : Prop :=
  p.tile < 65536 ∧ p.idx < 256 ∧ p.cnt < 256 ∧ (∀ s ∈ p.hdr, s.Wf) ∧ p.hdrBytes.length + p.body.length + 14 < 2 ^ 32

/-- A codestream as the standard has it, with at least one tile-part. -/
def Stream.Wf (s : Stream) : Prop := (∀ x ∈ s.main, x.Wf) ∧ s.parts ≠ [] ∧ ∀ p ∈ s.parts, p.Wf

theorem Stream.Wf.ok {s : Stream} (h : s.Wf) : s.Ok :=
  ⟨fun x hx => (h.1 x hx).ok, h.2.1, fun p hp =>
    have q := h.2.2 p hp
    ⟨q.1, q.2.1, q.2.2.1, fun x hx => (q.2.2.2.1 x hx).ok, q.2.2.2.2⟩⟩

theorem be16_val (n : Nat) (h : n < 65536) : (UInt8.ofNat (n / 256)).toNat * 256 + (UInt8.ofNat (n % 256)).toNat = n := by
  rw [UInt8.toNat_ofNat', UInt8.toNat_ofNat', Nat.mod_eq_of_lt (by omega), Nat.mod_eq_of_lt (by omega)]
  omega

theorem u16At_be (pre post : List UInt8) (n : Nat) (h : n < 65536) : u16At (pre ++ (be16 n ++ post)) pre.length = some n := by
  have hb : be16 n ++ post = UInt8.ofNat (n / 256) :: UInt8.ofNat (n % 256) :: post := rfl
  rw [hb, u16At, List.getElem?_append_right (Nat.le_refl _), List.getElem?_append_right (Nat.le_add_right _ _)]
  simp only [Nat.sub_self, Nat.add_sub_cancel_left, List.cons_append, List.getElem?_cons_zero, List.getElem?_cons_succ,
    Option.bind_eq_bind, Option.bind_some, Option.pure_def]
  rw [be16_val n h]

theorem be16_length (n : Nat) : (be16 n).length = 2 := rfl
theorem be32_length (n : Nat) : (be32 n).length = 4 := rfl
theorem Seg.length_bytes (s : Seg) : s.bytes.length = s.body.length + 4 := by simp [Seg.bytes, be16_length]; omega
theorem Part.length_bytes (p : Part) : p.bytes.length = p.hdrBytes.length + p.body.length + 14 := by
  simp [Part.bytes, be16_length, be32_length]; omega

/-- A 16-bit number at an offset. -/
theorem u16At_at (d pre post : List UInt8) (n i : Nat) (hd : d = pre ++ (be16 n ++ post)) (hi : i = pre.length) (h : n < 65536) :
    u16At d i = some n := by rw [hd, hi, u16At_be pre post n h]

theorem findSod_segs (segs : List Seg) (hs : ∀ s ∈ segs, s.Ok) (d pre post : List UInt8) (f : Nat)
    (hd : d = pre ++ (segs.flatMap Seg.bytes ++ (be16 mSOD ++ post))) (hf : d.length < f + pre.length) :
    findSod d f pre.length = some (some (pre.length + (segs.flatMap Seg.bytes).length)) := by
  induction segs generalizing pre f with
  | nil =>
    have hl : d.length = pre.length + (2 + post.length) := by rw [hd]; simp [be16_length]
    obtain ⟨f, rfl⟩ : ∃ g, f = g + 1 := ⟨f - 1, by omega⟩
    rw [findSod, if_pos (by omega), u16At_at d pre post mSOD _ (by rw [hd]; rfl) rfl (by decide)]
    simp
  | cons s segs ih =>
    obtain ⟨h1, h2, h3, h4⟩ := hs s (by simp)
    have hd2 : d = pre ++ s.bytes ++ (segs.flatMap Seg.bytes ++ (be16 mSOD ++ post)) := by rw [hd]; simp
    have hl : d.length = pre.length + (s.body.length + 4) + ((segs.flatMap Seg.bytes).length + (2 + post.length)) := by
      rw [hd2]; simp only [List.length_append, be16_length, Seg.length_bytes]
    obtain ⟨f, rfl⟩ : ∃ g, f = g + 1 := ⟨f - 1, by omega⟩
    have e1 := u16At_at d pre (be16 (s.body.length + 2) ++ s.body ++ (segs.flatMap Seg.bytes ++ (be16 mSOD ++ post))) s.code
      pre.length (by rw [hd2, Seg.bytes]; simp) rfl h1
    have e2 := u16At_at d (pre ++ be16 s.code) (s.body ++ (segs.flatMap Seg.bytes ++ (be16 mSOD ++ post))) (s.body.length + 2)
      (pre.length + 2) (by rw [hd2, Seg.bytes]; simp) (by simp [be16_length]) h4
    have hne : s.code ≠ mSOD := by intro h; rw [h] at h2; revert h2; decide
    rw [findSod, if_pos (by omega), e1]
    simp only [Option.bind_eq_bind, Option.bind_some]
    rw [if_neg hne, if_neg (by simp [h2]), if_neg (by omega), e2]
    simp only [Option.bind_some]
    rw [if_neg (by omega)]
    have := ih (fun x hx => hs x (List.mem_cons_of_mem _ hx)) (pre ++ s.bytes) f (by rw [hd2]) (by
      simp only [List.length_append, Seg.length_bytes]; omega)
    rw [show pre.length + 2 + (s.body.length + 2) = (pre ++ s.bytes).length by simp only [List.length_append, Seg.length_bytes]; omega,
      this]
    congr 2
    simp only [List.flatMap_cons, List.length_append]
    omega

theorem walkLoop_segs (segs : List Seg) (hs : ∀ s ∈ segs, s.Ok) (d pre post : List UInt8) (f : Nat) (seen : Bool) (lay : Layout)
    (hd : d = pre ++ (segs.flatMap Seg.bytes ++ post)) (hf : d.length < f + pre.length) :
    ∃ f', d.length < f' + (pre ++ segs.flatMap Seg.bytes).length ∧
      walkLoop d f pre.length seen lay = walkLoop d f' (pre ++ segs.flatMap Seg.bytes).length seen lay := by
  induction segs generalizing pre f with
  | nil => exact ⟨f, by simpa using hf, by simp⟩
  | cons s segs ih =>
    obtain ⟨h1, h2, h3, h4⟩ := hs s (by simp)
    have hd2 : d = pre ++ s.bytes ++ (segs.flatMap Seg.bytes ++ post) := by rw [hd]; simp
    have hl : d.length = pre.length + (s.body.length + 4) + ((segs.flatMap Seg.bytes).length + post.length) := by
      rw [hd2]; simp only [List.length_append, Seg.length_bytes]
    obtain ⟨f, rfl⟩ : ∃ g, f = g + 1 := ⟨f - 1, by omega⟩
    have e1 := u16At_at d pre (be16 (s.body.length + 2) ++ s.body ++ (segs.flatMap Seg.bytes ++ post)) s.code
      pre.length (by rw [hd2, Seg.bytes]; simp) rfl h1
    have e2 := u16At_at d (pre ++ be16 s.code) (s.body ++ (segs.flatMap Seg.bytes ++ post)) (s.body.length + 2)
      (pre.length + 2) (by rw [hd2, Seg.bytes]; simp) (by simp [be16_length]) h4
    have hne : s.code ≠ mEOC := by rintro h; rw [h] at h2; revert h2; decide
    obtain ⟨f', hf', e⟩ := ih (fun x hx => hs x (List.mem_cons_of_mem _ hx)) (pre ++ s.bytes) f (by rw [hd2]) (by
      simp only [List.length_append, Seg.length_bytes]; omega)
    refine ⟨f', by rw [List.flatMap_cons, ← List.append_assoc]; exact hf', ?_⟩
    rw [walkLoop, if_pos (by omega), e1]
    simp only [Option.bind_eq_bind, Option.bind_some]
    rw [if_neg hne, if_neg h3, if_neg (by simp [h2]), if_neg (by omega), e2]
    simp only [Option.bind_some]
    rw [if_neg (by omega), show pre.length + 2 + (s.body.length + 2) = (pre ++ s.bytes).length by
      simp only [List.length_append, Seg.length_bytes]; omega, e, List.flatMap_cons, ← List.append_assoc]

/-- Where a tile-part that starts at offset `o` lies. -/
def Part.loc (p : Part) (o : Nat) : TilePartLoc :=
  ⟨o, o + 12 + p.hdrBytes.length, o + 14 + p.hdrBytes.length, o + p.bytes.length, p.tile, p.idx, p.cnt⟩

/-- Where the tile-parts lie when the first starts at `o`. -/
def locs : List Part → Nat → List TilePartLoc
  | [], _ => []
  | p :: ps, o => p.loc o :: locs ps (o + p.bytes.length)

theorem u32At_be (d pre post : List UInt8) (n i : Nat) (hd : d = pre ++ (be32 n ++ post)) (hi : i = pre.length) (h : n < 2 ^ 32) :
    u32At d i = some n := by
  unfold u32At
  rw [u16At_at d pre (be16 (n % 65536) ++ post) (n / 65536) i (by rw [hd, be32]; simp) hi (by omega),
    u16At_at d (pre ++ be16 (n / 65536)) post (n % 65536) (i + 2) (by rw [hd, be32]; simp) (by simp [be16_length, hi]) (by omega)]
  simp only [Option.bind_eq_bind, Option.bind_some, Option.pure_def]
  congr 1
  omega

theorem walkLoop_part (p : Part) (hp : p.Ok) (d pre post : List UInt8) (f : Nat) (seen : Bool) (lay : Layout)
    (hd : d = pre ++ (p.bytes ++ post)) :
    walkLoop d (f + 1) pre.length seen lay = walkLoop d f (pre ++ p.bytes).length true
      { lay with mainEnd := (if seen = true then lay.mainEnd else pre.length), parts := lay.parts ++ [p.loc pre.length] } := by
  obtain ⟨h1, h2, h3, h4, h5⟩ := hp
  have hl : d.length = pre.length + (p.hdrBytes.length + p.body.length + 14 + post.length) := by
    rw [hd]; simp only [List.length_append, Part.length_bytes]
  have hN : p.hdrBytes.length + p.body.length + 14 = p.bytes.length := (Part.length_bytes p).symm
  have hb : p.bytes = be16 mSOT ++ (be16 10 ++ (be16 p.tile ++ (be32 p.bytes.length ++
    ([UInt8.ofNat p.idx, UInt8.ofNat p.cnt] ++ (p.hdrBytes ++ (be16 mSOD ++ p.body)))))) := by
    conv => lhs; rw [Part.bytes, hN]
    simp
  have hbl := p.bytes.length
  generalize hn : p.bytes.length = n at hb hN
  have hd2 : d = pre ++ (be16 mSOT ++ (be16 10 ++ (be16 p.tile ++ (be32 n ++
    ([UInt8.ofNat p.idx, UInt8.ofNat p.cnt] ++ (p.hdrBytes ++ (be16 mSOD ++ (p.body ++ post)))))))) := by
    rw [hd, hb]; simp
  have e0 := u16At_at d pre _ mSOT pre.length hd2 rfl (by decide)
  have e1 := u16At_at d (pre ++ be16 mSOT) _ 10 (pre.length + 2) (by rw [hd2, List.append_assoc]) (by simp [be16_length]) (by decide)
  have e2 := u16At_at d (pre ++ (be16 mSOT ++ be16 10)) _ p.tile (pre.length + 4) (by rw [hd2]; simp only [List.append_assoc]; rfl)
    (by simp [be16_length]) h1
  have e3 := u32At_be d (pre ++ (be16 mSOT ++ (be16 10 ++ be16 p.tile))) _ n (pre.length + 6) (by rw [hd2]; simp only [List.append_assoc]; rfl)
    (by simp [be16_length]) (by omega)
  have e4 : d[pre.length + 10]? = some (UInt8.ofNat p.idx) := by
    rw [hd2, List.getElem?_append_right (by omega)]
    simp [be16, be32]
  have e5 : d[pre.length + 11]? = some (UInt8.ofNat p.cnt) := by
    rw [hd2, List.getElem?_append_right (by omega)]
    simp [be16, be32]
  have e6 := findSod_segs p.hdr h4 d (pre ++ (be16 mSOT ++ (be16 10 ++ (be16 p.tile ++ (be32 n ++
    [UInt8.ofNat p.idx, UInt8.ofNat p.cnt]))))) (p.body ++ post) (d.length + 1)
    (by rw [hd2, ← Part.hdrBytes]; simp only [List.append_assoc]) (by omega)
  rw [show (pre ++ (be16 mSOT ++ (be16 10 ++ (be16 p.tile ++ (be32 n ++ [UInt8.ofNat p.idx, UInt8.ofNat p.cnt]))))).length =
    pre.length + 12 by simp [be16_length, be32_length]] at e6
  rw [walkLoop, if_pos (by omega), e0]
  simp only [Option.bind_eq_bind, Option.bind_some]
  rw [if_neg (by decide), if_pos trivial, if_neg (by omega), e1]
  simp only [Option.bind_some]
  rw [if_neg (by simp), e2, e3, e4, e5]
  simp only [Option.bind_some]
  rw [e6]
  simp only [Option.bind_some]
  rw [if_pos (by omega), Nat.min_eq_left (by omega), UInt8.toNat_ofNat', UInt8.toNat_ofNat', Nat.mod_eq_of_lt h2,
    Nat.mod_eq_of_lt h3, List.length_append, hn]
  congr 1
  cases seen <;> simp [Part.loc, Part.hdrBytes, hn, Nat.add_assoc, Nat.add_comm] <;> omega

theorem walkLoop_parts (ps : List Part) (hp : ∀ p ∈ ps, p.Ok) (d pre : List UInt8) (f : Nat) (seen : Bool) (lay : Layout)
    (hd : d = pre ++ (ps.flatMap Part.bytes ++ be16 mEOC)) (hf : d.length < f + pre.length) :
    walkLoop d f pre.length seen lay = some
      { lay with mainEnd := (if seen = true ∨ ps = [] then lay.mainEnd else pre.length), eoc := d.length - 2,
                 parts := lay.parts ++ locs ps pre.length } := by
  induction ps generalizing pre f seen lay with
  | nil =>
    have hl : d.length = pre.length + 2 := by rw [hd]; simp [be16_length]
    obtain ⟨f, rfl⟩ : ∃ g, f = g + 1 := ⟨f - 1, by omega⟩
    rw [walkLoop, if_pos (by omega), u16At_at d pre [] mEOC _ (by rw [hd]; simp) rfl (by decide)]
    simp [locs, hl]
  | cons p ps ih =>
    have hd2 : d = pre ++ (p.bytes ++ (ps.flatMap Part.bytes ++ be16 mEOC)) := by rw [hd]; simp
    have hl : d.length = pre.length + (p.bytes.length + ((ps.flatMap Part.bytes).length + 2)) := by
      rw [hd2]; simp only [List.length_append, be16_length]
    have := Part.length_bytes p
    obtain ⟨f, rfl⟩ : ∃ g, f = g + 1 := ⟨f - 1, by omega⟩
    rw [walkLoop_part p (hp p (by simp)) d pre _ f seen lay hd2,
      ih (fun x hx => hp x (List.mem_cons_of_mem _ hx)) (pre ++ p.bytes) f true _ (by rw [hd2, List.append_assoc])
        (by rw [List.length_append]; omega)]
    congr 1
    simp [locs]

theorem walk_stream (s : Stream) (h : s.Ok) :
    walk s.bytes = some (some ⟨0, s.mainBytes.length, s.bytes.length - 2, locs s.parts s.mainBytes.length⟩) := by
  obtain ⟨h1, h2, h3⟩ := h
  have hd : s.bytes = be16 mSOC ++ (s.main.flatMap Seg.bytes ++ (s.parts.flatMap Part.bytes ++ be16 mEOC)) := by
    simp [Stream.bytes, Stream.mainBytes]
  have hl : 2 ≤ s.bytes.length := by rw [hd, List.length_append, be16_length]; omega
  unfold walk
  rw [if_neg (by omega), u16At_at s.bytes [] _ mSOC 0 (by rw [hd]; rfl) rfl (by decide)]
  simp only [Option.bind_eq_bind, Option.bind_some, ne_eq, not_true_eq_false, if_false]
  obtain ⟨f', hf', e⟩ := walkLoop_segs s.main h1 s.bytes (be16 mSOC) _ (s.bytes.length + 1) false { eoc := s.bytes.length } hd
    (by omega)
  rw [be16_length] at e
  rw [e, walkLoop_parts s.parts h3 s.bytes (be16 mSOC ++ s.main.flatMap Seg.bytes) f' false _ (by rw [hd, List.append_assoc]) hf']
  simp [h2, Stream.mainBytes]

theorem slice_mid (pre l post : List UInt8) (a b : Nat) (ha : a = pre.length) (hb : b = a + l.length) :
    slice (pre ++ (l ++ post)) a b = l := by
  rw [slice, ha, List.drop_left, hb, ha, Nat.add_sub_cancel_left, List.take_left]

/-- What a tile-part of a layout stands for in the buffer: its numbers, header bytes and packet data. -/
def TilePartLoc.view (d : List UInt8) (tp : TilePartLoc) : Nat × Nat × Nat × List UInt8 × List UInt8 :=
  (tp.tile, tp.idx, tp.cnt, slice d (tp.sot + 12) tp.headerEnd, slice d tp.bodyOff tp.bodyEnd)

theorem locs_view (ps : List Part) (d pre post : List UInt8) (hd : d = pre ++ (ps.flatMap Part.bytes ++ post)) :
    (locs ps pre.length).map (·.view d) = ps.map fun p => (p.tile, p.idx, p.cnt, p.hdrBytes, p.body) := by
  induction ps generalizing pre with
  | nil => rfl
  | cons p ps ih =>
    have := Part.length_bytes p
    have hd2 : d = pre ++ (p.bytes ++ (ps.flatMap Part.bytes ++ post)) := by rw [hd]; simp
    have e1 : slice d (pre.length + 12) (pre.length + 12 + p.hdrBytes.length) = p.hdrBytes := by
      have : d = (pre ++ (be16 mSOT ++ be16 10 ++ be16 p.tile ++ be32 (p.hdrBytes.length + p.body.length + 14) ++
          [UInt8.ofNat p.idx, UInt8.ofNat p.cnt])) ++ (p.hdrBytes ++ (be16 mSOD ++ p.body ++ (ps.flatMap Part.bytes ++ post))) := by
        rw [hd2, Part.bytes]; simp
      conv => lhs; arg 1; rw [this]
      exact slice_mid _ _ _ _ _ (by simp [be16_length, be32_length]) rfl
    have e2 : slice d (pre.length + 14 + p.hdrBytes.length) (pre.length + p.bytes.length) = p.body := by
      have : d = (pre ++ (be16 mSOT ++ be16 10 ++ be16 p.tile ++ be32 (p.hdrBytes.length + p.body.length + 14) ++
          [UInt8.ofNat p.idx, UInt8.ofNat p.cnt] ++ p.hdrBytes ++ be16 mSOD)) ++ (p.body ++ (ps.flatMap Part.bytes ++ post)) := by
        rw [hd2, Part.bytes]; simp
      conv => lhs; arg 1; rw [this]
      exact slice_mid _ _ _ _ _ (by simp [be16_length, be32_length]; omega) (by omega)
    have := ih (pre ++ p.bytes) (by rw [hd2, List.append_assoc])
    rw [List.length_append] at this
    rw [locs, List.map_cons, this, List.map_cons]
    simp only [TilePartLoc.view, Part.loc, e1, e2]

/-- C38: in a well-formed codestream the walker finds the main header, every tile-part with its header and packet data,
and the end marker. -/
theorem C38_walk_recovers (s : Stream) (h : s.Wf) :
    ∃ lay, walk s.bytes = some (some lay) ∧ slice s.bytes lay.soc lay.mainEnd = s.mainBytes ∧
      lay.parts.map (·.view s.bytes) = s.parts.map (fun p => (p.tile, p.idx, p.cnt, p.hdrBytes, p.body)) ∧
      slice s.bytes lay.eoc s.bytes.length = be16 mEOC := by
  refine ⟨_, walk_stream s h.ok, ?_, ?_, ?_⟩
  · rw [Stream.bytes, List.append_assoc]
    exact slice_mid [] s.mainBytes _ 0 s.mainBytes.length rfl (by simp)
  · exact locs_view s.parts s.bytes s.mainBytes (be16 mEOC) (by rw [Stream.bytes, List.append_assoc])
  · have hl : s.bytes.length = (s.mainBytes ++ s.parts.flatMap Part.bytes).length + 2 := by rw [Stream.bytes, List.length_append, be16_length]
    have : s.bytes = (s.mainBytes ++ s.parts.flatMap Part.bytes) ++ (be16 mEOC ++ []) := by simp [Stream.bytes]
    conv => lhs; arg 1; rw [this]
    exact slice_mid _ _ _ _ _ (by simp only; omega) (by rw [be16_length]; simp only; omega)

/-- Two tile-parts of one tile and one of another. -/
example : Stream.Wf ⟨[⟨0xFF51, [1, 2, 3]⟩], [⟨0, 0, 2, [⟨0xFF58, [9]⟩], [7, 7]⟩, ⟨1, 0, 1, [], []⟩, ⟨0, 1, 2, [], [8]⟩]⟩ := by
  refine ⟨?_, by simp, ?_⟩
  · intro x hx
    rw [List.mem_singleton.1 hx]
    exact ⟨by decide, by decide, by simp [Delimiter], by decide, by decide⟩
  · simp only [List.mem_cons, List.not_mem_nil, or_false, forall_eq_or_imp, forall_eq, Part.Wf, Part.hdrBytes]
    refine ⟨⟨by decide, by decide, by decide, ?_, by decide⟩, ⟨by decide, by decide, by decide, by simp, by decide⟩,
      ⟨by decide, by decide, by decide, by simp, by decide⟩⟩
    exact ⟨by decide, by decide, by simp [Delimiter], by decide, by decide⟩

/-! ### Offsets into the packet data of a tile -/

/-- The packet data of a tile: the bodies of its tile-parts, one after another. -/
def tileData (d : List UInt8) (tile : Nat) (tps : List TilePartLoc) : List UInt8 :=
  (tps.filter (·.tile = tile)).flatMap fun tp => slice d tp.bodyOff tp.bodyEnd

theorem slice_length (d : List UInt8) (a b : Nat) (h : b ≤ d.length) : (slice d a b).length = b - a := by
  rw [slice, List.length_take, List.length_drop]; omega

theorem slice_get (d : List UInt8) (a b k : Nat) (h : k < b - a) : (slice d a b)[k]? = d[a + k]? := by
  rw [slice, List.getElem?_take_of_lt h, List.getElem?_drop]

theorem toAbsolute_spec (d : List UInt8) (tile off acc : Nat) (tps : List TilePartLoc) (h : ∀ tp ∈ tps, tp.bodyEnd ≤ d.length)
    (ha : acc ≤ off) :
    (∀ a, toAbsolute tile off tps acc = some a → a < d.length ∧ d[a]? = (tileData d tile tps)[off - acc]?) ∧
    (toAbsolute tile off tps acc = none ↔ (tileData d tile tps).length ≤ off - acc) := by
  induction tps generalizing acc with
  | nil => simp [toAbsolute, tileData]
  | cons tp tps ih =>
    have ih := fun acc ha => ih acc (fun x hx => h x (List.mem_cons_of_mem _ hx)) ha
    have hb := h tp (by simp)
    by_cases ht : tp.tile = tile
    · have hn : (if tp.bodyOff < tp.bodyEnd then tp.bodyEnd - tp.bodyOff else 0) = tp.bodyEnd - tp.bodyOff := by
        split_ifs <;> omega
      have hd : tileData d tile (tp :: tps) = slice d tp.bodyOff tp.bodyEnd ++ tileData d tile tps := by
        simp [tileData, ht]
      have hl := slice_length d tp.bodyOff tp.bodyEnd hb
      rw [toAbsolute, if_neg (by simpa using ht), hd]
      simp only [hn]
      by_cases hlt : off < acc + (tp.bodyEnd - tp.bodyOff)
      · rw [if_pos hlt]
        refine ⟨?_, ?_⟩
        · rintro a hea
          cases hea
          refine ⟨by omega, ?_⟩
          rw [List.getElem?_append_left (by omega), slice_get _ _ _ _ (by omega)]
        · simp only [reduceCtorEq, List.length_append, false_iff]
          omega
      · rw [if_neg hlt]
        have := ih (acc + (tp.bodyEnd - tp.bodyOff)) (by omega)
        rw [List.length_append, List.getElem?_append_right (by omega), hl,
          show off - acc - (tp.bodyEnd - tp.bodyOff) = off - (acc + (tp.bodyEnd - tp.bodyOff)) by omega]
        refine ⟨this.1, this.2.trans ?_⟩
        omega
    · have hd : tileData d tile (tp :: tps) = tileData d tile tps := by simp [tileData, ht]
      rw [toAbsolute, if_pos ht, hd]
      exact ih acc ha

/-- C38: an offset into the packet data of a tile is translated to an offset of the codestream that holds the same byte,
and is refused exactly when it is not in the packet data; for the layout of any byte string. -/
theorem C38_packet_address (d : List UInt8) (lay : Layout) (hw : walk d = some (some lay)) (tile off : Nat) :
    (∀ a, toAbsolute tile off lay.parts 0 = some a → a < d.length ∧ d[a]? = (tileData d tile lay.parts)[off]?) ∧
    (toAbsolute tile off lay.parts 0 = none ↔ (tileData d tile lay.parts).length ≤ off) := by
  obtain ⟨r, e, hr⟩ := C38_walk_safe d
  rw [hw] at e
  cases e
  exact toAbsolute_spec d tile off 0 lay.parts (fun tp htp => ((hr lay rfl).parts tp htp).2.2.2.2) (Nat.zero_le _)

/-- A last tile-part that leaves its length open (Psot = 0) is reported to end at the end of the buffer, so its packet
data includes the end marker, and no end marker is reported. -/
theorem C38_open_length_takes_end_marker :
    (walk ([0xFF, 0x4F, 0xFF, 0x90, 0, 10, 0, 0, 0, 0, 0, 0, 0, 1, 0xFF, 0x93, 5, 6, 0xFF, 0xD9])).map
      (·.map fun lay => (lay.eoc, lay.parts.map fun tp => (tp.bodyOff, tp.bodyEnd))) = some (some (20, [(16, 20)])) := by
  decide +kernel

end Verif.Jpip
