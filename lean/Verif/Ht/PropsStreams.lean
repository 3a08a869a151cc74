import Verif.Ht.SegLemmas

/-!
# Properties of the HT bit streams (C32–C34)
-/

namespace Verif.Ht

/-! ## C33: MagSgn -/

/-- Read back fields of the given lengths the way the cleanup decoder does
(ht_block_decoding.cpp 145-150): fetch 32 bits, consume `n`, keep the low `n`. -/
def readFields (s : BitRd) : List Nat → Option (List Nat)
  | [] => some []
  | n :: ns => do
    let (v, s) ← fwdFetch 0xFF s
    let s ← s.advance n
    let vs ← readFields s ns
    return v % 2 ^ n :: vs

/-- The MagSgn decoder: construct `fwd_buf<0xFF>` on the bytes at an address congruent to `p`
modulo 4 and read fields of the given lengths. -/
def msDecode (p : Nat) (bytes : List Nat) (lens : List Nat) : Option (List Nat) := do
  let s ← fwdInit 0xFF p bytes
  readFields s lens

theorem readFields_spec (fs : List (Nat × Nat)) (hfs : ∀ f ∈ fs, f.2 ≤ 32 ∧ f.1 < 2 ^ f.2) (s : BitRd)
    (L : List Bool) (h : Rep fwdDisc 0xFF s (fieldBits fs ++ L)) :
    readFields s (fs.map Prod.snd) = some (fs.map Prod.fst) := by
  induction fs generalizing s with
  | nil => rfl
  | cons f fs ih =>
    obtain ⟨hl, hv⟩ := hfs f (by simp)
    rw [show fieldBits (f :: fs) ++ L = bitsLE f.2 f.1 ++ (fieldBits fs ++ L) by
      simp [fieldBits]] at h
    obtain ⟨s1, e1, r1, b1⟩ := h.fwdFetch_spec (by decide)
    obtain ⟨s2, e2, r2, -, -, hb⟩ := r1.advance_spec (bitsLE_length _ _) (by omega)
    have hval : s1.creg % 2 ^ 32 % 2 ^ f.2 = f.1 := by
      apply eq_of_bitsLE (Nat.mod_lt _ (by positivity)) hv
      rw [bitsLE_mod _ le_rfl, bitsLE_mod _ hl]
      exact hb
    simp only [List.map_cons, readFields, e1, e2, Option.bind_eq_bind, Option.bind_some]
    rw [ih (fun g hg => hfs g (by simp [hg])) s2 r2]
    simp only [Option.bind_some, hval]
    rfl

/-- **C33.**  Every sequence of MagSgn fields – `len ≤ 32` bits each, the codeword possibly carrying
the known most significant bit `emb_1` that is not sent – that is packed by `emitMagSgnBits` and
terminated by `termMS` is read back field by field by `fwd_buf`, wherever the buffer lies in memory
(`p`).  No exception is thrown. -/
theorem C33_magsgn_round_trip (fs : List (Nat × Nat × Nat)) (p : Nat) (hp : p < 4)
    (hlen : ∀ f ∈ fs, f.2.1 ≤ 32 ∧ f.1 < 2 ^ 32)
    (hval : ∀ f ∈ fs, ∃ v, v < 2 ^ f.2.1 ∧ f.1 = v + f.2.2 * 2 ^ f.2.1) :
    msDecode p (msEncode fs) (fs.map fun f => f.2.1) =
      some (fs.map fun f => f.1 - f.2.2 * 2 ^ f.2.1) := by
  have hok : ∀ f ∈ fs, FieldOk f := by
    intro f hf
    obtain ⟨v, h1, h2⟩ := hval f hf
    exact ⟨(hlen f hf).1, (hlen f hf).2, by omega, by omega⟩
  obtain ⟨hleg, hpre, -⟩ := msEncode_spec fs hok
  obtain ⟨s, e, r⟩ := fwdInit_rep (X := 0xFF) (p := p) (k := 1) (by decide) hp
    (fun b hb => hleg.lt fwdW_le b (by simp [hb])) (List.prefix_refl _) hleg hpre
  unfold msDecode
  rw [e]
  have := readFields_spec (fs.map fieldVal) (by
    intro g hg
    obtain ⟨f, hf, rfl⟩ := List.mem_map.mp hg
    exact ⟨(hok f hf).1, (hok f hf).2.2.2⟩) s [] (by simpa using r)
  simpa [List.map_map, Function.comp_def, fieldVal] using this

/-- **C33.**  The terminated MagSgn stream consists of bytes, never shows a byte above 0x7F after a
byte 0xFF (so no marker can appear in it), and does not end in 0xFF. -/
theorem C33_magsgn_no_marker (fs : List (Nat × Nat × Nat))
    (hlen : ∀ f ∈ fs, f.2.1 ≤ 32 ∧ f.1 < 2 ^ 32)
    (hval : ∀ f ∈ fs, ∃ v, v < 2 ^ f.2.1 ∧ f.1 = v + f.2.2 * 2 ^ f.2.1) :
    (∀ b ∈ msEncode fs, b < 256) ∧ NoMarker (msEncode fs) ∧ (msEncode fs).getLast? ≠ some 0xFF := by
  have hok : ∀ f ∈ fs, FieldOk f := by
    intro f hf
    obtain ⟨v, h1, h2⟩ := hval f hf
    exact ⟨(hlen f hf).1, (hlen f hf).2, by omega, by omega⟩
  obtain ⟨hleg, -, hlast⟩ := msEncode_spec fs hok
  have hleg' := ((legal_append _ _ _ _).mp hleg).1
  exact ⟨hleg'.lt fwdW_le, hleg'.noMarker, hlast⟩

/-- A run of one bits long enough to need stuffing, a 32-bit field, an empty field, and a field
whose top bit is known. -/
example : msEncode [(0xFFF, 12, 0), (0xFFFFFFFF, 32, 0), (0, 0, 0), (0x15, 4, 1)] =
    [0xFF, 0x7F, 0xFF, 0x7F, 0xFF, 0x7F, 0xFA] ∧
    msDecode 1 [0xFF, 0x7F, 0xFF, 0x7F, 0xFF, 0x7F, 0xFA] [12, 32, 0, 4] =
      some [0xFFF, 0xFFFFFFFF, 0, 5] := by decide +kernel

/-! ## C32, C34: MEL and VLC

The two streams share one segment, grow towards each other and may share their last byte, so the
round trips are stated for the segment that `termMELandVLC` and the end of `htj2k_cleanup_encode`
actually produce. -/

/-- Encode MEL events and VLC codewords `(cwd, len)`, terminate both, and append the segment to the
MagSgn bytes `ms`: the cleanup segment. -/
def encodeCup (ms : List Nat) (es : List Bool) (cs : List (Nat × Nat)) : Option (List Nat) := do
  let vlc ← VlcEnc.init.emitAll cs
  let seg ← termMelVlc (melEncode es) vlc
  assembleCup ms seg

/-- Read `n` MEL events. -/
def readEvents (s : MelSt) : Nat → Option (List Bool)
  | 0 => some []
  | n + 1 => do
    let (e, s) ← melNext s
    let es ← readEvents s n
    return e :: es

/-- Read VLC codewords of the given lengths: fetch 32 bits, keep the low `n`, consume `n`
(ht_block_decoding.hpp 451-452, 466 etc.). -/
def readCodewords (s : BitRd) : List Nat → Option (List Nat)
  | [] => some []
  | n :: ns => do
    let (v, s) := revFetch s
    let s ← s.advance n
    let vs ← readCodewords s ns
    return v % 2 ^ n :: vs

theorem readEvents_spec (es : List Bool) (s : MelSt) (h : EvRep s es) :
    readEvents s es.length = some es := by
  induction es generalizing s with
  | nil => rfl
  | cons e es ih =>
    obtain ⟨s', e1, h'⟩ := h.next
    simp only [List.length_cons, readEvents, e1, Option.bind_eq_bind, Option.bind_some]
    rw [ih s' h']
    rfl

theorem readCodewords_spec (cs : List (Nat × Nat)) (hcs : ∀ c ∈ cs, c.2 ≤ 32) (s : BitRd)
    (h : Rep revDisc 0 s (fieldBits cs)) :
    readCodewords s (cs.map Prod.snd) = some (cs.map fun c => c.1 % 2 ^ c.2) := by
  induction cs generalizing s with
  | nil => rfl
  | cons c cs ih =>
    have hl := hcs c (by simp)
    rw [show fieldBits (c :: cs) = bitsLE c.2 c.1 ++ fieldBits cs by simp [fieldBits]] at h
    obtain ⟨s1, e1, r1, b1⟩ := h.revFetch_spec
    obtain ⟨s2, e2, r2, -, -, hb⟩ := r1.advance_spec (bitsLE_length _ _) (by omega)
    have hval : s1.creg % 2 ^ 32 % 2 ^ c.2 = c.1 % 2 ^ c.2 := by
      apply eq_of_bitsLE (Nat.mod_lt _ (by positivity)) (Nat.mod_lt _ (by positivity))
      rw [bitsLE_mod _ le_rfl, bitsLE_mod _ le_rfl, bitsLE_mod _ hl]
      exact hb
    simp only [List.map_cons, readCodewords, e1, e2, Option.bind_eq_bind, Option.bind_some]
    rw [ih (fun g hg => hcs g (by simp [hg])) s2 r2]
    simp only [Option.bind_some, hval]
    rfl

theorem encodeCup_spec {ms : List Nat} {es : List Bool} {cs : List (Nat × Nat)} {d : List Nat}
    (h : encodeCup ms es cs = some d) :
    ∃ seg, openCup d = some (ms, seg) ∧ SegOk seg (fieldBits cs) (encBits 0 0 es) := by
  obtain ⟨vlc, bs, e1, i1⟩ := VlcInv.init.emitAll cs
  unfold encodeCup at h
  rw [e1] at h
  simp only [Option.bind_eq_bind, Option.bind_some] at h
  obtain ⟨seg, e2, e3⟩ := Option.bind_eq_some_iff.mp h
  obtain ⟨hok, hlen⟩ := termMelVlc_spec (melEncode_inv es) i1 e2
  exact ⟨seg, hok.openCup hlen e3, hok⟩

/-- **C32.**  Whatever MEL events were encoded, the decoder opens the resulting cleanup segment and
reads the same events back, for every buffer alignment `p`, whatever VLC codewords and MagSgn bytes
the segment also carries. -/
theorem C32_mel_round_trip (ms : List Nat) (es : List Bool) (cs : List (Nat × Nat)) (d : List Nat)
    (h : encodeCup ms es cs = some d) (p : Nat) :
    ∃ seg s, openCup d = some (ms, seg) ∧ melStart p seg = some s ∧ readEvents s es.length = some es := by
  obtain ⟨seg, ho, hok⟩ := encodeCup_spec h
  obtain ⟨s, e, r⟩ := hok.mel_rep p
  exact ⟨seg, s, ho, e, readEvents_spec es s r⟩

/-- **C34.**  Whatever VLC codewords (of at most 32 bits) were emitted, the decoder opens the
resulting cleanup segment and reads the same codewords back, for every buffer alignment `p`, whatever
MEL events and MagSgn bytes the segment also carries. -/
theorem C34_vlc_round_trip (ms : List Nat) (es : List Bool) (cs : List (Nat × Nat)) (d : List Nat)
    (h : encodeCup ms es cs = some d) (hcs : ∀ c ∈ cs, c.2 ≤ 32) (p : Nat) (hp : p < 4) :
    ∃ seg s, openCup d = some (ms, seg) ∧ revInit p seg = some s ∧
      readCodewords s (cs.map Prod.snd) = some (cs.map fun c => c.1 % 2 ^ c.2) := by
  obtain ⟨seg, ho, hok⟩ := encodeCup_spec h
  obtain ⟨s, e, r⟩ := hok.vlc_rep hp
  exact ⟨seg, s, ho, e, readCodewords_spec cs hcs s r⟩

/-- **C34.**  The bit loop of the VLC writer always finishes: encoding can only fail because the
streams outgrow their buffers. -/
theorem C34_vlc_writer_total (cs : List (Nat × Nat)) : ∃ vlc, VlcEnc.init.emitAll cs = some vlc := by
  obtain ⟨vlc, bs, e1, i1⟩ := VlcInv.init.emitAll cs
  exact ⟨vlc, e1⟩

/-- The streams fuse their last bytes, the VLC stream needs stuffing, and both are recovered. -/
example : encodeCup [7, 8] [false, false, true, false, true, true] [(0x7F, 7), (0x3FF, 10), (5, 3)] =
      some [7, 8, 0xD2, 0x7F, 0xFF, 0x75, 0] ∧
    openCup [7, 8, 0xD2, 0x7F, 0xFF, 0x75, 0] = some ([7, 8], [0xD2, 0x7F, 0xFF, 0x7F, 0xFF]) := by
  decide +kernel

end Verif.Ht
