import Verif.Ht.RefPasses

/-!
# C59, C60: HT refinement passes

Specification: RefSpec.lean (`Member`, `Before`, `Nbr`), `MarkerFree` (RefStreams.lean: every 0xFF is followed by a byte of at
most 0x8F) and the two readers below, which only ask for the next bits.
-/

namespace Verif.Ht

/-- The next `n` bits of the SigProp stream. -/
def readSp (D : Nat → Option Nat) (lref : Nat) : Nat → SpDec → Option (List Nat)
  | 0, _ => some []
  | n + 1, s => do
    let (b, s) ← s.bit D lref
    let r ← readSp D lref n s
    return b :: r

/-- The next `n` bits of the MagRef stream. -/
def readMr (D : Nat → Option Nat) : Nat → MrDec → Option (List Nat)
  | 0, _ => some []
  | n + 1, s => do
    let (b, s) ← s.bit D
    let r ← readMr D n s
    return b :: r

theorem readSp_eq {D : Nat → Option Nat} {seg : List Nat} (hD : Shows D seg) : ∀ (L : List Bool) (s : SpDec), SpRep seg s L →
    readSp D seg.length L.length s = some (L.map Bool.toNat)
  | [], _, _ => rfl
  | b :: L, s, h => by
    obtain ⟨s', e, h'⟩ := h.bit hD
    simp only [List.length_cons, readSp, e, Option.bind_eq_bind, Option.bind_some, readSp_eq hD L s' h', List.map_cons, Option.pure_def]

theorem readMr_eq {D : Nat → Option Nat} {seg : List Nat} (hD : Shows D seg) : ∀ (L : List Bool) (s : MrDec), MrRep seg s L →
    readMr D L.length s = some (L.map Bool.toNat)
  | [], _, _ => rfl
  | b :: L, s, h => by
    obtain ⟨s', e, h'⟩ := h.bit hD
    simp only [List.length_cons, readMr, e, Option.bind_eq_bind, Option.bind_some, readMr_eq hD L s' h', List.map_cons, Option.pure_def]

/-- C59.  Whatever bits the two passes send, up to 14315 of them together, the writers do not meet in their shared buffer,
and the segment `termSPandMR` leaves gives both streams back, the SigProp reader running forwards from its first byte and the
MagRef reader backwards from its last; where the two meet in one byte neither disturbs the other.  The bytes around the
segment do not matter. -/
theorem refinement_streams_roundtrip (S M : List Bool) (hcap : S.length + M.length ≤ 14315) :
    ∃ seg, refSegment S M = some seg ∧ ∀ D : Nat → Option Nat, (∀ k < seg.length, D k = seg[k]?) →
      readSp D seg.length S.length SpDec.init = some (S.map Bool.toNat) ∧
      readMr D M.length (MrDec.init seg.length) = some (M.map Bool.toNat) := by
  have hs := SpInv.init.emitAll S
  have hm := MrInv.init.emitAll M
  rw [List.nil_append] at hs hm
  have a1 := hs.length; have a2 := hm.length
  refine ⟨_, by unfold refSegment; exact if_pos (by unfold maxLref; omega), fun D hD => ?_⟩
  obtain ⟨p1, p2⟩ := termSpMr_spec hs hm
  exact ⟨readSp_eq hD _ _ (SpRep.start (n := 0) (by simpa using p1)), readMr_eq hD _ _ (MrRep.start p2)⟩

example : refSegment [true, false, true, true, true, true, true, true, true, true, true] [true, true, true, true, true, true, true, true, false, true] =
    some [0xFD, 0x07, 0x05, 0x7F] := by decide +kernel

/-- The fused byte: two bits of each stream in one byte. -/
example : refSegment [true, false] [true, false] = some [0x01] ∧ refSegment [true, false] [false, true] = some [0x01, 0x02] := by
  decide +kernel

/-- C59.  The segment consists of bytes, imitates no marker (in particular it does not end in 0xFF), and costs at most two
bytes more than the bits packed seven to a byte. -/
theorem refinement_segment_markerfree (S M : List Bool) {seg : List Nat} (h : refSegment S M = some seg) :
    (∀ b ∈ seg, b < 256) ∧ MarkerFree seg ∧ 7 * seg.length ≤ S.length + M.length + 14 := by
  have hs := SpInv.init.emitAll S
  have hm := MrInv.init.emitAll M
  rw [List.nil_append] at hs hm
  unfold refSegment at h
  dsimp only at h
  split_ifs at h
  obtain rfl := Option.some.inj h
  refine ⟨termSpMr_bytes hs hm, termSpMr_markerFree hs hm, ?_⟩
  have a1 := hs.length; have a2 := hm.length
  unfold termSpMr
  dsimp only
  split_ifs <;> simp only [List.length_append, List.length_reverse, List.length_singleton] <;> omega

example : refSegment (List.replicate 15 true) [] = some [0xFF, 0x7F] ∧ refSegment [] (List.replicate 15 true) = some [0xFF, 0x7F] := by
  decide +kernel

/-- C59.  The SigProp stream alone (`SP_enc::termSP`): trailing zero bits are dropped, the reader supplies them. -/
theorem sigprop_stream_roundtrip (S : List Bool) (D : Nat → Option Nat)
    (hD : ∀ k < (S.foldl SpEnc.emit SpEnc.init).term.length, D k = (S.foldl SpEnc.emit SpEnc.init).term[k]?) :
    readSp D (S.foldl SpEnc.emit SpEnc.init).term.length S.length SpDec.init = some (S.map Bool.toNat) := by
  have hs := SpInv.init.emitAll S
  rw [List.nil_append] at hs
  exact readSp_eq hD _ _ (SpRep.start (n := 1) (SpEnc.term_spec hs))

example : ([true, false, false, false, false, false, false, false, true, false, false].foldl SpEnc.emit SpEnc.init).term = [1, 1] ∧
    ((List.replicate 8 true ++ [false, false]).foldl SpEnc.emit SpEnc.init).term = [0xFF, 0] := by decide +kernel

/-! ## C60 -/

/-- C60.  Round trip of the two passes.  Start from an encoder's block `b` (significance, next magnitude bit and sign of every
sample) and a decoder's block `d` that the cleanup pass has left with the same significance: significant samples are odd
multiples `(2m+1)·2^p` — magnitude and sign above bit `p`, the centre of the interval at bit `p` — and the others are zero.  The
encoder succeeds, and after both decoding passes on its segment every significant sample has its next magnitude bit at bit
`p` and the centre of the halved interval below; an insignificant sample holds its sign and `1.1₂·2^p` if it is a member with
a nonzero bit, and stays zero otherwise.  Samples outside the block are not touched. -/
theorem refinement_passes_roundtrip (b d : RBlk) (hb : Fresh b) (hd : Fresh d) (hsame : SameSig b d) (hsz : b.w * b.h ≤ 4096)
    (p : Nat) (hp : 1 ≤ p) (hp30 : p ≤ 30) (m : Nat × Nat → Nat)
    (hsig : ∀ x, b.has x → b.sig x = true → d.smp x.1 x.2 = (2 * m x + 1) * 2 ^ p ∧ d.smp x.1 x.2 < 2 ^ 32)
    (hins : ∀ x, b.has x → b.sig x = false → d.smp x.1 x.2 = 0) :
    ∃ seg, refineEncode b = some seg ∧ ∀ D : Nat → Option Nat, (∀ k < seg.length, D k = seg[k]?) →
      ∃ d1 d2, sigpropDecode D seg.length p d = some d1 ∧ magrefDecode D seg.length p d1 = some d2 ∧
        (∀ x, b.has x → b.sig x = true → d2.smp x.1 x.2 = (4 * m x + 2 * (b.mag x).toNat + 1) * 2 ^ (p - 1)) ∧
        (∀ x, Member b x → b.mag x = true → d2.smp x.1 x.2 = (b.neg x).toNat * 2 ^ 31 + 3 * 2 ^ (p - 1)) ∧
        (∀ x, b.has x → b.sig x = false → ¬ (Member b x ∧ b.mag x = true) → d2.smp x.1 x.2 = 0) ∧
        (∀ x, ¬ b.has x → d2.smp x.1 x.2 = d.smp x.1 x.2) := by
  have hs := SpInv.init.emitAll ((groups b.w b.h).flatMap (gBits b))
  have hm := MrInv.init.emitAll ((magScan b.w b.h).flatMap (rBits b))
  rw [List.nil_append] at hs hm
  obtain ⟨p1, p2⟩ := termSpMr_spec hs hm
  refine ⟨_, refineEncode_eq hb hsz, fun D hD => ?_⟩
  obtain ⟨d1, e1, h1, v1⟩ := sigpropDecode_eq hb hd hsame hD (by omega : p ≠ 0) (SpRep.start (n := 0) (by simpa using p1))
  obtain ⟨d2, e2, v2⟩ := magrefDecode_eq h1.w h1.h h1.s0 hD (by omega : p ≠ 0) (MrRep.start p2)
  have hmem : ∀ x, x ∈ magScan b.w b.h ↔ b.has x := fun x => mem_magScan
  have z1 : ∀ x, b.has x → b.sig x = true → d1.smp x.1 x.2 = d.smp x.1 x.2 := by
    rintro ⟨i, j⟩ h2 h3
    have hn : ¬ (Member b (i, j) ∧ b.mag (i, j) = true) := fun hc => by rw [hc.1.insig] at h3; simp at h3
    rw [v1 i j]; simp [spAmt, spSgn, hn]
  have z2 : ∀ x, b.sig x = false → d2.smp x.1 x.2 = d1.smp x.1 x.2 := by
    rintro ⟨i, j⟩ h3
    rw [v2 i j]; simp [h3]
  refine ⟨d1, d2, e1, e2, ?_, ?_, ?_, ?_⟩
  · rintro ⟨i, j⟩ h2 h3
    obtain ⟨q1, q2⟩ := hsig _ h2 h3
    have := z1 _ h2 h3
    dsimp only at *
    rw [v2 i j, if_pos ⟨h2, h3⟩, this]
    exact mrVal_eq (by omega) _ q1 q2
  · rintro ⟨i, j⟩ h2 h3
    rw [z2 _ h2.insig]
    have h4 := hins _ h2.has h2.insig
    dsimp only at *
    have hx : (i, j) ∈ magScan b.w b.h := (hmem _).mpr h2.has
    rw [v1 i j, if_pos hx, if_pos hx, h4, Nat.zero_or, spAmt, if_pos ⟨h2, h3⟩, spSgn, if_pos ⟨h2, h3⟩]
    exact spVal_eq (by omega) hp30 _
  · rintro ⟨i, j⟩ h2 h3 h5
    rw [z2 _ h3]
    have h4 := hins _ h2 h3
    dsimp only at *
    rw [v1 i j, h4, spAmt, if_neg h5, spSgn, if_neg h5]
    simp
  · rintro ⟨i, j⟩ h2
    have hx : (i, j) ∉ magScan b.w b.h := fun hc => h2 ((hmem _).mp hc)
    dsimp only
    rw [v2 i j, if_neg (fun hc => h2 hc.1), v1 i j, if_neg hx, if_neg hx]; simp

/-- A block three samples wide and six high with one significant sample, in the second stripe. -/
def refExample (causal : Bool) : RBlk :=
  ⟨3, 6, causal, fun r c => if r = 5 ∧ c = 2 then 0x21 else if r = 4 ∧ c = 1 then 0x60 else if r = 3 ∧ c = 1 then 0x20
    else if r = 6 ∧ c = 3 then 0x60 else if r = 1 ∧ c = 1 then 0x20 else 0, fun _ _ => 0⟩

/-- The same block after the decoder's cleanup pass. -/
def refExampleDec (causal : Bool) : RBlk :=
  ⟨3, 6, causal, fun r c => if r = 5 ∧ c = 2 then 1 else 0, fun i j => if i = 4 ∧ j = 1 then 2 ^ 31 + 5 * 2 ^ 4 else 0⟩

example (ca : Bool) : Fresh (refExample ca) ∧ Fresh (refExampleDec ca) ∧ SameSig (refExample ca) (refExampleDec ca) := by
  refine ⟨⟨?_, ?_, ?_⟩, ⟨?_, ?_, ?_⟩, rfl, rfl, rfl, ?_⟩
  · intro r c; simp only [refExample]; split_ifs <;> decide
  · intro r c; simp only [refExample]; split_ifs <;> decide
  · intro r c h; simp only [refExample] at *; rw [if_neg (by omega)]; split_ifs <;> decide
  · intro r c; simp only [refExampleDec]; split_ifs <;> decide
  · intro r c; simp only [refExampleDec]; split_ifs <;> decide
  · intro r c h; simp only [refExampleDec] at *; rw [if_neg (by omega)]; decide
  · intro r c; simp only [refExampleDec, refExample]; split_ifs <;> decide

/-- Its passes: with the causal mode the first stripe does not see the significant sample, without it one more sample is a
member.  The sample above that one, nonzero too, was scanned before it and is no member either way. -/
def refExampleRun (causal : Bool) : Option (List Nat × List (List Nat)) := do
  let seg ← refineEncode (refExample causal)
  let d1 ← sigpropDecode (fun k => seg[k]?) seg.length 4 (refExampleDec causal)
  let d2 ← magrefDecode (fun k => seg[k]?) seg.length 4 d1
  return (seg, (List.range 6).map fun i => (List.range 3).map fun j => d2.smp i j)

example : refExampleRun true = some ([48, 1], [[0, 0, 0], [0, 0, 0], [0, 0, 0], [0, 0, 0], [0, 2 ^ 31 + 11 * 2 ^ 3, 0],
    [0, 0, 2 ^ 31 + 3 * 2 ^ 3]]) ∧
    refExampleRun false = some ([17, 6, 1], [[0, 0, 0], [0, 0, 0], [0, 0, 0], [2 ^ 31 + 3 * 2 ^ 3, 0, 0],
      [0, 2 ^ 31 + 11 * 2 ^ 3, 0], [0, 0, 2 ^ 31 + 3 * 2 ^ 3]]) := by decide +kernel

end Verif.Ht
