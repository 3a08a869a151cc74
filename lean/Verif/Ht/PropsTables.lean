import Verif.Ht.TableLemmas

/-!
# C35: the VLC and UVLC tables of encoder and decoder agree

Encoder entries (ht_block_encoding.cpp 529-533): bits 0-3 known-exponent pattern, bits 4-6 length, from
bit 7 the codeword, first bit lowest.  Decoder entries (ht_block_decoding.hpp 452-466 and
ht_block_decoding.cpp 135-153): bit 0 `u_off`, bits 1-3 length, bits 4-7 significance, bits 8-11 `e_1`,
bits 12-15 `e_k`.  `v` stands for the whole rest of the bit stream, first bit lowest, so the hypothesis on
`v` says only that the stream continues with the codeword.
-/

namespace Verif.Ht

/-- C35, significance and exponent patterns.  Whatever follows the codeword, the decoder sees the
significance pattern `rho`, learns whether the exponent pattern `emb` is non-empty, consumes exactly the
length of the codeword, and knows the positions `e_k` the encoder relied on and the values `e_1` of `emb`
there.  Context 0 with an empty pattern has no codeword; it is signalled by the MEL coder. -/
theorem C35_vlc_tables_agree (first : Bool) (ctx rho emb v : Nat) (hctx : ctx < 8) (hrho : rho < 16)
    (hemb : emb &&& rho = emb) (hne : ctx ≠ 0 ∨ rho ≠ 0) :
    let e := tab (if first then encVlc0 else encVlc1) (emb + 16 * rho + 256 * ctx)
    let t := tab (if first then decVlc0 else decVlc1) (v % 128 + 128 * ctx)
    v % 2 ^ ((e >>> 4) &&& 7) = e >>> 7 →
      (t >>> 4) % 16 = rho ∧ t % 2 = (if emb ≠ 0 then 1 else 0) ∧ (t >>> 1) % 8 = (e >>> 4) &&& 7 ∧
        t >>> 12 = e &&& 15 ∧ (t >>> 8) % 16 = emb &&& (e &&& 15) := by
  intro e t hv
  have := vlcEntry_dec first hctx hrho hemb hne v hv
  show (tab (decVlc first) _ >>> 4) % 16 = _ ∧ tab (decVlc first) _ % 2 = _ ∧ (tab (decVlc first) _ >>> 1) % 8 = _ ∧
    tab (decVlc first) _ >>> 12 = _ ∧ (tab (decVlc first) _ >>> 8) % 16 = _
  rw [this]
  exact tval_fields hrho

/-- C35, well-formedness of the encoder entries: the codeword fits its length, exponents are only
assumed known at significant positions, and only when the exponent pattern is non-empty. -/
theorem C35_vlc_entries_wellformed (first : Bool) (ctx rho emb : Nat) (hctx : ctx < 8) (hrho : rho < 16)
    (hemb : emb &&& rho = emb) :
    let e := tab (if first then encVlc0 else encVlc1) (emb + 16 * rho + 256 * ctx)
    e >>> 7 < 2 ^ ((e >>> 4) &&& 7) ∧ (e &&& 15) &&& rho = e &&& 15 ∧ (emb = 0 → e &&& 15 = 0) :=
  let h := vlcEntry_facts first hctx hrho hemb
  ⟨h.1, h.2.1, h.2.2.1⟩

/-- C35, exponent residuals.  For every pair of residuals, whatever follows the codeword, the decoder
reads back both, and prefix and suffix together have the length of the codeword.  The decoder's row is
chosen by which residuals are non-zero and, in the initial line-pair, by the MEL event that tells whether
both exceed 2. -/
theorem C35_uvlc_tables_agree (first : Bool) (u0 u1 v : Nat) (h0 : u0 < 32) (h1 : u1 < 32) :
    let w := uvlcWord (tab (if first then encUvlc0 else encUvlc1) (u0 + 32 * u1))
    let r := tab (if first then decUvlc0 else decUvlc1)
      (v % 64 + ((if u0 ≠ 0 then 64 else 0) + (if u1 ≠ 0 then 128 else 0) +
        (if first = true ∧ u0 ≠ 0 ∧ u1 ≠ 0 ∧ 2 < min u0 u1 then 64 else 0)))
    v % 2 ^ w.2 = w.1 →
      (r &&& 7) + ((r >>> 3) &&& 15) = w.2 ∧
        uvlcValues r (v / 2 ^ (r &&& 7) % 2 ^ ((r >>> 3) &&& 15)) = (u0, u1) :=
  fun hv => uvlcEntry_dec first h0 h1 v hv

/-- C35: a UVLC codeword fits its length, which is at most 16. -/
theorem C35_uvlc_entries_wellformed (first : Bool) (u0 u1 : Nat) (h0 : u0 < 32) (h1 : u1 < 32) :
    let w := uvlcWord (tab (if first then encUvlc0 else encUvlc1) (u0 + 32 * u1))
    w.1 < 2 ^ w.2 ∧ w.2 ≤ 16 :=
  uvlcEntry_facts first h0 h1

/-- Context 1, `rho = 13`, `emb = 5`: a non-empty codeword, with further bits after it. -/
example : (5 &&& 13 = 5) ∧
    (let e := tab encVlc1 (5 + 16 * 13 + 256 * 1)
     (1000 * 2 ^ ((e >>> 4) &&& 7) + e >>> 7) % 2 ^ ((e >>> 4) &&& 7) = e >>> 7 ∧ 0 < (e >>> 4) &&& 7) := by
  decide +kernel

/-- Residuals 7 and 3 in the initial line-pair, followed by arbitrary bits. -/
example :
    let w := uvlcWord (tab encUvlc0 (7 + 32 * 3))
    (77 * 2 ^ w.2 + w.1) % 2 ^ w.2 = w.1 ∧ 0 < w.2 := by
  decide +kernel

end Verif.Ht
