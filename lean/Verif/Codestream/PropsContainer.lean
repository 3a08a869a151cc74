import Verif.Codestream.PropsSafe
import Verif.Codestream.Container
/-
C52: the tile-parts of a codestream.  Also the part of C48 that concerns tile-part headers.
-/
namespace Verif.Cs
open Verif.Jph (putWord putDword putWord_eq putDword_eq)
open Verif.Jpip (be16 be32 be16_length be32_length be16_val)

/-! ### The declared length is kept -/

theorem rbind_ok {α β : Type} {f : Rd α} {g : α → Rd β} {m m' : Mk} {v : β} (h : (f >>= g) m = .ok (v, m')) :
    ∃ a m1, f m = .ok (a, m1) ∧ g a m1 = .ok (v, m') := by
  have hb : (f >>= g) m = (f m).bind fun r => g r.1 r.2 := rfl
  rw [hb] at h
  cases hf : f m with
  | ok r => rw [hf] at h; exact ⟨r.1, r.2, rfl, h⟩
  | throws => rw [hf] at h; cases h
  | ub => rw [hf] at h; cases h

theorem rlmar_ok {β : Type} {g : Nat → Rd β} {m m' : Mk} {v : β} (h : (rLmar >>= g) m = .ok (v, m')) :
    g m.lmar m = .ok (v, m') := h

theorem rpure_ok {α : Type} {a v : α} {m m' : Mk} (h : (pure a : Rd α) m = .ok (v, m')) : v = a := by
  have := (Prod.mk.inj (Out.ok.inj h)).1
  exact this.symm

theorem cod_lmar {m m' : Mk} {v : Cod} (h : readCod m = .ok (v, m')) : v.lmar = m.lmar := by
  obtain ⟨_, _, -, h⟩ := rbind_ok (rlmar_ok h)
  obtain ⟨_, _, -, h⟩ := rbind_ok h
  obtain ⟨_, _, -, h⟩ := rbind_ok h
  obtain ⟨_, _, -, h⟩ := rbind_ok h
  obtain ⟨_, _, -, h⟩ := rbind_ok h
  rw [rpure_ok h]

theorem coc_lmar {c : Nat} {m m' : Mk} {v : Coc} (h : readCoc c m = .ok (v, m')) : v.lmar = m.lmar := by
  obtain ⟨_, _, -, h⟩ := rbind_ok (rlmar_ok h)
  obtain ⟨_, _, -, h⟩ := rbind_ok h
  obtain ⟨_, _, -, h⟩ := rbind_ok h
  rw [rpure_ok h]

theorem raw_lmar {m m' : Mk} {v : Raw} (h : readRaw m = .ok (v, m')) : v.lmar = m.lmar := by
  obtain ⟨_, _, -, h⟩ := rbind_ok (rlmar_ok h)
  obtain ⟨_, _, -, h⟩ := rbind_ok h
  rw [rpure_ok h]

theorem qcd_lmar {m m' : Mk} {v : Qcd} (h : readQcd m = .ok (v, m')) : v.lmar = m.lmar := by
  obtain ⟨_, _, -, h⟩ := rbind_ok (rlmar_ok h)
  obtain ⟨_, _, -, h⟩ := rbind_ok h
  obtain ⟨_, _, -, h⟩ := rbind_ok h
  rw [rpure_ok h]

theorem qcc_lmar {c : Nat} {m m' : Mk} {v : Qcc} (h : readQcc c m = .ok (v, m')) : v.lmar = m.lmar := by
  obtain ⟨_, _, -, h⟩ := rbind_ok (rlmar_ok h)
  obtain ⟨_, _, -, h⟩ := rbind_ok h
  obtain ⟨_, _, -, h⟩ := rbind_ok h
  rw [rpure_ok h]

theorem rgn_lmar {c : Nat} {m m' : Mk} {v : Nat × Nat × Nat × Nat} (h : readRgn c m = .ok (v, m')) : v.1 = m.lmar := by
  obtain ⟨_, _, -, h⟩ := rbind_ok (rlmar_ok h)
  obtain ⟨_, _, -, h⟩ := rbind_ok h
  obtain ⟨_, _, -, h⟩ := rbind_ok h
  rw [rpure_ok h]

theorem poc_lmar {c : Nat} {m m' : Mk} {v : Nat × List PocEntry} (h : readPoc c m = .ok (v, m')) : v.1 = m.lmar := by
  obtain ⟨_, _, -, h⟩ := rbind_ok (rlmar_ok h)
  rw [rpure_ok h]

theorem com_lmar {m m' : Mk} {v : Com} (h : readCom m = .ok (v, m')) : v.lmar = m.lmar := by
  obtain ⟨_, _, -, h⟩ := rbind_ok (rlmar_ok h)
  obtain ⟨_, _, -, h⟩ := rbind_ok h
  rw [rpure_ok h]

/-! ### Tile-part headers -/

/-- Between `p` and `q` there is a segment whose length field is 0 or 1. -/
def Short (d : List UInt8) (p q : Nat) : Prop :=
  ∃ i, p ≤ i ∧ i + 4 ≤ q ∧ d[i + 2]? = some (0 : UInt8) ∧ (d[i + 3]? = some (0 : UInt8) ∨ d[i + 3]? = some (1 : UInt8))

theorem Short.mono {d : List UInt8} {p q p' q' : Nat} (h : Short d p q) (hp : p' ≤ p) (hq : q ≤ q') : Short d p' q' := by
  obtain ⟨i, h1, h2, h3⟩ := h
  exact ⟨i, by omega, by omega, h3⟩

theorem stays_mono {α : Type} {d : List UInt8} {p p' : Nat} {P : α → Nat → Prop} {o : Out (α × Src)} (h : Stays d p' P o)
    (hp : p ≤ p') : Stays d p P o := by
  cases o with
  | ok r =>
    obtain ⟨a, b, c, e⟩ := h
    exact ⟨a, Nat.le_trans hp b, c, e⟩
  | throws => trivial
  | ub => exact h

theorem tpStep_stays {d pad : List UInt8} {p csiz : Nat} {h : TpHdr} (h0 : d ≠ []) (hl : d.length + 2 ^ 16 ≤ 2 ^ 32)
    (hp : p + 1 < d.length) (hpad : 2 ≤ pad.length) (w : Nat) :
    Stays d (p + 2) (fun v q => q = p + v.2 ∨ Short d p q) (h.step pad csiz w ⟨d, p + 2⟩) := by
  have hl32 : d.length < 2 ^ 32 := by omega
  have seg : ∀ {α : Type} (f : Rd α) (len : α → Nat) (upd : α → TpHdr), Safe f → (∀ m v m', f m = .ok (v, m') → len v = m.lmar) →
      Stays d (p + 2) (fun v q => q = p + v.2 ∨ Short d p q)
        ((segment pad f ⟨d, p + 2⟩).bind fun r => .ok ((upd r.1, len r.1 + 2), r.2)) := by
    intro α f len upd hf hlen
    have h1 : Stays d (p + 2 + 2) (fun v q => q = p + 2 + len v) (segment pad f ⟨d, p + 2⟩) := by
      refine segment_stays h0 hl32 (by omega) hpad hf fun L m v m' _ _ _ hfit _ hv => ?_
      rw [hlen m v m' hv, hfit.1]
    exact stays_mono (h1.bind (g := fun v => (upd v, len v + 2)) (Q := fun v q => q = p + v.2 ∨ Short d p q)
      (fun v q _ _ hv => Or.inl (by show q = p + (len v + 2); omega))) (by omega)
  rw [TpHdr.step]
  by_cases c1 : w = 0xFF52
  · rw [if_pos c1]; exact seg readCod Cod.lmar (fun r => { h with cod := some r }) safe_cod (fun _ _ _ => cod_lmar)
  rw [if_neg c1]
  by_cases c2 : w = 0xFF53
  · rw [if_pos c2]; exact seg (readCoc csiz) Coc.lmar (fun r => { h with coc := h.coc ++ [r] }) (safe_coc _) (fun _ _ _ => coc_lmar)
  rw [if_neg c2]
  by_cases c3 : w = 0xFF58
  · rw [if_pos c3]; exact seg readRaw Raw.lmar (fun r => { h with plt := h.plt ++ [r] }) safe_raw (fun _ _ _ => raw_lmar)
  rw [if_neg c3]
  by_cases c4 : w = 0xFF5C
  · rw [if_pos c4]; exact seg readQcd Qcd.lmar (fun r => { h with qcd := some r }) safe_qcd (fun _ _ _ => qcd_lmar)
  rw [if_neg c4]
  by_cases c5 : w = 0xFF5D
  · rw [if_pos c5]; exact seg (readQcc csiz) Qcc.lmar (fun r => { h with qcc := h.qcc ++ [r] }) (safe_qcc _) (fun _ _ _ => qcc_lmar)
  rw [if_neg c5]
  by_cases c6 : w = 0xFF5E
  · rw [if_pos c6]; exact seg (readRgn csiz) Prod.fst (fun r => { h with rgn := h.rgn ++ [r] }) (safe_rgn _) (fun _ _ _ => rgn_lmar)
  rw [if_neg c6]
  by_cases c7 : w = 0xFF5F
  · rw [if_pos c7]; exact seg (readPoc csiz) Prod.fst (fun r => { h with poc := some r }) (safe_poc _) (fun _ _ _ => poc_lmar)
  rw [if_neg c7]
  by_cases c8 : w = 0xFF61
  · rw [if_pos c8]; exact seg readRaw Raw.lmar (fun r => { h with ppt := h.ppt ++ [r] }) safe_raw (fun _ _ _ => raw_lmar)
  rw [if_neg c8]
  by_cases c9 : w = 0xFF64
  · rw [if_pos c9]; exact seg readCom Com.lmar (fun r => { h with com := h.com ++ [r] }) safe_com (fun _ _ _ => com_lmar)
  rw [if_neg c9]
  by_cases c10 : w < 0xFF30 ∨ 0xFF3F < w
  · rw [if_pos c10, getWord_eq h0 hl32 (by omega)]
    by_cases h1 : p + 2 + 1 < d.length
    · rw [dif_pos h1]
      generalize hL : (d[p + 2].toNat * 256 + d[p + 2 + 1].toNat) = L
      have hb1 := d[p + 2].toNat_lt
      have hb2 := d[p + 2 + 1].toNat_lt
      show Stays d (p + 2) _ (Out.bind (if 2 ≤ L then Src.forward ⟨d, p + 2 + 2⟩ (L - 2) else .ok ⟨d, p + 2 + 2⟩) _)
      by_cases h2 : 2 ≤ L
      · rw [if_pos h2, stays_forward hl (by omega) (by omega)]
        by_cases h3 : p + 2 + 2 + (L - 2) ≤ d.length
        · rw [if_pos h3]
          exact ⟨rfl, show p + 2 ≤ p + 2 + 2 + (L - 2) by omega, h3, Or.inl (show p + 2 + 2 + (L - 2) = p + (2 + L) by omega)⟩
        · rw [if_neg h3]; trivial
      · rw [if_neg h2]
        refine ⟨rfl, show p + 2 ≤ p + 2 + 2 by omega, show p + 2 + 2 ≤ d.length by omega, Or.inr ⟨p, Nat.le_refl _, Nat.le_refl _, ?_, ?_⟩⟩
        · rw [List.getElem?_eq_getElem (by omega)]
          congr 1
          refine UInt8.toNat_inj.mp ?_
          show d[p + 2].toNat = 0
          omega
        · rw [show p + 3 = p + 2 + 1 from rfl, List.getElem?_eq_getElem h1]
          by_cases hz : d[p + 2 + 1].toNat = 0
          · left
            congr 1
            exact UInt8.toNat_inj.mp hz
          · right
            congr 1
            refine UInt8.toNat_inj.mp ?_
            show d[p + 2 + 1].toNat = 1
            omega
    · rw [dif_neg h1]; trivial
  · rw [if_neg c10]
    exact ⟨rfl, Nat.le_refl _, show p + 2 ≤ d.length by omega, Or.inl rfl⟩

theorem tpLoop_stays {d pad : List UInt8} {csiz : Nat} (h0 : d ≠ []) (hl : d.length + 2 ^ 16 ≤ 2 ^ 32) (hpad : 2 ≤ pad.length)
    (p0 : Nat) (fuel : Nat) :
    ∀ (h : TpHdr) (n p : Nat), p0 ≤ p → p ≤ d.length → (d.length - p) / 2 < fuel → (n + p0 = 14 + p ∨ Short d p0 p) →
      ∃ o, (∀ k, TpHdr.loop pad csiz (fuel + k) h n ⟨d, p⟩ = some o) ∧
        Stays d (p + 2) (fun v q => v.2 + p0 = 12 + q ∨ Short d p0 q) o := by
  induction fuel with
  | zero => intro h n p _ _ hf; omega
  | succ fuel ih =>
    intro h n p hpp hp hf hn
    have hw := getWord_eq h0 (by omega) hp
    by_cases h1 : p + 1 < d.length
    · rw [dif_pos h1] at hw
      generalize hW : (d[p].toNat * 256 + d[p + 1].toNat) = w at hw
      by_cases hs : w = 0xFF93
      · refine ⟨.ok ((h, n), ⟨d, p + 2⟩), fun k => ?_, rfl, Nat.le_refl _, show p + 2 ≤ d.length by omega, ?_⟩
        · rw [show fuel + 1 + k = fuel + k + 1 by omega, TpHdr.loop, hw]
          simp only
          rw [if_pos hs]
        · rcases hn with hn | hn
          · left; show n + p0 = 12 + (p + 2); omega
          · right; exact hn.mono (Nat.le_refl _) (show p ≤ p + 2 by omega)
      · have hst := tpStep_stays (csiz := csiz) (h := h) h0 hl h1 hpad w
        cases ho : h.step pad csiz w ⟨d, p + 2⟩ with
        | throws =>
          refine ⟨.throws, fun k => ?_, trivial⟩
          rw [show fuel + 1 + k = fuel + k + 1 by omega, TpHdr.loop, hw]
          simp only
          rw [if_neg hs, ho]
        | ub => rw [ho] at hst; exact hst.elim
        | ok r =>
          obtain ⟨⟨h', k'⟩, ⟨d', p'⟩⟩ := r
          rw [ho] at hst
          obtain ⟨hd', hb, hc, he⟩ := hst
          simp only at hd' hb hc he
          subst hd'
          have hn' : (n + k') % 2 ^ 32 + p0 = 14 + p' ∨ Short d' p0 p' := by
            rcases hn with hn | hn
            · rcases he with he | he
              · left
                rw [Nat.mod_eq_of_lt (by omega)]
                omega
              · right; exact he.mono hpp (Nat.le_refl _)
            · right; exact hn.mono (Nat.le_refl _) (by omega)
          obtain ⟨o, ho1, ho2⟩ := ih h' ((n + k') % 2 ^ 32) p' (by omega) hc (by omega) hn'
          refine ⟨o, fun k => ?_, stays_mono ho2 (by omega)⟩
          rw [show fuel + 1 + k = fuel + k + 1 by omega, TpHdr.loop, hw]
          simp only
          rw [if_neg hs, ho]
          exact ho1 k
    · rw [dif_neg h1] at hw
      refine ⟨.throws, fun k => ?_, trivial⟩
      rw [show fuel + 1 + k = fuel + k + 1 by omega, TpHdr.loop, hw]

theorem tpRead_stays {d pad : List UInt8} {csiz p fuel : Nat} (h0 : d ≠ []) (hl : d.length + 2 ^ 16 ≤ 2 ^ 32) (hpad : 2 ≤ pad.length)
    (hp : p ≤ d.length) (hf : (d.length - p) / 2 < fuel) :
    ∃ o, (∀ k, TpHdr.read pad csiz (fuel + k) ⟨d, p⟩ = some o) ∧
        Stays d (p + 2) (fun v q => v.2 + p = 12 + q ∨ Short d p q) o :=
  tpLoop_stays h0 hl hpad p fuel {} 14 p (Nat.le_refl _) hp hf (Or.inl (by omega))

/-- C52, tile-part headers.  `p` is where the header continues behind the SOT segment, 12 bytes after the beginning of the
tile-part.  Whatever the segments, the count of marker bytes is the distance from the beginning of the tile-part to its body —
unless some segment has a length field of 0 or 1. -/
theorem C52_markers_counted (d pad : List UInt8) (csiz p n fuel : Nat) (h : TpHdr) (s : Src) (h0 : d ≠ [])
    (hl : d.length + 2 ^ 16 ≤ 2 ^ 32) (hpad : 2 ≤ pad.length) (hp : 12 ≤ p ∧ p ≤ d.length) (hf : (d.length - p) / 2 < fuel)
    (hr : TpHdr.read pad csiz fuel ⟨d, p⟩ = some (.ok ((h, n), s))) (hno : ¬ Short d p s.pos) :
    (p - 12) + n = s.pos := by
  obtain ⟨o, ho, hs⟩ := tpRead_stays (csiz := csiz) h0 hl hpad hp.2 hf
  have := ho 0
  rw [Nat.add_zero, hr] at this
  rw [← Option.some.inj this] at hs
  obtain ⟨-, -, -, h4⟩ := hs
  rcases h4 with h4 | h4
  · have : n + p = 12 + s.pos := h4
    omega
  · exact absurd h4 hno

/-- A tile-part ends where SOT says it ends: `Psot` bytes after its beginning (or with the codestream). -/
theorem C52_part_length (d pad : List UInt8) (csiz p fuel : Nat) (sot : Sot) (part : Part) (s : Src) (h0 : d ≠ [])
    (hl : d.length + 2 ^ 16 ≤ 2 ^ 32) (hpad : 2 ≤ pad.length) (hp : 12 ≤ p ∧ p ≤ d.length) (hf : (d.length - p) / 2 < fuel)
    (hr : readPart pad csiz fuel sot ⟨d, p⟩ = some (.ok (part, s)))
    (hno : ¬ Short d p d.length) :
    ∃ q, p < q ∧ q ≤ d.length ∧ part.body = (d.drop q).take (s.pos - q) ∧
      (q - (p - 12) ≤ sot.psot → sot.psot ≠ 0 → sot.psot < 2 ^ 32 → s.pos = min (p - 12 + sot.psot) d.length) := by
  obtain ⟨o, ho, hs⟩ := tpRead_stays (csiz := csiz) h0 hl hpad hp.2 hf
  have ho := ho 0
  rw [Nat.add_zero] at ho
  rw [readPart, ho] at hr
  cases o with
  | throws => simp only at hr; cases hr
  | ub => exact hs.elim
  | ok r =>
    obtain ⟨⟨h, n⟩, ⟨d', q⟩⟩ := r
    obtain ⟨hd', h2, h3, h4⟩ := hs
    simp only at hd' hr h2 h3 h4
    subst hd'
    have h4' : n + p = 12 + q := by
      rcases h4 with h4 | h4
      · exact h4
      · exact absurd (h4.mono (Nat.le_refl _) h3) hno
    have hbl := bodyLength_le sot.psot n (d'.drop q)
    rw [List.length_drop] at hbl
    have hbody : readBody ⟨d', q⟩ sot.psot n =
        .ok ((d'.drop q).take (bodyLength sot.psot n (d'.drop q)), ⟨d', q + bodyLength sot.psot n (d'.drop q)⟩) := by
      unfold readBody Src.forward
      simp only
      rw [Nat.mod_eq_of_lt (by omega), if_pos (by omega)]
      rfl
    rw [hbody] at hr
    have hr' := Prod.mk.inj (Out.ok.inj (Option.some.inj hr))
    rw [← hr'.1, ← hr'.2]
    refine ⟨q, by omega, h3, ?_, ?_⟩
    · show (d'.drop q).take _ = (d'.drop q).take (q + bodyLength sot.psot n (d'.drop q) - q)
      rw [Nat.add_sub_cancel_left]
    · intro hq hz _
      show q + bodyLength sot.psot n (d'.drop q) = _
      rw [bodyLength, if_neg hz, sub32_eq (by omega), List.length_drop]
      omega

/-! ### Any bytes -/

theorem readSot_stays {d pad : List UInt8} {p : Nat} (h0 : d ≠ []) (hl : d.length < 2 ^ 32) (hp : p ≤ d.length)
    (hpad : 2 ≤ pad.length) : Stays d (p + 2) (fun _ _ => True) (readSot pad ⟨d, p⟩) := by
  rw [readSot]
  have hs := segment_stays (P := fun _ _ => True) h0 hl hp hpad safe_sot (fun _ _ _ _ _ _ _ _ _ _ => trivial)
  rw [getWord_eq h0 hl hp]
  by_cases h1 : p + 1 < d.length
  · rw [dif_pos h1]
    show Stays d (p + 2) _ (if _ then Out.throws else _)
    split
    · trivial
    · exact hs
  · rw [dif_neg h1]; trivial

/-- C48 for the tile-parts: whatever follows the main header, reading all tile-parts ends, with an exception or normally, and
reads nothing outside the codestream and its padding. -/
theorem C48_tile_parts_safe (d pad : List UInt8) (csiz : Nat) (h0 : d ≠ []) (hl : d.length + 2 ^ 16 ≤ 2 ^ 32)
    (hpad : 2 ≤ pad.length) (fuel : Nat) : ∀ (tiles : List (List Part)) (p : Nat), p ≤ d.length → (d.length - p) / 2 < fuel →
      ∃ o, (∀ k, tileLoop pad csiz (fuel + k) tiles ⟨d, p⟩ = some o) ∧ o ≠ .ub := by
  induction fuel with
  | zero => intro _ p _ hf; omega
  | succ fuel ih =>
    intro tiles p hp hf
    have hrem : Src.remaining ⟨d, p⟩ = d.length - p := sub32_eq hp
    by_cases h2 : d.length - p < 2
    · refine ⟨.ok (tiles, ⟨d, p⟩), fun k => ?_, (by intro h; cases h)⟩
      rw [show fuel + 1 + k = fuel + k + 1 by omega, tileLoop, hrem, if_pos h2]
    have hw := getWord_eq h0 (by omega) hp
    rw [dif_pos (by omega)] at hw
    generalize hW : (d[p].toNat * 256 + d[p + 1].toNat) = w at hw
    by_cases he : w = 0xFFD9
    · refine ⟨.ok (tiles, ⟨d, p + 2⟩), fun k => ?_, (by intro h; cases h)⟩
      rw [show fuel + 1 + k = fuel + k + 1 by omega, tileLoop, hrem, if_neg h2, hw]
      simp only
      rw [if_pos he]
    by_cases hs : w = 0xFF90
    swap
    · refine ⟨.throws, fun k => ?_, (by intro h; cases h)⟩
      rw [show fuel + 1 + k = fuel + k + 1 by omega, tileLoop, hrem, if_neg h2, hw]
      simp only
      rw [if_neg he, if_pos hs]
    have hst := readSot_stays (d := d) (p := p + 2) h0 (by omega) (by omega) hpad
    cases ho : readSot pad ⟨d, p + 2⟩ with
    | throws =>
      refine ⟨.throws, fun k => ?_, (by intro h; cases h)⟩
      rw [show fuel + 1 + k = fuel + k + 1 by omega, tileLoop, hrem, if_neg h2, hw]
      simp only
      rw [if_neg he, if_neg (by rw [not_not]; exact hs), ho]
    | ub => rw [ho] at hst; exact hst.elim
    | ok r =>
      obtain ⟨sot, ⟨d1, p1⟩⟩ := r
      rw [ho] at hst
      obtain ⟨hd1, hp1, hp1', -⟩ := hst
      simp only at hd1 hp1 hp1'
      subst hd1
      cases ht : tiles[sot.isot]? with
      | none =>
        refine ⟨.throws, fun k => ?_, (by intro h; cases h)⟩
        rw [show fuel + 1 + k = fuel + k + 1 by omega, tileLoop, hrem, if_neg h2, hw]
        simp only
        rw [if_neg he, if_neg (by rw [not_not]; exact hs), ho]
        simp only
        rw [ht]
      | some ps =>
        obtain ⟨o2, ho2, hs2⟩ := tpRead_stays (csiz := csiz) (fuel := fuel) h0 hl hpad hp1' (by omega)
        cases o2 with
        | throws =>
          refine ⟨.throws, fun k => ?_, (by intro h; cases h)⟩
          rw [show fuel + 1 + k = fuel + k + 1 by omega, tileLoop, hrem, if_neg h2, hw]
          simp only
          rw [if_neg he, if_neg (by rw [not_not]; exact hs), ho]
          simp only
          rw [ht]
          simp only
          rw [readPart, ho2 k]
        | ub => exact hs2.elim
        | ok r2 =>
          obtain ⟨⟨h, n⟩, ⟨d2, p2⟩⟩ := r2
          obtain ⟨hd2, hp2, hp2', -⟩ := hs2
          simp only at hd2 hp2 hp2'
          subst hd2
          obtain ⟨m, hm, hb⟩ := C37_body_inside ⟨d2, p2⟩ sot.psot n (show d2.length < 2 ^ 32 by omega) hp2'
          simp only at hm hb
          obtain ⟨o3, ho3, hu3⟩ := ih (tiles.set sot.isot (ps ++ [⟨sot, h, (d2.drop p2).take m⟩])) (p2 + m) (by omega) (by omega)
          refine ⟨o3, fun k => ?_, hu3⟩
          rw [show fuel + 1 + k = fuel + k + 1 by omega, tileLoop, hrem, if_neg h2, hw]
          simp only
          rw [if_neg he, if_neg (by rw [not_not]; exact hs), ho]
          simp only
          rw [ht]
          simp only
          rw [readPart, ho2 k]
          simp only
          rw [hb]
          exact ho3 k

/-! ### What the encoder wrote -/

/-- Tile `i` as the decoder holds it. -/
def tileRead (i : Nat) (body : List UInt8) : List Part := [⟨⟨i, 14 + body.length, 0, 1⟩, {}, body⟩]

/-- Tiles from index `i` on. -/
def tilesRead : Nat → List (List UInt8) → List (List Part)
  | _, [] => []
  | i, b :: bs => tileRead i b :: tilesRead (i + 1) bs

theorem tilesRead_getElem? (bs : List (List UInt8)) (i k : Nat) :
    (tilesRead i bs)[k]? = bs[k]?.map fun b => tileRead (i + k) b := by
  induction bs generalizing i k with
  | nil => rfl
  | cons b bs ih =>
    cases k with
    | zero => rfl
    | succ k =>
      show (tilesRead (i + 1) bs)[k]? = bs[k]?.map _
      rw [ih, show i + 1 + k = i + (k + 1) by omega]

theorem writeTile_length (i : Nat) (b : List UInt8) : (writeTile i b).length = 14 + b.length := by
  rw [writeTile, List.length_append]
  congr 1

theorem tileLoop_written (pad : List UInt8) (csiz : Nat) (bs : List (List UInt8)) :
    ∀ (i : Nat) (front : List (List Part)) (pre post : List UInt8) (fuel : Nat), front.length = i → i + bs.length ≤ 65536 →
      (pre ++ writeTiles i bs ++ be16 0xFFD9 ++ post).length < 2 ^ 32 → bs.length + 1 < fuel →
      tileLoop pad csiz fuel (front ++ List.replicate bs.length []) ⟨pre ++ writeTiles i bs ++ be16 0xFFD9 ++ post, pre.length⟩ =
        some (.ok (front ++ tilesRead i bs,
          ⟨pre ++ writeTiles i bs ++ be16 0xFFD9 ++ post, (pre ++ writeTiles i bs).length + 2⟩)) := by
  induction bs with
  | nil =>
    intro i front pre post fuel _ _ hl hf
    obtain ⟨fuel, rfl⟩ : ∃ k, fuel = k + 1 := ⟨fuel - 1, by simp at hf; omega⟩
    have hlen : (pre ++ writeTiles i [] ++ be16 0xFFD9 ++ post).length = pre.length + (2 + post.length) := by
      simp only [writeTiles, List.append_nil, List.length_append, be16_length]; omega
    have hrem : ¬ Src.remaining ⟨pre ++ writeTiles i [] ++ be16 0xFFD9 ++ post, pre.length⟩ < 2 := by
      rw [Src.remaining]
      simp only
      rw [hlen, sub32_eq (by omega)]
      omega
    have hg : Src.getWord ⟨pre ++ writeTiles i [] ++ be16 0xFFD9 ++ post, pre.length⟩ =
        .ok (0xFFD9, ⟨pre ++ writeTiles i [] ++ be16 0xFFD9 ++ post, pre.length + 2⟩) :=
      getWord_at (pre := pre) (post := post) (by simp [writeTiles]) rfl hl (by decide)
    rw [tileLoop, if_neg hrem, hg]
    simp [writeTiles, tilesRead]
  | cons b bs ih =>
    intro i front pre post fuel hfront hi hl hf
    obtain ⟨fuel, rfl⟩ : ∃ k, fuel = k + 1 := ⟨fuel - 1, by simp at hf; omega⟩
    have hf' : bs.length + 1 < fuel := by simp only [List.length_cons] at hf; omega
    have hi' : i + (bs.length + 1) ≤ 65536 := by simpa using hi
    have hdl : (pre ++ writeTiles i (b :: bs) ++ be16 0xFFD9 ++ post).length =
        pre.length + (14 + b.length) + ((writeTiles (i + 1) bs).length + (2 + post.length)) := by
      simp only [writeTiles, List.length_append, be16_length, writeTile_length]; omega
    obtain ⟨w, hw1, hw2, hw3⟩ := C36_sot (tile := i) (part := 0) (parts := 1) (length := b.length) (by omega) (by decide) (by decide)
      (by omega)
    have hwl : w.length = 12 := by
      have := congrArg List.length hw1
      rw [List.length_append, be16_length] at this
      have h14 : (mkSot i 0 1 b.length).write.length = 14 := rfl
      omega
    generalize hd : pre ++ writeTiles i (b :: bs) ++ be16 0xFFD9 ++ post = d at hl hdl ⊢
    have hrem : ¬ Src.remaining ⟨d, pre.length⟩ < 2 := by
      rw [Src.remaining]
      simp only
      rw [hdl, sub32_eq (by omega)]
      omega
    have e1 : d = pre ++ w ++ (be16 0xFF93 ++ (b ++ (writeTiles (i + 1) bs ++ (be16 0xFFD9 ++ post)))) := by
      rw [← hd, writeTiles, writeTile, hw1]
      simp only [List.append_assoc]
    have hwd : w = be16 0xFF90 ++ w.drop 2 := by
      conv => lhs; rw [← List.take_append_drop 2 w, hw2.code]
    have hg : Src.getWord ⟨d, pre.length⟩ = .ok (0xFF90, ⟨d, pre.length + 2⟩) :=
      getWord_at (pre := pre) (post := w.drop 2 ++ (be16 0xFF93 ++ (b ++ (writeTiles (i + 1) bs ++ (be16 0xFFD9 ++ post)))))
        (by rw [e1]; rw [← List.append_assoc (be16 0xFF90), ← hwd, List.append_assoc]) rfl hl (by decide)
    have hsot := hw2.read pre (be16 0xFF93 ++ (b ++ (writeTiles (i + 1) bs ++ (be16 0xFFD9 ++ post)))) pad (by rw [← e1]; exact hl)
    rw [← e1, hwl, hw3, hwl] at hsot
    have htile : (front ++ List.replicate (b :: bs).length ([] : List Part))[i]? = some [] := by
      rw [List.getElem?_append_right (by omega), hfront, Nat.sub_self]
      rfl
    have hsod : Src.getWord ⟨d, pre.length + 12⟩ = .ok (0xFF93, ⟨d, pre.length + 14⟩) :=
      getWord_at (pre := pre ++ w) (post := b ++ (writeTiles (i + 1) bs ++ (be16 0xFFD9 ++ post)))
        (by rw [e1]) (by rw [List.length_append, hwl]) hl (by decide)
    obtain ⟨fuel2, rfl⟩ : ∃ k, fuel = k + 1 := ⟨fuel - 1, by omega⟩
    have htp : TpHdr.read pad csiz (fuel2 + 1) ⟨d, pre.length + 12⟩ = some (.ok (({}, 14), ⟨d, pre.length + 14⟩)) := by
      rw [TpHdr.read, TpHdr.loop, hsod]
      simp
    have hdrop : d.drop (pre.length + 14) = b ++ (writeTiles (i + 1) bs ++ (be16 0xFFD9 ++ post)) := by
      rw [e1, show pre ++ w ++ (be16 0xFF93 ++ (b ++ (writeTiles (i + 1) bs ++ (be16 0xFFD9 ++ post)))) =
        (pre ++ w ++ be16 0xFF93) ++ (b ++ (writeTiles (i + 1) bs ++ (be16 0xFFD9 ++ post))) by simp]
      exact List.drop_left' (by simp [hwl, be16_length])
    have hbl : bodyLength (14 + b.length) 14 (d.drop (pre.length + 14)) = b.length := by
      rw [bodyLength, if_neg (by omega), sub32_eq (by omega), hdrop, List.length_append]; omega
    have hbody : readBody ⟨d, pre.length + 14⟩ (14 + b.length) 14 = .ok (b, ⟨d, pre.length + (14 + b.length)⟩) := by
      rw [readBody]
      simp only
      rw [hbl, Src.forward]
      simp only
      rw [Nat.mod_eq_of_lt (by omega), if_pos (by omega), hdrop, List.take_left]
      show Out.ok (b, _) = _
      rw [Nat.add_assoc]
    have e2 : d = (pre ++ writeTile i b) ++ writeTiles (i + 1) bs ++ be16 0xFFD9 ++ post := by
      rw [← hd, writeTiles]; simp only [List.append_assoc]
    have hset : (front ++ List.replicate (b :: bs).length ([] : List Part)).set i ([] ++ [⟨⟨i, 14 + b.length, 0, 1⟩, {}, b⟩]) =
        (front ++ [tileRead i b]) ++ List.replicate bs.length [] := by
      rw [List.set_append_right _ _ (by omega), hfront, Nat.sub_self, List.length_cons, List.replicate_succ, List.set_cons_zero,
        List.append_assoc]
      rfl
    have hnext := ih (i + 1) (front ++ [tileRead i b]) (pre ++ writeTile i b) post (fuel2 + 1) (by simp [hfront]) (by omega)
      (by rw [← e2]; exact hl) (by omega)
    rw [← e2, List.length_append, writeTile_length] at hnext
    rw [tileLoop, if_neg hrem, hg]
    simp only
    rw [if_neg (by decide), if_neg (by decide), hsot]
    simp only
    rw [htile]
    simp only
    rw [readPart, htp]
    simp only
    rw [show 12 + 2 + b.length = 14 + b.length by omega, hbody]
    show tileLoop pad csiz (fuel2 + 1) (List.set _ _ _) _ = _
    rw [hset, hnext]
    simp only [tilesRead, writeTiles, List.append_assoc, List.singleton_append, List.length_append, writeTile_length]

/-- C52, tiles.  The tile loop finds for every tile exactly the bytes that were written for it, in the only tile-part of that
tile, and stops behind EOC; what follows does not matter. -/
theorem C52_tiles_recovered (pad pre post : List UInt8) (csiz fuel : Nat) (bodies : List (List UInt8))
    (hn : bodies.length ≤ 65536) (hl : (pre ++ writeTiles 0 bodies ++ be16 0xFFD9 ++ post).length < 2 ^ 32)
    (hf : bodies.length + 1 < fuel) :
    ∃ tiles s, tileLoop pad csiz fuel (List.replicate bodies.length []) ⟨pre ++ writeTiles 0 bodies ++ be16 0xFFD9 ++ post, pre.length⟩ =
        some (.ok (tiles, s)) ∧ tiles.length = bodies.length ∧ s.buf.drop s.pos = post ∧
      ∀ (k : Nat) (b : List UInt8), bodies[k]? = some b → tiles[k]? = some [Part.mk ⟨k, 14 + b.length, 0, 1⟩ {} b] := by
  refine ⟨_, _, tileLoop_written pad csiz bodies 0 [] pre post fuel rfl (by omega) hl hf, ?_, ?_, ?_⟩
  · have : ∀ (bs : List (List UInt8)) i, (tilesRead i bs).length = bs.length := by
      intro bs
      induction bs with
      | nil => intro i; rfl
      | cons b bs ih => intro i; rw [tilesRead, List.length_cons, ih, List.length_cons]
    rw [List.nil_append, this]
  · exact List.drop_left' (by rw [List.length_append, be16_length])
  · intro k b hk
    rw [List.nil_append, tilesRead_getElem?, hk, Nat.zero_add]
    rfl

/-- C52, the whole codestream.  `h` is the encoder's header, `z` its SIZ, `bodies` the packets of the tiles, as many as SIZ
says.  What the encoder writes, the decoder takes apart: the header segments as they were (`reversible` is not transmitted),
the bytes of every tile. -/
theorem C52_codestream_recovered {h h' : Hdr} (hw : Written h h') {z : Siz} (hz : h.siz = some z) {nx ny : Nat}
    (hx : tilesAlong z.xsiz z.xtosiz z.xtsiz = .ok nx) (hy : tilesAlong z.ysiz z.ytosiz z.ytsiz = .ok ny)
    {bodies : List (List UInt8)} (hb : bodies.length = nx * ny) (h0 : 0 < nx * ny) (h64 : nx * ny ≤ 65535) :
    ∃ bytes N, h.flush = .ok bytes ∧ ∀ pad post fuel, (writeContainer bytes bodies ++ post).length < 2 ^ 32 → N < fuel →
      ∃ tiles s, readContainer pad fuel ⟨writeContainer bytes bodies ++ post, 0⟩ = some (.ok ((h', tiles), s)) ∧
        tiles.length = bodies.length ∧ s.buf.drop s.pos = post ∧
        ∀ (k : Nat) (b : List UInt8), bodies[k]? = some b → tiles[k]? = some [Part.mk ⟨k, 14 + b.length, 0, 1⟩ {} b] := by
  obtain ⟨bytes, n, hfl, hread⟩ := header_roundTrip hw
  refine ⟨bytes, n + bodies.length + 1, hfl, ?_⟩
  intro pad post fuel hl hf
  obtain ⟨b, bs, rfl⟩ : ∃ b bs, bodies = b :: bs := by
    cases bodies with
    | nil => rw [List.length_nil] at hb; omega
    | cons b bs => exact ⟨b, bs, rfl⟩
  -- the first SOT
  have hsot : ∃ r, writeTiles 0 (b :: bs) = be16 0xFF90 ++ r := by
    refine ⟨(be16 10 ++ (be16 0 ++ (be32 ((b.length + 10 + 2 + 2) % 2 ^ 32) ++ ([UInt8.ofNat 0, UInt8.ofNat 1] ++ (be16 0xFF93 ++ b))))) ++
      writeTiles 1 bs, ?_⟩
    rw [writeTiles, writeTile, Sot.write, mkSot]
    simp only [putWord_eq, putDword_eq, List.append_assoc, Nat.zero_add]
  obtain ⟨r, hr⟩ := hsot
  have e1 : writeContainer bytes (b :: bs) ++ post = be16 0xFF4F ++ bytes ++ be16 0xFF90 ++ (r ++ be16 0xFFD9 ++ post) := by
    rw [writeContainer, hr, putWord_eq, putWord_eq]
    simp only [List.append_assoc]
  have e2 : writeContainer bytes (b :: bs) ++ post = (be16 0xFF4F ++ bytes) ++ writeTiles 0 (b :: bs) ++ be16 0xFFD9 ++ post := by
    rw [writeContainer, putWord_eq, putWord_eq]
  have h1 := hread (r ++ be16 0xFFD9 ++ post) pad fuel (by rw [← e1]; exact hl) (by omega)
  rw [← e1] at h1
  have h2 := C52_tiles_recovered pad (be16 0xFF4F ++ bytes) post z.csiz fuel (b :: bs) (by omega) (by rw [← e2]; exact hl) (by omega)
  rw [← e2] at h2
  obtain ⟨tiles, s, ht, hrest⟩ := h2
  refine ⟨tiles, s, ?_, hrest⟩
  obtain ⟨z', hz1, hz2, -⟩ := hw.siz
  rw [hz] at hz1
  cases hz1
  rw [readContainer, h1]
  simp only
  have hrew : Src.rewind ⟨writeContainer bytes (b :: bs) ++ post, bytes.length + 4⟩ =
      .ok ⟨writeContainer bytes (b :: bs) ++ post, (be16 0xFF4F ++ bytes).length⟩ := by
    rw [Src.rewind]
    simp only
    rw [if_neg (by omega), List.length_append, be16_length]
    congr 2
    omega
  rw [hrew]
  simp only
  rw [hz2]
  simp only
  rw [hx, hy]
  simp only
  rw [Nat.mod_eq_of_lt (by omega), if_neg (by omega), ← hb, ht]

/-- Two tiles, the second without packets, and bytes after EOC. -/
example : tileLoop [] 1 5 (List.replicate 2 []) ⟨writeTiles 0 [[1, 2, 3], []] ++ [0xFF, 0xD9, 7], 0⟩ =
    some (.ok ([tileRead 0 [1, 2, 3], tileRead 1 []], ⟨writeTiles 0 [[1, 2, 3], []] ++ [0xFF, 0xD9, 7], 33⟩)) := by decide +kernel

/-- An unknown segment of length 0 in a tile-part header is counted with two bytes, but four are read: the body is taken two
bytes too long. -/
theorem C52_short_segment_miscounted :
    (TpHdr.read [] 1 9 ⟨[0xFF, 0x70, 0, 0, 0xFF, 0x93, 1, 2, 3], 0⟩).map (fun o => o.bind fun r => .ok (r.1.2, r.2.pos)) =
      some (.ok (16, 6)) := by decide +kernel

/-- A header without SIZ: the decoder follows a null pointer. -/
theorem C48_missing_siz_undefined :
    readContainer (List.replicate 16 0) 9 ⟨[0xFF, 0x4F, 0xFF, 0x90, 0, 0], 0⟩ = some .ub := by decide +kernel

end Verif.Cs
