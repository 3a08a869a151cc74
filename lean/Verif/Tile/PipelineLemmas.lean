import Verif.Tile.Pipeline
import Verif.Tile.PropsOrder
import Verif.Tile.PropsQuant
import Verif.Packet.PropsBody
import Verif.Ht.PropsHtDecode
import Verif.Ht.PropsCapacity
import Verif.Dwt.PropsDwt
/-
Lemmas for C67: shapes of the subbands, one code-block, one subband.
-/
namespace Verif.Tile.Pipe
open Verif.Dwt (ceilHalf analyse2d analyseLevels split length_split Rect)
open Verif.Packet (CodedBlock CodedBand DecBlock Attached Precinct Delivered Recovered)

/-! ## Shapes -/

/-- The spans of the low and high half of a span. -/
def lo (s : Span) : Span := (half 0 s.1, half 0 s.2)
@[inherit_doc lo]
def hi (s : Span) : Span := (half 1 s.1, half 1 s.2)

def Shaped (ys xs : Span) (rows : List (List Int)) : Prop := rows.length = size ys ∧ ∀ r ∈ rows, r.length = size xs

theorem shaped_iff {ys xs : Span} {rows : List (List Int)} : shaped ys xs rows = true ↔ Shaped ys xs rows := by
  unfold shaped Shaped
  simp

theorem split_lens {α : Type} {s : Span} (hs : s.1 ≤ s.2) {l : List α} (hl : l.length = size s) :
    (split (s.1 : Int) l).1.length = size (lo s) ∧ (split (s.1 : Int) l).2.length = size (hi s) := by
  obtain ⟨h1, h2⟩ := length_split (s.1 : Int) (by omega) l
  unfold size at hl
  unfold ceilHalf at h1
  unfold lo hi size half
  simp only
  omega

theorem mapM_lens {f : List Int → Option (List Int)} {w : Nat} : ∀ {l h : List (List Int)}, l.mapM f = some h →
    (∀ r ∈ l, ∀ y, f r = some y → y.length = w) → h.length = l.length ∧ ∀ r ∈ h, r.length = w := by
  intro l
  induction l with
  | nil => intro h e _; simp at e; subst e; simp
  | cons a l ih =>
    intro h e hf
    rw [List.mapM_cons] at e
    obtain ⟨y, e1, e⟩ := Option.bind_eq_some_iff.1 e
    obtain ⟨ys, e2, e⟩ := Option.bind_eq_some_iff.1 e
    obtain rfl := Option.some.inj e
    have := ih e2 (fun r hr => hf r (by simp [hr]))
    refine ⟨by simp [this.1], ?_⟩
    intro r hr
    rcases List.mem_cons.1 hr with rfl | hr
    · exact hf a (by simp) _ e1
    · exact this.2 r hr

theorem level_shape {sx sy : Span} (hx : sx.1 ≤ sx.2) (hy : sy.1 ≤ sy.2) {rows : List (List Int)} (h : Shaped sy sx rows)
    (hw : rows ≠ [] → 0 < size sx) {b : Dwt.Bands} (e : analyse2d (sx.1 : Int) (sy.1 : Int) rows = some b) :
    Shaped (lo sy) (lo sx) b.ll ∧ Shaped (lo sy) (hi sx) b.hl ∧ Shaped (hi sy) (lo sx) b.lh ∧ Shaped (hi sy) (hi sx) b.hh := by
  have e' : ((if rows = [] then some [] else Dwt.analyseExt Dwt.rev53.onRows (List.map Dwt.double) (sy.1 : Int) rows).bind
      fun v => (v.mapM (Dwt.analyseExt Dwt.rev53 Dwt.double (sx.1 : Int))).bind fun h =>
        some (⟨(split (sy.1 : Int) h).1.map (fun r => (split (sx.1 : Int) r).1),
          (split (sy.1 : Int) h).1.map (fun r => (split (sx.1 : Int) r).2),
          (split (sy.1 : Int) h).2.map (fun r => (split (sx.1 : Int) r).1),
          (split (sy.1 : Int) h).2.map (fun r => (split (sx.1 : Int) r).2)⟩ : Dwt.Bands)) = some b := by
    rw [← e]
    unfold analyse2d
    by_cases hn : rows = []
    · rw [if_pos hn, if_pos hn]; rfl
    · rw [if_neg hn, if_neg hn]; rfl
  obtain ⟨v, ev, h1⟩ := Option.bind_eq_some_iff.1 e'
  obtain ⟨g, eg, h1⟩ := Option.bind_eq_some_iff.1 h1
  obtain rfl := Option.some.inj h1
  have hv : v.length = rows.length ∧ ∀ r ∈ v, r.length = size sx := by
    by_cases hn : rows = []
    · rw [if_pos hn] at ev
      obtain rfl := Option.some.inj ev
      simp [hn]
    · rw [if_neg hn] at ev
      obtain ⟨v', ev', -, lv, pv, -⟩ := Dwt.reconstruct1d (Dwt.rev53_undoes_rows (size sx)) (sg := List.map Dwt.double)
        (sg' := List.map Dwt.halve) (by
          intro a ha
          refine ⟨by simpa using ha, ?_⟩
          rw [List.map_map]
          conv_rhs => rw [← List.map_id a]
          exact List.map_congr_left fun x _ => Dwt.halve_double x) (i0 := (sy.1 : Int)) (by omega) h.2 hn
      rw [ev] at ev'
      obtain rfl := Option.some.inj ev'
      exact ⟨lv, pv⟩
  have hg : g.length = rows.length ∧ ∀ r ∈ g, r.length = size sx := by
    rw [← hv.1]
    refine mapM_lens eg ?_
    intro r hr y ey
    have hne : rows ≠ [] := by
      intro hn
      rw [hn] at hv
      have := hv.1
      rw [List.length_nil, List.length_eq_zero_iff] at this
      rw [this] at hr
      simp at hr
    obtain ⟨y', ey', -, ly, -⟩ := Dwt.reconstruct1d Dwt.rev53_undoes (sg := Dwt.double) (sg' := Dwt.halve)
      (fun a _ => ⟨trivial, Dwt.halve_double a⟩) (i0 := (sx.1 : Int)) (by omega) (x := r) (fun _ _ => trivial)
      (by rw [← List.length_pos_iff, hv.2 r hr]; exact hw hne)
    rw [ey] at ey'
    obtain rfl := Option.some.inj ey'
    rw [ly, hv.2 r hr]
  obtain ⟨s1, s2⟩ := split_lens hy (hg.1.trans h.1)
  obtain ⟨m1, m2⟩ := Dwt.split_subset (sy.1 : Int) g
  have row : ∀ r ∈ g, _ := fun r hr => split_lens hx (hg.2 r hr)
  refine ⟨⟨by simpa using s1, ?_⟩, ⟨by simpa using s1, ?_⟩, ⟨by simpa using s2, ?_⟩, ⟨by simpa using s2, ?_⟩⟩ <;>
    intro r hr <;> obtain ⟨q, hq, rfl⟩ := List.mem_map.1 hr
  · exact (row q (m1 q hq)).1
  · exact (row q (m1 q hq)).2
  · exact (row q (m2 q hq)).1
  · exact (row q (m2 q hq)).2

/-- The span after `n` levels. -/
def low (n : Nat) (s : Span) : Span := (cdiv s.1 (2 ^ n), cdiv s.2 (2 ^ n))

theorem cdiv_half (t n : Nat) : cdiv (half 0 t) (2 ^ n) = cdiv t (2 ^ (n + 1)) := by
  unfold half cdiv
  have : (t + 1 - 0) / 2 + 2 ^ n - 1 = (t + 2 ^ (n + 1) - 1) / 2 := by
    have := Nat.two_pow_pos n
    rw [pow_succ]; omega
  rw [this, Nat.div_div_eq_div_mul, pow_succ, mul_comm]

theorem low_lo (n : Nat) (s : Span) : low n (lo s) = low (n + 1) s := by
  unfold low lo
  simp only [cdiv_half]

theorem low_zero (s : Span) : low 0 s = s := by
  unfold low cdiv
  simp

/-- All levels: the subbands have the expected sizes. -/
theorem levels_shape (n : Nat) : ∀ {sx sy : Span} {rows : List (List Int)}, sx.1 ≤ sx.2 → sy.1 ≤ sy.2 → Shaped sy sx rows →
    (∀ l < n, 0 < size (low l sx)) → ∀ {t}, analyseLevels n (sx.1 : Int) (sy.1 : Int) rows = some t →
    Shaped (low n sy) (low n sx) t.1 ∧ ∀ i < n, ∃ d, t.2[i]? = some d ∧
      Shaped (lo (low i sy)) (hi (low i sx)) d.hl ∧ Shaped (hi (low i sy)) (lo (low i sx)) d.lh ∧
      Shaped (hi (low i sy)) (hi (low i sx)) d.hh := by
  induction n with
  | zero =>
    intro sx sy rows _ _ h _ t e
    obtain rfl := Option.some.inj (show some (rows, []) = some t from e)
    rw [low_zero, low_zero]
    exact ⟨h, by simp⟩
  | succ n ih =>
    intro sx sy rows hx hy h hl t e
    obtain ⟨b, eb, e⟩ := Option.bind_eq_some_iff.1 (show _ = some t from e)
    obtain ⟨t', et, rfl⟩ := Option.map_eq_some_iff.1 e
    have hs := level_shape hx hy h (fun _ => by have := hl 0 (by omega); rwa [low_zero] at this) eb
    have ch : ∀ s : Span, ceilHalf (s.1 : Int) = ((lo s).1 : Int) := by
      intro s; unfold ceilHalf lo half; simp
    rw [ch, ch] at et
    have := ih (sx := lo sx) (sy := lo sy) (half_mono 0 hx) (half_mono 0 hy) hs.1 (by
      intro l hl'; rw [low_lo]; exact hl (l + 1) (by omega)) et
    rw [low_lo, low_lo] at this
    refine ⟨this.1, ?_⟩
    intro i hi'
    cases i with
    | zero =>
      rw [low_zero, low_zero]
      exact ⟨_, rfl, hs.2⟩
    | succ i =>
      obtain ⟨d, hd, h2⟩ := this.2 i (by omega)
      rw [low_lo, low_lo] at h2
      exact ⟨d, hd, h2⟩

/-! ## One code-block -/

theorem encodeBlock_length {w h : Nat} {f : Nat → Nat → Int} {d : List Nat} (e : Ht.encodeBlock w h f = some d) :
    d.length < 2 ^ 30 := by
  unfold Ht.encodeBlock at e
  split_ifs at e
  · unfold Ht.Enc.finish at e
    simp only [Option.bind_eq_bind] at e
    obtain ⟨v, -, e⟩ := Option.bind_eq_some_iff.mp e
    obtain ⟨s, -, e⟩ := Option.bind_eq_some_iff.mp e
    unfold Ht.assembleCup at e
    dsimp only at e
    split_ifs at e with h1
    obtain rfl := Option.some.inj e
    simp only [List.length_set]
    unfold Ht.maxLcup at h1
    omega
  · obtain rfl := Option.some.inj e
    simp

/-- What `decBlock` gives, as samples. -/
def value (o : Option (Nat → Nat → Int)) (y x : Nat) : Int :=
  match o with
  | none => 0
  | some g => g y x

/-- A code-block: it is encoded into something the packet layer can carry, and what arrives is decoded into the same
coefficients. -/
theorem block_trip (C : Coding) {mb w h a b : Nat} {f : Nat → Nat → Int} (hw : 0 < w) (hh : 0 < h) (ha : 2 ≤ a) (hb : 2 ≤ b)
    (hab : a + b ≤ 12) (hwa : w ≤ 2 ^ a) (hhb : h ≤ 2 ^ b) (hmb : 1 ≤ mb ∧ mb ≤ 21)
    (hf : ∀ y < h, ∀ x < w, (f y x).natAbs < 2 ^ mb) :
    ∃ k, codedBlock mb w h f = some k ∧ k.Sound ∧
      ∀ (e : Memory) (d : DecBlock) (m : Attached), e.pv < 4 → e.pd < 4 → Packet.Recovered k.info d → m.bytes = k.data →
        ∃ o, decBlock C mb w h e d m = some o ∧ ∀ y < h, ∀ x < w, value o y x = f y x := by
  obtain ⟨d, e⟩ := Ht.C44_encoder_buffers_suffice w h a b mb f hh ha hb hab hwa hhb hmb.2 hf
  have hlt := encodeBlock_length e
  have hp : 2 ^ mb ≤ 2 ^ 30 := Nat.pow_le_pow_right (by omega) (by omega)
  have hf' : ∀ y < h, ∀ x < w, (f y x).natAbs < 2 ^ 30 := fun y hy x hx => lt_of_lt_of_le (hf y hy x hx) hp
  refine ⟨⟨⟨d.length, if d = [] then 0 else 1, (mb + 255) % 256, [d.length]⟩, d⟩, by unfold codedBlock; rw [e]; rfl, ?_, ?_⟩
  · by_cases hd : d = []
    · subst hd
      refine ⟨⟨by simp, by simp, ?_, by simp, by simp, by simp⟩, rfl, rfl⟩
      exact Nat.mod_lt _ (by omega)
    · obtain ⟨_, _, _, _, _, h2, -⟩ := Ht.cleanup_spec (pm := 0) (pv := 0) (pd := 0) (fun _ => 0) hw hh (by omega) hf
        (by omega) (by omega) e hd
      refine ⟨⟨?_, ?_, ?_, ?_, ?_, ?_⟩, rfl, ?_⟩
      · simp [hd]
      · simp [hd]
      · exact Nat.mod_lt _ (by omega)
      · simp [hd]
      · intro _; simpa using h2
      · simpa [hd] using hlt
      · simp [hd]
  · intro en dc m hpv hpd hr hm
    simp only at hm
    by_cases hd : d = []
    · subst hd
      have := hr.passes
      simp only [if_true] at this
      refine ⟨none, by unfold decBlock; rw [if_pos (.inl this)], fun y hy x hx => ?_⟩
      exact (Ht.encodeBlock_zero e hf' y hy x hx).symm
    · have hpass := hr.passes
      have hz := hr.zbp (by simp [hd])
      have hcl := hr.cleanup
      have hto := hr.total
      simp only [if_neg hd] at hpass hcl hto hz
      have hnull : ¬ (dc.numPasses = 0 ∨ m = .null) := by
        rintro (h0 | h0)
        · omega
        · rw [h0] at hm; exact hd hm.symm
      obtain ⟨l, hl, h0⟩ : ∃ l, dc.passLen = d.length :: l ∧ ∀ n ∈ l, n = 0 := by
        cases hpl : dc.passLen with
        | nil => rw [hpl] at hcl; simp at hcl
        | cons n l =>
          rw [hpl] at hcl hto
          simp only [List.take_succ_cons, List.take_zero, List.cons.injEq, and_true] at hcl
          simp only [List.take_succ_cons, List.take_zero, List.sum_cons, List.sum_nil] at hto
          refine ⟨l, by rw [hcl], ?_⟩
          have : l.sum = 0 := by omega
          exact List.sum_eq_zero_iff.1 this
      have ev : Ht.above 0 f = f := by
        funext y x; unfold Ht.above; simp
      obtain ⟨o, e1, e2⟩ := Ht.C61_cleanup_only w h mb (mb - 1) 0 0 en.pm en.pv en.pd C.causal f en.sp en.st d l hw hh
        (by omega) (by omega) hf hpv hpd (by rw [ev]; exact e) hd h0
      refine ⟨some o, ?_, fun y hy x hx => ?_⟩
      · unfold decBlock
        rw [if_neg hnull, hpass, hl, hm, hz, show (mb + 255) % 256 = mb - 1 by omega]
        simp only [Nat.mul_zero, List.replicate_zero, List.nil_append, Nat.zero_add] at e1
        rw [e1]
      · show o y x = _
        rw [e2 y hy x hx, Ht.approx_zero]

end Verif.Tile.Pipe
