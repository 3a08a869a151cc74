import Verif.Simd.ColourRows
import Verif.Dwt.PropsDwt
/-
C83: the reversible colour transform gives the same in all builds, and which rows of the streaming encoder it stays inside.

The specification is `Dwt.rct` on integers (the reversible transform of ITU-T T.800 annex G, written from memory) and `Fits` below.
-/
namespace Verif.Simd.Colour
open Verif.Dwt (Buf toFloat)
open Verif.Simd Verif.Simd.Lift Verif.Simd.Lift.Wide

/-- The three words at `k` are those of `p`. -/
abbrev Pixel {α : Type} (x : Trio (Buf α)) (k : Int) (p : Trio α) : Prop := x.a k = some p.a ∧ x.b k = some p.b ∧ x.c k = some p.c

/-- The three words at `k` are the same (or missing in both). -/
abbrev SamePixel {α : Type} (x y : Trio (Buf α)) (k : Int) : Prop := x.a k = y.a k ∧ x.b k = y.b k ∧ x.c k = y.c k

/-- The three rows have words at `k`. -/
abbrev Present {α : Type} (x : Trio (Buf α)) (k : Int) : Prop := (x.a k).isSome ∧ (x.b k).isSome ∧ (x.c k).isSome

/-- The integers of three words. -/
def ints (p : Trio (BitVec 32)) : Int × Int × Int := (p.a.toInt, p.b.toInt, p.c.toInt)

/-! ### What the scalar functions have touched -/

theorem scalar_defined {off : Int} {width : Nat} {x y : Trio Mem} (h : intForward .scalar off width x = some y) :
    ∃ s : Int → Trio (BitVec 32), Holds x s off (off + width) ∧ ∀ k, off ≤ k → k < off + width → ∃ p, pixelFwd (s k).a (s k).b (s k).c = some p := by
  obtain ⟨r, hr, -⟩ := Option.map_eq_some_iff.1 h
  have key : ∀ k, off ≤ k → k < off + width → ∃ s p, Pix x k s ∧ pixelFwd s.a s.b s.c = some p := by
    intro k h1 h2
    have turn : ∀ i (x x' : Trio Mem), intTurn .scalar i x = some x' → (∃ s p, Pix x i s ∧ pixelFwd s.a s.b s.c = some p) ∧ ∀ k, k ≠ i → Same x' x k := by
      intro i x x' h
      simp only [intTurn, Option.bind_eq_some_iff, Option.map_eq_some_iff] at h
      obtain ⟨R, hR, G, hG, B, hB, p, hp, a, ha, b, hb, c, hc, rfl⟩ := h
      refine ⟨⟨⟨R, G, B⟩, p, ⟨hR, hG, hB⟩, hp⟩, fun k hk => ?_⟩
      unfold Lift.put at ha hb hc
      split_ifs at ha hb hc
      cases ha; cases hb; cases hc
      exact ⟨by simp [Function.update, hk], by simp [Function.update, hk], by simp [Function.update, hk]⟩
    have := sweep_touch (d := 1) (by decide) (sup := fun x k => ∃ s p, Pix x (off + k) s ∧ pixelFwd s.a s.b s.c = some p) (body := fun i x => intTurn .scalar (off + i) x) (n := width)
      (fun i x x' h => ⟨fun l l0 l1 => by
          obtain rfl : l = 0 := by omega
          simpa using (turn _ _ _ h).1, fun k hk => by
          by_cases e : k = i
          · subst e; exact (turn _ _ _ h).1
          · obtain ⟨s, p, ⟨p1, p2, p3⟩, hp⟩ := hk
            obtain ⟨q1, q2, q3⟩ := (turn _ _ _ h).2 (off + k) (by omega)
            exact ⟨s, p, ⟨q1.symm.trans p1, q2.symm.trans p2, q3.symm.trans p3⟩, hp⟩⟩) (k - off).toNat 0 x r hr (by push_cast; omega) 0 (le_refl _) (by decide)
    rwa [show off + (0 + (((k - off).toNat : Nat) : Int) * ((1 : Nat) : Int) + 0) = k by push_cast; omega] at this
  classical
  refine ⟨fun k => if h : off ≤ k ∧ k < off + width then (key k h.1 h.2).choose else ⟨0, 0, 0⟩, fun k h1 h2 => ?_, fun k h1 h2 => ?_⟩
  · simp only [dif_pos (And.intro h1 h2)]
    exact (key k h1 h2).choose_spec.choose_spec.1
  · simp only [dif_pos (And.intro h1 h2)]
    exact ⟨_, (key k h1 h2).choose_spec.choose_spec.2⟩

/-! ### Analysis -/

/-- **C83.** Wherever the transform without vectors is defined, every build gives the same words in the row, if the rows go on up to the end of the last register; it changes
nothing behind that. -/
theorem C83_forward (isa : Build) (off : Int) (width : Nat) (x y : Trio Mem) (h : intForward .scalar off width x = some y)
    (hrows : ∀ k, off ≤ k → k < off + roundUp width isa.step → Present x k) (hal : isa = .avx2 → off % 8 = 0) :
    ∃ z, intForward isa off width x = some z ∧ (∀ k, off ≤ k → k < off + width → SamePixel z y k) ∧ ∀ k, k < off ∨ off + roundUp width isa.step ≤ k → SamePixel z x k := by
  obtain ⟨s, hs, hp⟩ := scalar_defined h
  obtain ⟨y', ey, hy⟩ := intForward_scalar hp hs
  obtain rfl : y = y' := by rw [h] at ey; exact Option.some.inj ey
  by_cases hv : isa = .scalar
  · subst hv
    exact ⟨y, h, fun k _ _ => ⟨rfl, rfl, rfl⟩, fun k hk => (hy k).2 (by unfold roundUp Build.step at hk; push_cast at hk; omega)⟩
  · have hr : width ≤ reach isa width := by
      unfold reach roundUp
      cases isa <;> simp only [Build.step] <;> omega
    let s' : Int → Trio (BitVec 32) := fun k => ⟨(x.a k).getD 0, (x.b k).getD 0, (x.c k).getD 0⟩
    have hs' : Holds x s' off (off + reach isa width) := by
      intro k h1 h2
      obtain ⟨p1, p2, p3⟩ := hrows k h1 h2
      obtain ⟨v1, e1⟩ := Option.isSome_iff_exists.1 p1
      obtain ⟨v2, e2⟩ := Option.isSome_iff_exists.1 p2
      obtain ⟨v3, e3⟩ := Option.isSome_iff_exists.1 p3
      exact ⟨by simp [s', e1], by simp [s', e2], by simp [s', e3]⟩
    obtain ⟨z, ez, hz⟩ := intForward_vector hv (fun h _ => hal h) hs'
    refine ⟨z, ez, fun k h1 h2 => ?_, fun k hk => (hz k).2 (by show ¬ (off ≤ k ∧ k < off + (roundUp width isa.step : Nat)); omega)⟩
    have es : s' k = s k := by
      obtain ⟨p1, p2, p3⟩ := hs k h1 h2
      simp only [s', p1, p2, p3, Option.getD_some]
    obtain ⟨q1, q2, q3⟩ := (hz k).1 ⟨h1, by omega⟩
    obtain ⟨r1, r2, r3⟩ := (hy k).1 ⟨h1, h2⟩
    simp only [es] at q1 q2 q3
    exact ⟨q1.trans r1.symm, q2.trans r2.symm, q3.trans r3.symm⟩

/-- **C83.** The words are the reversible transform of the standard, on all integers of up to 28 bits. -/
theorem C83_forward_values (isa : Build) (off : Int) (width : Nat) (x : Trio Mem) (s : Int → Trio (BitVec 32)) (hs : ∀ k, off ≤ k → k < off + width → Pixel x k (s k))
    (hb : ∀ k, off ≤ k → k < off + width → |(s k).a.toInt| ≤ 2 ^ 28 ∧ |(s k).b.toInt| ≤ 2 ^ 28 ∧ |(s k).c.toInt| ≤ 2 ^ 28)
    (hrows : ∀ k, off ≤ k → k < off + roundUp width isa.step → Present x k) (hal : isa = .avx2 → off % 8 = 0) :
    ∃ z, intForward isa off width x = some z ∧ ∀ k, off ≤ k → k < off + width → ∃ p, Pixel z k p ∧ ints p = Dwt.rct (ints (s k)) := by
  have hp : ∀ k, off ≤ k → k < off + width → ∃ p, pixelFwd (s k).a (s k).b (s k).c = some p := fun k h1 h2 => pixelFwd_def (hb k h1 h2).1 (hb k h1 h2).2.1 (hb k h1 h2).2.2
  obtain ⟨y, ey, hy⟩ := intForward_scalar hp hs
  obtain ⟨z, ez, hz, -⟩ := C83_forward isa off width x y ey hrows hal
  refine ⟨z, ez, fun k h1 h2 => ?_⟩
  obtain ⟨p, ep⟩ := hp k h1 h2
  obtain ⟨e1, e2⟩ := pixelFwd_some ep
  obtain ⟨r1, r2, r3⟩ := (hy k).1 ⟨h1, h2⟩
  obtain ⟨q1, q2, q3⟩ := hz k h1 h2
  exact ⟨p, ⟨by rw [q1, r1, e1], by rw [q2, r2, e1], by rw [q3, r3, e1]⟩, e2⟩

/-- **C83.** Into rows of floats every build leaves the memory that the function without vectors leaves, wherever that one is defined. -/
theorem C83_forward_float {F : Type} (u : Fpu F) (isa : Build) (width : Nat) (src : Trio Mem) (x y : Trio (Buf F)) (h : fltForward u .scalar width src x = some y) :
    fltForward u isa width src x = some y := by
  have key : ∀ k : Int, 0 ≤ k → k < width → ∃ s p, Pix src k s ∧ pixelFwd s.a s.b s.c = some p ∧ (x.a k).isSome ∧ (x.b k).isSome ∧ (x.c k).isSome := by
    obtain ⟨r, hr, -⟩ := Option.map_eq_some_iff.1 (show (sweep 1 0 width (fltPixel u src) 0 x).map (fun r => r.2) = some y by simpa [fltForward] using h)
    intro k h1 h2
    have := sweep_touch (d := 1) (by decide) (sup := fun (x : Trio (Buf F)) k => ∃ s p, Pix src k s ∧ pixelFwd s.a s.b s.c = some p ∧ (x.a k).isSome ∧ (x.b k).isSome ∧ (x.c k).isSome)
      (body := fltPixel u src) (n := width) (fun i x x' h => by
          simp only [fltPixel, Option.bind_eq_some_iff, Option.map_eq_some_iff] at h
          obtain ⟨R, hR, G, hG, B, hB, p, hp, a, ha, b, hb, c, hc, rfl⟩ := h
          refine ⟨fun l l0 l1 => ?_, fun k ⟨s, p, h1, h2, h3, h4, h5⟩ => ⟨s, p, h1, h2, (putB_sup ha).2 k h3, (putB_sup hb).2 k h4, (putB_sup hc).2 k h5⟩⟩
          obtain rfl : l = 0 := by omega
          rw [add_zero]
          exact ⟨⟨R, G, B⟩, p, ⟨hR, hG, hB⟩, hp, (putB_sup ha).1, (putB_sup hb).1, (putB_sup hc).1⟩) k.toNat 0 x r hr (by push_cast; omega) 0 (le_refl _) (by decide)
    rwa [show 0 + ((k.toNat : Nat) : Int) * ((1 : Nat) : Int) + 0 = k by push_cast; omega] at this
  let s : Int → Trio (BitVec 32) := fun k => ⟨(src.a k).getD 0, (src.b k).getD 0, (src.c k).getD 0⟩
  have hs : Holds src s 0 width := fun k h1 h2 => by
    obtain ⟨t, p, ⟨e1, e2, e3⟩, -⟩ := key k h1 h2
    exact ⟨by simp [s, e1], by simp [s, e2], by simp [s, e3]⟩
  have hp : ∀ k : Int, 0 ≤ k → k < width → ∃ p, pixelFwd (s k).a (s k).b (s k).c = some p := fun k h1 h2 => by
    obtain ⟨t, p, ⟨e1, e2, e3⟩, e4, -⟩ := key k h1 h2
    exact ⟨p, by simpa [s, e1, e2, e3] using e4⟩
  have hf : Full x 0 width := fun k h1 h2 => by
    obtain ⟨t, p, -, -, h⟩ := key k h1 h2
    exact h
  obtain ⟨y1, e1, r1⟩ := fltForward_run (u := u) (isa := .scalar) hp hs hf
  obtain ⟨y2, e2, r2⟩ := fltForward_run (u := u) (isa := isa) hp hs hf
  rw [e2, ← h, e1, r1.unique r2]

/-! ### Synthesis -/

/-- **C83.** The synthesis with level shift and clamp: every build leaves the memory that the function without vectors leaves, wherever that one is defined, the bounds are in
order, and the samples are whole, so that casting and rounding agree. -/
theorem C83_inverse {F : Type} (u : Fpu F) (isa : Build) (fp : Trio Level) (width : Nat) (src : Trio (Buf F)) (x y : Trio Mem) (h : fusedInverse u .scalar fp width src x = some y)
    (h1 : fp.a.mn.toInt ≤ fp.a.mx.toInt) (h2 : fp.b.mn.toInt ≤ fp.b.mx.toInt) (h3 : fp.c.mn.toInt ≤ fp.c.mx.toInt)
    (hw : ∀ (k : Int) v, 0 ≤ k → k < width → src.a k = some v ∨ src.b k = some v ∨ src.c k = some v → ∀ w, u.cast v = some w → u.conv isa v = w) :
    fusedInverse u isa fp width src x = some y := by
  have key : ∀ k : Int, 0 ≤ k → k < width → ∃ s, Pix src k s ∧ (pixelInv u fp s.a s.b s.c).isSome ∧ (x.a k).isSome ∧ (x.b k).isSome ∧ (x.c k).isSome := by
    obtain ⟨r, hr, -⟩ := Option.map_eq_some_iff.1 (show (sweep 1 0 width (invPixel u fp src) 0 x).map (fun r => r.2) = some y by simpa [fusedInverse] using h)
    intro k h1 h2
    have := sweep_touch (d := 1) (by decide) (sup := fun (x : Trio Mem) k => ∃ s, Pix src k s ∧ (pixelInv u fp s.a s.b s.c).isSome ∧ (x.a k).isSome ∧ (x.b k).isSome ∧ (x.c k).isSome)
      (body := invPixel u fp src) (n := width) (fun i x x' h => by
          simp only [invPixel, Option.bind_eq_some_iff, Option.map_eq_some_iff] at h
          obtain ⟨R, hR, G, hG, B, hB, p, hp, a, ha, b, hb, c, hc, rfl⟩ := h
          refine ⟨fun l l0 l1 => ?_, fun k ⟨s, h1, h2, h3, h4, h5⟩ => ⟨s, h1, h2, (putB_sup ha).2 k h3, (putB_sup hb).2 k h4, (putB_sup hc).2 k h5⟩⟩
          obtain rfl : l = 0 := by omega
          rw [add_zero]
          exact ⟨⟨R, G, B⟩, ⟨hR, hG, hB⟩, by rw [hp]; rfl, (putB_sup ha).1, (putB_sup hb).1, (putB_sup hc).1⟩) k.toNat 0 x r hr (by push_cast; omega) 0 (le_refl _) (by decide)
    rwa [show 0 + ((k.toNat : Nat) : Int) * ((1 : Nat) : Int) + 0 = k by push_cast; omega] at this
  by_cases hz : width = 0
  · subst hz
    have e : ∀ isa, fusedInverse u isa fp 0 src x = some x := by
      intro isa
      unfold fusedInverse
      have n1 : ∀ d e (b : Int → Trio Mem → Option (Trio Mem)), sweep d e ((0 : Nat) : Int) b 0 x = some (0, x) := fun d e b => by rw [sweep, if_neg (by omega)]
      rw [n1]
      split_ifs <;> simp only [Option.bind_some, n1, Option.map_some]
    rw [e] at h ⊢
    exact h
  obtain ⟨⟨a0, b0, c0⟩, -⟩ := key 0 (le_refl _) (by omega)
  let s : Int → Trio F := fun k => ⟨(src.a k).getD a0, (src.b k).getD a0, (src.c k).getD a0⟩
  have hs : Holds src s 0 width := fun k h1 h2 => by
    obtain ⟨t, ⟨e1, e2, e3⟩, -⟩ := key k h1 h2
    exact ⟨by simp [s, e1], by simp [s, e2], by simp [s, e3]⟩
  have hp : ∀ k : Int, 0 ≤ k → k < width → (pixelInv u fp (s k).a (s k).b (s k).c).isSome := fun k h1 h2 => by
    obtain ⟨t, ⟨e1, e2, e3⟩, e4, -⟩ := key k h1 h2
    simpa [s, e1, e2, e3] using e4
  have hf : Full x 0 width := fun k h1 h2 => by
    obtain ⟨t, -, -, h⟩ := key k h1 h2
    exact h
  have hw' : ∀ k : Int, 0 ≤ k → k < width → Whole u isa (s k).a ∧ Whole u isa (s k).b ∧ Whole u isa (s k).c := fun k k1 k2 => by
    obtain ⟨e1, e2, e3⟩ := hs k k1 k2
    exact ⟨hw k _ k1 k2 (Or.inl e1), hw k _ k1 k2 (Or.inr (Or.inl e2)), hw k _ k1 k2 (Or.inr (Or.inr e3))⟩
  obtain ⟨y1, e1, r1⟩ := fusedInverse_run (u := u) (isa := .scalar) (fp := fp) h1 h2 h3 hs hf hp (fun h => absurd rfl h)
  obtain ⟨y2, e2, r2⟩ := fusedInverse_run (u := u) (isa := isa) (fp := fp) h1 h2 h3 hs hf hp (fun _ => hw')
  rw [e2, ← h, e1, r1.unique r2]

theorem single_cast {w : BitVec 32} (h : |w.toInt| ≤ 2 ^ 24) : single.cast (single.ofInt w) = some w := by
  have e : toFloat w.toInt = w.toInt := Dwt.toFloat_exact _ (abs_le.1 h)
  have := abs_le.1 h
  show (if _ then _ else _) = _
  simp only [single, e]
  rw [if_pos (by omega), BitVec.ofInt_toInt]

theorem single_whole (isa : Build) (v : Int) : Whole single isa v := by
  intro w h
  simp only [single] at h ⊢
  split_ifs at h with hv
  rw [if_pos hv]
  exact Option.some.inj h

/-- One pixel there and back. -/
theorem pixel_back {fp : Trio Level} {t : Trio (BitVec 32)} (ha : fp.a.mn.toInt ≤ t.a.toInt ∧ t.a.toInt ≤ fp.a.mx.toInt) (hb : fp.b.mn.toInt ≤ t.b.toInt ∧ t.b.toInt ≤ fp.b.mx.toInt)
    (hc : fp.c.mn.toInt ≤ t.c.toInt ∧ t.c.toInt ≤ fp.c.mx.toInt) {s : Trio (BitVec 32)} (ea : s.a.toInt = t.a.toInt - fp.a.dc.toInt) (eb : s.b.toInt = t.b.toInt - fp.b.dc.toInt)
    (ec : s.c.toInt = t.c.toInt - fp.c.dc.toInt) (ba : |s.a.toInt| ≤ 2 ^ 22) (bb : |s.b.toInt| ≤ 2 ^ 22) (bc : |s.c.toInt| ≤ 2 ^ 22) :
    pixelInv single fp (single.ofInt (wordFwd s).a) (single.ofInt (wordFwd s).b) (single.ofInt (wordFwd s).c) = some t := by
  rw [abs_le] at ba bb bc
  obtain ⟨p, ep⟩ := pixelFwd_def (R := s.a) (G := s.b) (B := s.c) (by rw [abs_le]; omega) (by rw [abs_le]; omega) (by rw [abs_le]; omega)
  obtain ⟨rfl, ev⟩ := pixelFwd_some ep
  simp only [Dwt.rct, Prod.mk.injEq] at ev
  obtain ⟨v1, v2, v3⟩ := ev
  generalize wordFwd ⟨s.a, s.b, s.c⟩ = q at v1 v2 v3
  have c1 := single_cast (w := q.a) (by rw [abs_le]; omega)
  have c2 := single_cast (w := q.b) (by rw [abs_le]; omega)
  have c3 := single_cast (w := q.c) (by rw [abs_le]; omega)
  have e1 : addC q.b q.c = some (q.b + q.c) := addC_def (by omega)
  have t1 := (addC_some e1).2
  have t2 : ((q.b + q.c).sshiftRight 2).toInt = (q.b.toInt + q.c.toInt) / 4 := by rw [toInt_sra, t1]; norm_num
  have e2 : subC q.a ((q.b + q.c).sshiftRight 2) = some (q.a - (q.b + q.c).sshiftRight 2) := subC_def (by omega)
  have t3 := (subC_some e2).2
  generalize q.a - (q.b + q.c).sshiftRight 2 = G at e2 t3
  have e3 : addC q.c G = some (q.c + G) := addC_def (by omega)
  have t4 := (addC_some e3).2
  have e4 : addC q.b G = some (q.b + G) := addC_def (by omega)
  have t5 := (addC_some e4).2
  have cl : ∀ (l : Level) (w t : BitVec 32), l.mn.toInt ≤ t.toInt ∧ t.toInt ≤ l.mx.toInt → w.toInt = t.toInt - l.dc.toInt → clampC l w = some t := by
    intro l w t ht hw
    have r := BitVec.toInt_lt (x := t)
    have r' := BitVec.le_toInt (x := t)
    have e : addC w l.dc = some (w + l.dc) := addC_def (by rw [hw]; norm_num at r r' ⊢; omega)
    have tt : w + l.dc = t := BitVec.eq_of_toInt_eq (by rw [(addC_some e).2]; omega)
    unfold clampC
    rw [e, tt]
    have n1 : l.mx.slt t = false := by simp only [BitVec.slt, decide_eq_false_iff_not]; omega
    have n2 : t.slt l.mn = false := by simp only [BitVec.slt, decide_eq_false_iff_not]; omega
    simp [n1, n2]
  have k1 := cl fp.a (q.c + G) t.a ha (by omega)
  have k2 := cl fp.b G t.b hb (by omega)
  have k3 := cl fp.c (q.b + G) t.c hc (by omega)
  simp only [pixelInv, c1, c2, c3, e1, e2, e3, e4, k1, k2, k3, Option.bind_eq_bind, Option.bind_some, Option.pure_def]

/-- **C83.** A row of pixels that one build has level-shifted and transformed comes back from any other build. -/
theorem C83_lossless (enc dec : Build) (width : Nat) (fp : Trio Level) (t : Int → Trio (BitVec 32)) (src : Trio Mem) (flt : Trio (Buf Int)) (out : Trio Mem)
    (hsrc : ∀ k : Int, 0 ≤ k → k < width → ∃ s, Pixel src k s ∧ s.a.toInt = (t k).a.toInt - fp.a.dc.toInt ∧ s.b.toInt = (t k).b.toInt - fp.b.dc.toInt ∧ s.c.toInt = (t k).c.toInt - fp.c.dc.toInt ∧
      |s.a.toInt| ≤ 2 ^ 22 ∧ |s.b.toInt| ≤ 2 ^ 22 ∧ |s.c.toInt| ≤ 2 ^ 22)
    (ht : ∀ k : Int, 0 ≤ k → k < width → (fp.a.mn.toInt ≤ (t k).a.toInt ∧ (t k).a.toInt ≤ fp.a.mx.toInt) ∧ (fp.b.mn.toInt ≤ (t k).b.toInt ∧ (t k).b.toInt ≤ fp.b.mx.toInt) ∧
      (fp.c.mn.toInt ≤ (t k).c.toInt ∧ (t k).c.toInt ≤ fp.c.mx.toInt))
    (hflt : ∀ k : Int, 0 ≤ k → k < width → Present flt k) (hout : ∀ k : Int, 0 ≤ k → k < width → Present out k) :
    ∃ y z, fltForward single enc width src flt = some y ∧ fusedInverse single dec fp width y out = some z ∧
      (∀ k : Int, 0 ≤ k → k < width → Pixel z k (t k)) ∧ ∀ k : Int, k < 0 ∨ width ≤ k → SamePixel z out k := by
  classical
  by_cases hz : width = 0
  · subst hz
    have e1 : ∀ isa, fltForward single isa 0 src flt = some flt := by
      intro isa
      unfold fltForward
      have n1 : ∀ d e (b : Int → Trio (Buf Int) → Option (Trio (Buf Int))), sweep d e ((0 : Nat) : Int) b 0 flt = some (0, flt) := fun d e b => by rw [sweep, if_neg (by omega)]
      rw [n1]
      split_ifs <;> simp only [Option.bind_some, n1, Option.map_some]
    have e2 : ∀ isa, fusedInverse single isa fp 0 flt out = some out := by
      intro isa
      unfold fusedInverse
      have n1 : ∀ d e (b : Int → Trio Mem → Option (Trio Mem)), sweep d e ((0 : Nat) : Int) b 0 out = some (0, out) := fun d e b => by rw [sweep, if_neg (by omega)]
      rw [n1]
      split_ifs <;> simp only [Option.bind_some, n1, Option.map_some]
    exact ⟨flt, out, e1 enc, e2 dec, fun k h1 h2 => absurd h2 (by push_cast; omega), fun k _ => ⟨rfl, rfl, rfl⟩⟩
  let s : Int → Trio (BitVec 32) := fun k => ⟨(src.a k).getD 0, (src.b k).getD 0, (src.c k).getD 0⟩
  have hs : Holds src s 0 width := fun k h1 h2 => by
    obtain ⟨q, ⟨e1, e2, e3⟩, -⟩ := hsrc k h1 h2
    exact ⟨by simp [s, e1], by simp [s, e2], by simp [s, e3]⟩
  have hv : ∀ k : Int, 0 ≤ k → k < width → (s k).a.toInt = (t k).a.toInt - fp.a.dc.toInt ∧ (s k).b.toInt = (t k).b.toInt - fp.b.dc.toInt ∧ (s k).c.toInt = (t k).c.toInt - fp.c.dc.toInt ∧
      |(s k).a.toInt| ≤ 2 ^ 22 ∧ |(s k).b.toInt| ≤ 2 ^ 22 ∧ |(s k).c.toInt| ≤ 2 ^ 22 := fun k h1 h2 => by
    obtain ⟨q, ⟨e1, e2, e3⟩, h⟩ := hsrc k h1 h2
    simpa only [s, e1, e2, e3, Option.getD_some] using h
  obtain ⟨y, ey, hy⟩ := fltForward_run (u := single) (isa := enc) (s := s) (src := src) (x0 := flt) (width := width) (fun k h1 h2 => by
    obtain ⟨-, -, -, b1, b2, b3⟩ := hv k h1 h2
    exact pixelFwd_def (b1.trans (by norm_num)) (b2.trans (by norm_num)) (b3.trans (by norm_num))) hs hflt
  have back : ∀ k : Int, 0 ≤ k → k < width → pixelInv single fp (single.ofInt (wordFwd (s k)).a) (single.ofInt (wordFwd (s k)).b) (single.ofInt (wordFwd (s k)).c) = some (t k) := fun k h1 h2 => by
    obtain ⟨e1, e2, e3, b1, b2, b3⟩ := hv k h1 h2
    obtain ⟨t1, t2, t3⟩ := ht k h1 h2
    exact pixel_back t1 t2 t3 e1 e2 e3 b1 b2 b3
  obtain ⟨t1, t2, t3⟩ := ht 0 (le_refl _) (by omega)
  obtain ⟨z, ez, hz'⟩ := fusedInverse_run (u := single) (isa := dec) (fp := fp) (by omega) (by omega) (by omega) (src := y) (x0 := out) (width := width)
    (s := fun k => ⟨single.ofInt (wordFwd (s k)).a, single.ofInt (wordFwd (s k)).b, single.ofInt (wordFwd (s k)).c⟩) (fun k h1 h2 => (hy k).1 ⟨h1, h2⟩) hout
    (fun k h1 h2 => by rw [back k h1 h2]; rfl) (fun _ k _ _ => ⟨single_whole _ _, single_whole _ _, single_whole _ _⟩)
  refine ⟨y, z, ey, ez, fun k h1 h2 => ?_, fun k hk => (hz' k).2 (by omega)⟩
  have := (hz' k).1 ⟨h1, h2⟩
  simp only [pixOr, back k h1 h2, Option.getD_some] at this
  exact this

/-! ### Rows of the streaming encoder -/

/-- The rows have exactly `N` words. -/
def Rows (rows : Trio Mem) (N : Nat) : Prop := ∀ k : Int, ((rows.a k).isSome ↔ 0 ≤ k ∧ k < N) ∧ ((rows.b k).isSome ↔ 0 ≤ k ∧ k < N) ∧ ((rows.c k).isSome ↔ 0 ≤ k ∧ k < N)

/-- The part of the tile, rounded up to whole turns of the loop, lies in a row of `N` words; the AVX2 build needs a multiple of 32 bytes. -/
def Fits (isa : Build) (x0 width N : Nat) : Prop := width = 0 ∨ (x0 + roundUp width isa.step ≤ N ∧ (isa = .avx2 → x0 % 8 = 0))

/-- The three lists pushed are those of the transform of the shifted samples. -/
def Pushed (x0 width : Nat) (dco : Trio (BitVec 32)) (img out : Trio (List (BitVec 32))) : Prop :=
  out.a.length = width ∧ out.b.length = width ∧ out.c.length = width ∧
    ∀ k < width, ∃ R G B p q r, img.a[x0 + k]? = some R ∧ img.b[x0 + k]? = some G ∧ img.c[x0 + k]? = some B ∧ out.a[k]? = some p ∧ out.b[k]? = some q ∧ out.c[k]? = some r ∧
      ints ⟨p, q, r⟩ = Dwt.rct (R.toInt - dco.a.toInt, G.toInt - dco.b.toInt, B.toInt - dco.c.toInt)

/-- **C83.** For tiles inside an image of `W` columns: the streaming encoder pushes the transform of the samples if the tile fits, in every build. -/
theorem C83_stream_row (isa : Build) (x0 width W : Nat) (dco : Trio (BitVec 32)) (img : Trio (List (BitVec 32))) (rows : Trio Mem) (ha : img.a.length = W) (hb : img.b.length = W)
    (hc : img.c.length = W) (hrows : Rows rows (rowWords W)) (hin : x0 + width ≤ W) (va : ∀ v ∈ img.a, |v.toInt - dco.a.toInt| ≤ 2 ^ 28)
    (vb : ∀ v ∈ img.b, |v.toInt - dco.b.toInt| ≤ 2 ^ 28) (vc : ∀ v ∈ img.c, |v.toInt - dco.c.toInt| ≤ 2 ^ 28) (hfit : Fits isa x0 width (rowWords W)) :
    ∃ out, streamRow isa x0 width dco img rows = some out ∧ Pushed x0 width dco img out := by
  have hN : W ≤ rowWords W := by unfold rowWords roundUp; omega
  obtain ⟨a1, a2, ea1, ea2, ga, sa⟩ := shifted (l := img.a) (b := rows.a) (dco := dco.a) (off := x0) (width := width) (N := rowWords W) (fun k h1 h2 => (hrows k).1.2 ⟨h1, h2⟩) (by omega) (by omega) va
  obtain ⟨b1, b2, eb1, eb2, gb, sb⟩ := shifted (l := img.b) (b := rows.b) (dco := dco.b) (off := x0) (width := width) (N := rowWords W) (fun k h1 h2 => (hrows k).2.1.2 ⟨h1, h2⟩) (by omega) (by omega) vb
  obtain ⟨c1, c2, ec1, ec2, gc, sc⟩ := shifted (l := img.c) (b := rows.c) (dco := dco.c) (off := x0) (width := width) (N := rowWords W) (fun k h1 h2 => (hrows k).2.2.2 ⟨h1, h2⟩) (by omega) (by omega) vc
  let x : Trio Mem := ⟨a2, b2, c2⟩
  let s : Int → Trio (BitVec 32) := fun k => ⟨(a2 k).getD 0, (b2 k).getD 0, (c2 k).getD 0⟩
  have cells : ∀ k : Nat, x0 ≤ k → k < x0 + width → ∃ R G B, img.a[k]? = some R ∧ img.b[k]? = some G ∧ img.c[k]? = some B ∧ Pixel x k (s k) ∧
      ints (s k) = (R.toInt - dco.a.toInt, G.toInt - dco.b.toInt, B.toInt - dco.c.toInt) := by
    intro k h1 h2
    obtain ⟨R, r1, r2, r3⟩ := ga k h1 h2
    obtain ⟨G, g1, g2, g3⟩ := gb k h1 h2
    obtain ⟨B, b1, b2, b3⟩ := gc k h1 h2
    refine ⟨R, G, B, r1, g1, b1, ?_, ?_⟩
    · exact ⟨by simp [x, s, r2], by simp [x, s, g2], by simp [x, s, b2]⟩
    · simp only [ints, s, r2, g2, b2, Option.getD_some, r3, g3, b3]
  have step1 : width ≠ 0 → x0 + roundUp width isa.step ≤ rowWords W := fun h => by
    rcases hfit with h' | h'
    · omega
    · exact h'.1
  have step0 : roundUp 0 isa.step = 0 := by cases isa <;> decide
  have fin : ∃ z, intForward isa x0 width x = some z ∧ ∀ k : Int, (x0 : Int) ≤ k → k < x0 + width → ∃ p, Pixel z k p ∧ ints p = Dwt.rct (ints (s k)) := by
    by_cases hw : width = 0
    · subst hw
      refine ⟨x, ?_, fun k h1 h2 => absurd h2 (by push_cast; omega)⟩
      unfold intForward
      rw [sweep, if_neg (by simp)]
      rfl
    refine C83_forward_values isa x0 width x s (fun k h1 h2 => ?_) (fun k h1 h2 => ?_) (fun k h1 h2 => ?_) (fun h => ?_)
    · obtain ⟨R, G, B, -, -, -, h, -⟩ := cells k.toNat (by omega) (by omega)
      rwa [show ((k.toNat : Nat) : Int) = k by omega] at h
    · obtain ⟨R, G, B, e1, e2, e3, -, h⟩ := cells k.toNat (by omega) (by omega)
      rw [show ((k.toNat : Nat) : Int) = k by omega] at h
      simp only [ints, Prod.mk.injEq] at h
      rw [h.1, h.2.1, h.2.2]
      exact ⟨va R (List.mem_of_getElem? e1), vb G (List.mem_of_getElem? e2), vc B (List.mem_of_getElem? e3)⟩
    · have := step1 hw
      exact ⟨sa k (by omega) (by omega), sb k (by omega) (by omega), sc k (by omega) (by omega)⟩
    · rcases hfit with h' | h'
      · omega
      · have := h'.2 h
        omega
  obtain ⟨z, ez, hz⟩ := fin
  have read : ∀ (f : Trio (BitVec 32) → BitVec 32) (m : Mem), (∀ k : Int, (x0 : Int) ≤ k → k < x0 + width → ∀ p, Pixel z k p → m k = some (f p)) →
      ∃ l, Dwt.readBack x0 width m = some l ∧ l.length = width ∧ ∀ k < width, ∀ p, Pixel z ((x0 + k : Nat) : Int) p → l[k]? = some (f p) := by
    intro f m hm
    obtain ⟨l, e, hl, g⟩ := Dwt.readBack_spec (X := m) (s := fun k => (m k).getD 0) (left := x0) (w := width) (fun k h1 h2 => by
      obtain ⟨p, hp, -⟩ := hz k h1 (by omega)
      simp only [hm k h1 (by omega) p hp, Option.getD_some])
    refine ⟨l, e, hl, fun k hk p hp => ?_⟩
    have := g k (by omega) (by omega)
    rw [Int.toNat_natCast] at this
    rw [this, show ((k : Int) + x0) = ((x0 + k : Nat) : Int) by push_cast; ring, hm _ (by push_cast; omega) (by push_cast; omega) p hp]
    rfl
  obtain ⟨la, e1, l1, g1⟩ := read (fun p => p.a) z.a fun k _ _ p hp => hp.1
  obtain ⟨lb, e2, l2, g2⟩ := read (fun p => p.b) z.b fun k _ _ p hp => hp.2.1
  obtain ⟨lc, e3, l3, g3⟩ := read (fun p => p.c) z.c fun k _ _ p hp => hp.2.2
  refine ⟨⟨la, lb, lc⟩, ?_, l1, l2, l3, fun k hk => ?_⟩
  · simp only [streamRow, ea1, eb1, ec1, ea2, eb2, ec2, Option.bind_eq_bind, Option.bind_some, show intForward isa x0 width ⟨a2, b2, c2⟩ = some z from ez, e1, e2, e3, Option.pure_def]
  · obtain ⟨R, G, B, r1, r2, r3, -, h⟩ := cells (x0 + k) (by omega) (by omega)
    obtain ⟨p, hp, hv⟩ := hz ((x0 + k : Nat) : Int) (by push_cast; omega) (by push_cast; omega)
    exact ⟨R, G, B, p.a, p.b, p.c, r1, r2, r3, g1 k hk p hp, g2 k hk p hp, g3 k hk p hp, by rw [← h]; exact hv⟩

/-- **C83, negation.** In rows of `N` words the streaming encoder touches memory outside the row, or accesses a vector that is not aligned, whenever the tile does not fit. -/
theorem C83_stream_row_outside (isa : Build) (x0 width N : Nat) (dco : Trio (BitVec 32)) (img : Trio (List (BitVec 32))) (rows : Trio Mem) (hrows : Rows rows N)
    (hfit : ¬ Fits isa x0 width N) : streamRow isa x0 width dco img rows = none := by
  cases h : streamRow isa x0 width dco img rows with
  | none => rfl
  | some out =>
    exfalso
    simp only [streamRow, Option.bind_eq_bind, Option.bind_eq_some_iff] at h
    obtain ⟨a1, ha1, b1, -, c1, -, a2, ha2, b2, -, c2, -, y, hy, -⟩ := h
    obtain ⟨t1, t2⟩ := intForward_touch hy
    apply hfit
    by_cases hw : width = 0
    · exact Or.inl hw
    refine Or.inr ⟨?_, fun e => by have := t2 e (by omega); omega⟩
    have pos : width ≤ roundUp width isa.step := by unfold roundUp; cases isa <;> simp only [Build.step] <;> omega
    have := t1 (x0 + (roundUp width isa.step : Nat) - 1) (by omega) (by unfold reach; omega)
    have := (hrows _).1.1 (blit_sup ha1 _ (levelShift_sup ha2 _ this))
    omega

/-- **C83.** Images that start at column zero and tiles that start at a multiple of the turn always fit; without vectors every tile inside the image does. -/
theorem C83_aligned_tiles (isa : Build) (x0 width W : Nat) (hin : x0 + width ≤ W) (hal : x0 % isa.step = 0) : Fits isa x0 width (rowWords W) := by
  refine Or.inr ⟨?_, fun h => by subst h; exact hal⟩
  unfold rowWords roundUp
  cases isa <;> simp only [Build.step] at hal ⊢ <;> omega

/-- **C83, negation.** When the reference grid starts at `xo > 0` and the width of the image is a multiple of 32, the last tile fits in no build: its columns are counted from the
origin of the grid, but the row is as long as the image is wide. -/
theorem C83_origin_never_fits (isa : Build) (xo x0 width W : Nat) (hW : W % 32 = 0) (hxo : 0 < xo) (hw : 0 < width) (hend : x0 + width = xo + W) : ¬ Fits isa x0 width (rowWords W) := by
  intro h
  rcases h with h | ⟨h, -⟩
  · omega
  · have pos : width ≤ roundUp width isa.step := by unfold roundUp; cases isa <;> simp only [Build.step] <;> omega
    unfold rowWords at h
    have : roundUp W 32 = W := by unfold roundUp; omega
    omega

/-! ### The hypotheses are met -/

/-- Rows of `N` zeros. -/
def zeroRows (N : Nat) : Trio Mem :=
  let m : Mem := fun k => if 0 ≤ k ∧ k < N then some 0#32 else none
  ⟨m, m, m⟩

theorem zeroRows_rows (N : Nat) : Rows (zeroRows N) N := by
  intro k
  by_cases h : 0 ≤ k ∧ k < N <;> simp [zeroRows, h]

/-- Two tiles of 100 and 92 columns: the second fits without vectors and for WebAssembly, but for none of the other builds (NEON and AVX-512 write behind the row; AVX2 finds it
misaligned and would write behind it, too). -/
theorem C83_two_tiles : Fits .scalar 100 92 (rowWords 192) ∧ Fits .wasm 100 92 (rowWords 192) ∧ ¬ Fits .neon 100 92 (rowWords 192) ∧ ¬ Fits .avx2 100 92 (rowWords 192) ∧
    ¬ Fits .avx512 100 92 (rowWords 192) ∧ ∀ isa, Fits isa 0 100 (rowWords 192) := by
  refine ⟨Or.inr (by decide), Or.inr (by decide), ?_, ?_, ?_, fun isa => C83_aligned_tiles isa 0 100 192 (by decide) (by simp)⟩
  all_goals
    rintro (h | ⟨h, -⟩)
    · exact absurd h (by decide)
    · exact absurd h (by decide)

/-- A row of 192 pixels of one colour. -/
def plain : Trio (List (BitVec 32)) := ⟨List.replicate 192 200#32, List.replicate 192 3#32, List.replicate 192 7#32⟩

/-- The first tile of 100 columns goes through in every build, the second in none of the three. -/
example : (∀ isa, ∃ out, streamRow isa 0 100 ⟨128, 128, 128⟩ plain (zeroRows 192) = some out ∧ Pushed 0 100 ⟨128, 128, 128⟩ plain out) ∧
    ∀ isa, isa = .neon ∨ isa = .avx2 ∨ isa = .avx512 → streamRow isa 100 92 ⟨128, 128, 128⟩ plain (zeroRows 192) = none := by
  have z : Rows (zeroRows 192) (rowWords 192) := zeroRows_rows 192
  refine ⟨fun isa => C83_stream_row isa 0 100 192 _ plain _ List.length_replicate List.length_replicate List.length_replicate z (by decide)
    (fun v hv => by rw [List.eq_of_mem_replicate hv]; decide) (fun v hv => by rw [List.eq_of_mem_replicate hv]; decide) (fun v hv => by rw [List.eq_of_mem_replicate hv]; decide)
    (C83_two_tiles.2.2.2.2.2 isa), ?_⟩
  rintro isa (rfl | rfl | rfl)
  · exact C83_stream_row_outside _ _ _ _ _ _ _ z C83_two_tiles.2.2.1
  · exact C83_stream_row_outside _ _ _ _ _ _ _ z C83_two_tiles.2.2.2.1
  · exact C83_stream_row_outside _ _ _ _ _ _ _ z C83_two_tiles.2.2.2.2.1

/-- The scalar transform is defined on a row of zeros, and AVX-512 gives the same. -/
example : ∃ y z, intForward .scalar 0 20 (zeroRows 32) = some y ∧ intForward .avx512 0 20 (zeroRows 32) = some z ∧ ∀ k : Int, 0 ≤ k → k < 20 → SamePixel z y k := by
  obtain ⟨y, ey, -⟩ := intForward_scalar (s := fun _ => ⟨0, 0, 0⟩) (x0 := zeroRows 32) (off := 0) (width := 20) (fun _ _ _ => ⟨⟨0, 0, 0⟩, by decide⟩) (fun k h1 h2 => by
    have : 0 ≤ k ∧ k < 32 := ⟨h1, by push_cast at h2; omega⟩
    exact ⟨by simp [zeroRows, this], by simp [zeroRows, this], by simp [zeroRows, this]⟩)
  obtain ⟨z, ez, hz, -⟩ := C83_forward .avx512 0 20 _ y ey (fun k h1 h2 => by
    have : 0 ≤ k ∧ k < 32 := ⟨h1, by have : roundUp 20 Build.avx512.step = 32 := by decide
                                     rw [this] at h2; push_cast at h2; omega⟩
    simp [zeroRows, this]) (by decide)
  exact ⟨y, z, ey, ez, fun k h1 h2 => hz k h1 (by push_cast; omega)⟩

/-- Eight-bit samples: level 128, bounds 0 and 255, a row of 21 pixels encoded by AVX2 and decoded by NEON. -/
example : ∃ y z, fltForward single .avx2 21 ⟨fun _ => some (-28#32), fun _ => some 127#32, fun _ => some (-128#32)⟩ ⟨fun _ => some 0, fun _ => some 0, fun _ => some 0⟩ = some y ∧
    fusedInverse single .neon ⟨⟨128, 255, 0⟩, ⟨128, 255, 0⟩, ⟨128, 255, 0⟩⟩ 21 y ⟨fun _ => some 9#32, fun _ => some 9#32, fun _ => some 9#32⟩ = some z ∧
    ∀ k : Int, 0 ≤ k → k < 21 → Pixel z k ⟨100, 255, 0⟩ := by
  obtain ⟨y, z, h1, h2, h3, -⟩ := C83_lossless .avx2 .neon 21 ⟨⟨128, 255, 0⟩, ⟨128, 255, 0⟩, ⟨128, 255, 0⟩⟩ (fun _ => ⟨100, 255, 0⟩) ⟨fun _ => some (-28#32), fun _ => some 127#32, fun _ => some (-128#32)⟩
    ⟨fun _ => some 0, fun _ => some 0, fun _ => some 0⟩ ⟨fun _ => some 9#32, fun _ => some 9#32, fun _ => some 9#32⟩
    (fun _ _ _ => ⟨⟨-28#32, 127#32, -128#32⟩, ⟨rfl, rfl, rfl⟩, by decide⟩) (fun _ _ _ => by decide) (fun _ _ _ => ⟨rfl, rfl, rfl⟩) (fun _ _ _ => ⟨rfl, rfl, rfl⟩)
  exact ⟨y, z, h1, h2, h3⟩

/-- A grid that starts at column 32: the image of 64 columns is one tile. -/
example : ∀ isa, ¬ Fits isa 32 64 (rowWords 64) := fun isa => C83_origin_never_fits isa 32 32 64 64 (by decide) (by decide) (by decide) (by decide)

end Verif.Simd.Colour
