import Verif.Simd.Colour
import Verif.Simd.WideLemmas
import Verif.Dwt.MachineLemmas
/-
Lemmas about the colour transform of the vector builds.
-/
namespace Verif.Simd.Colour
open Verif.Dwt (Buf toFloat toInt32)
open Verif.Simd Verif.Simd.Lift Verif.Simd.Lift.Wide

/-! ### Three rows -/

/-- The three words at `k`. -/
def Pix {α : Type} (x : Trio (Buf α)) (k : Int) (p : Trio α) : Prop := x.a k = some p.a ∧ x.b k = some p.b ∧ x.c k = some p.c

/-- The same at `k`. -/
def Same {α : Type} (x y : Trio (Buf α)) (k : Int) : Prop := x.a k = y.a k ∧ x.b k = y.b k ∧ x.c k = y.c k

/-- All three rows have words from `lo` to `hi`. -/
def Full {α : Type} (x : Trio (Buf α)) (lo hi : Int) : Prop := ∀ k, lo ≤ k → k < hi → (x.a k).isSome ∧ (x.b k).isSome ∧ (x.c k).isSome

/-- `x` is `x0` with `f` stored from `lo` to `hi`. -/
def Run {α : Type} (f : Int → Trio α) (x0 : Trio (Buf α)) (lo hi : Int) (x : Trio (Buf α)) : Prop :=
  ∀ k, (lo ≤ k ∧ k < hi → Pix x k (f k)) ∧ (¬ (lo ≤ k ∧ k < hi) → Same x x0 k)

theorem Run.start {α : Type} (f : Int → Trio α) (x0 : Trio (Buf α)) (lo : Int) : Run f x0 lo lo x0 :=
  fun k => ⟨fun h => absurd h (by omega), fun _ => ⟨rfl, rfl, rfl⟩⟩

theorem Run.unique {α : Type} {f : Int → Trio α} {x0 x y : Trio (Buf α)} {lo hi : Int} (hx : Run f x0 lo hi x) (hy : Run f x0 lo hi y) : x = y := by
  obtain ⟨a, b, c⟩ := x
  obtain ⟨a', b', c'⟩ := y
  have key : ∀ k, a k = a' k ∧ b k = b' k ∧ c k = c' k := by
    intro k
    by_cases h : lo ≤ k ∧ k < hi
    · obtain ⟨p1, p2, p3⟩ := (hx k).1 h
      obtain ⟨q1, q2, q3⟩ := (hy k).1 h
      exact ⟨p1.trans q1.symm, p2.trans q2.symm, p3.trans q3.symm⟩
    · obtain ⟨p1, p2, p3⟩ := (hx k).2 h
      obtain ⟨q1, q2, q3⟩ := (hy k).2 h
      exact ⟨p1.trans q1.symm, p2.trans q2.symm, p3.trans q3.symm⟩
  rw [show a = a' from funext fun k => (key k).1, show b = b' from funext fun k => (key k).2.1, show c = c' from funext fun k => (key k).2.2]

theorem loadB_some {α : Type} {L : Nat} {b : Buf α} {m : Int} {v : Fin L → α} (h : ∀ i : Fin L, b (m + (i.val : Int)) = some (v i)) : loadB L b m = some v := by
  unfold loadB
  rw [dif_pos (fun i => by rw [h i]; rfl)]
  congr 1
  funext i
  simp [h i]

theorem storeB_some {α : Type} {L : Nat} {b : Buf α} {m : Int} (v : Fin L → α) (h : ∀ k, m ≤ k → k < m + L → (b k).isSome) :
    ∃ b', storeB b m v = some b' ∧ (∀ k (h : m ≤ k ∧ k < m + L), b' k = some (v ⟨(k - m).toNat, by omega⟩)) ∧ ∀ k, ¬ (m ≤ k ∧ k < m + L) → b' k = b k := by
  unfold storeB
  rw [if_pos (fun i => h _ (by omega) (by have := i.isLt; omega))]
  exact ⟨_, rfl, fun k hk => by simp [hk], fun k hk => by simp [hk]⟩

/-- What is stored after `Run` has come to `m`. -/
theorem Run.full {α : Type} {f : Int → Trio α} {x0 x : Trio (Buf α)} {lo m hi : Int} (h : Run f x0 lo m x) (hf : Full x0 m hi) : Full x m hi := by
  intro k h1 h2
  obtain ⟨e1, e2, e3⟩ := (h k).2 (by omega)
  rw [e1, e2, e3]
  exact hf k h1 h2

theorem Run.store {α : Type} {L : Nat} {f : Int → Trio α} {x0 x : Trio (Buf α)} {lo m : Int} (h : Run f x0 lo m x) (hlo : lo ≤ m) (hf : Full x0 m (m + L))
    {va vb vc : Fin L → α} (hv : ∀ i : Fin L, va i = (f (m + i.val)).a ∧ vb i = (f (m + i.val)).b ∧ vc i = (f (m + i.val)).c) :
    ∃ a b c, storeB x.a m va = some a ∧ storeB x.b m vb = some b ∧ storeB x.c m vc = some c ∧ Run f x0 lo (m + L) ⟨a, b, c⟩ := by
  have hx := h.full hf
  obtain ⟨a, ea, a1, a2⟩ := storeB_some va fun k h1 h2 => (hx k h1 h2).1
  obtain ⟨b, eb, b1, b2⟩ := storeB_some vb fun k h1 h2 => (hx k h1 h2).2.1
  obtain ⟨c, ec, c1, c2⟩ := storeB_some vc fun k h1 h2 => (hx k h1 h2).2.2
  refine ⟨a, b, c, ea, eb, ec, fun k => ?_⟩
  by_cases hk : m ≤ k ∧ k < m + L
  · refine ⟨fun _ => ?_, fun hn => absurd ⟨by omega, hk.2⟩ hn⟩
    have := hv ⟨(k - m).toNat, by omega⟩
    simp only [show m + (((k - m).toNat : Nat) : Int) = k by omega] at this
    exact ⟨(a1 k hk).trans (by rw [this.1]), (b1 k hk).trans (by rw [this.2.1]), (c1 k hk).trans (by rw [this.2.2])⟩
  · refine ⟨fun hk' => ?_, fun hn => ?_⟩
    · obtain ⟨p1, p2, p3⟩ := (h k).1 ⟨hk'.1, by omega⟩
      exact ⟨(a2 k hk).trans p1, (b2 k hk).trans p2, (c2 k hk).trans p3⟩
    · obtain ⟨p1, p2, p3⟩ := (h k).2 (by omega)
      exact ⟨(a2 k hk).trans p1, (b2 k hk).trans p2, (c2 k hk).trans p3⟩

theorem putB_some {α : Type} {b : Buf α} {m : Int} (v : α) (h : (b m).isSome) : putB b m v = some (Function.update b m (some v)) := if_pos h

theorem Run.put {α : Type} {f : Int → Trio α} {x0 x : Trio (Buf α)} {lo m : Int} (h : Run f x0 lo m x) (hlo : lo ≤ m) (hf : Full x0 m (m + 1)) {p : Trio α} (hp : p = f m) :
    ∃ a b c, putB x.a m p.a = some a ∧ putB x.b m p.b = some b ∧ putB x.c m p.c = some c ∧ Run f x0 lo (m + 1) ⟨a, b, c⟩ := by
  obtain ⟨f1, f2, f3⟩ := h.full hf m (le_refl _) (by omega)
  refine ⟨_, _, _, putB_some _ f1, putB_some _ f2, putB_some _ f3, fun k => ?_⟩
  by_cases hk : k = m
  · subst hk hp
    exact ⟨fun _ => ⟨by simp, by simp, by simp⟩, fun hn => absurd ⟨hlo, by omega⟩ hn⟩
  · refine ⟨fun hk' => ?_, fun hn => ?_⟩
    · obtain ⟨p1, p2, p3⟩ := (h k).1 ⟨hk'.1, by omega⟩
      exact ⟨by simp [Function.update, hk, p1], by simp [Function.update, hk, p2], by simp [Function.update, hk, p3]⟩
    · obtain ⟨p1, p2, p3⟩ := (h k).2 (by omega)
      exact ⟨by simp [Function.update, hk, p1], by simp [Function.update, hk, p2], by simp [Function.update, hk, p3]⟩

/-! ### Words -/

/-- The transform of a pixel, with wrap-around. -/
def wordFwd (p : Trio (BitVec 32)) : Trio (BitVec 32) := ⟨(p.a + (p.b + p.b) + p.c).sshiftRight 2, p.c - p.b, p.a - p.b⟩

theorem addC_some {a b c : BitVec 32} (h : addC a b = some c) : c = a + b ∧ c.toInt = a.toInt + b.toInt := by
  unfold addC at h
  split at h
  · cases h
  · rename_i hn
    cases h
    refine ⟨rfl, ?_⟩
    rw [BitVec.toInt_add_of_not_saddOverflow (by simpa using hn)]

theorem subC_some {a b c : BitVec 32} (h : subC a b = some c) : c = a - b ∧ c.toInt = a.toInt - b.toInt := by
  unfold subC at h
  split at h
  · cases h
  · rename_i hn
    cases h
    refine ⟨rfl, ?_⟩
    rw [BitVec.toInt_sub_of_not_ssubOverflow (by simpa using hn)]

theorem addC_def {a b : BitVec 32} (h : -2 ^ 31 ≤ a.toInt + b.toInt ∧ a.toInt + b.toInt < 2 ^ 31) : addC a b = some (a + b) := by
  unfold addC
  rw [if_neg]
  unfold BitVec.saddOverflow
  simp only [Bool.or_eq_true, decide_eq_true_eq]
  omega

theorem subC_def {a b : BitVec 32} (h : -2 ^ 31 ≤ a.toInt - b.toInt ∧ a.toInt - b.toInt < 2 ^ 31) : subC a b = some (a - b) := by
  unfold subC
  rw [if_neg]
  unfold BitVec.ssubOverflow
  simp only [Bool.or_eq_true, decide_eq_true_eq]
  omega

theorem pixelFwd_some {R G B : BitVec 32} {p : Trio (BitVec 32)} (h : pixelFwd R G B = some p) :
    p = wordFwd ⟨R, G, B⟩ ∧ (p.a.toInt, p.b.toInt, p.c.toInt) = Dwt.rct (R.toInt, G.toInt, B.toInt) := by
  simp only [pixelFwd, Option.bind_eq_bind, Option.bind_eq_some_iff, Option.pure_def, Option.some.injEq] at h
  obtain ⟨g2, h1, s, h2, t, h3, cb, h4, cr, h5, rfl⟩ := h
  obtain ⟨rfl, e1⟩ := addC_some h1
  obtain ⟨rfl, e2⟩ := addC_some h2
  obtain ⟨rfl, e3⟩ := addC_some h3
  obtain ⟨rfl, e4⟩ := subC_some h4
  obtain ⟨rfl, e5⟩ := subC_some h5
  refine ⟨rfl, ?_⟩
  simp only [Dwt.rct, toInt_sra, e4, e5, e3, e2, e1]
  norm_num
  congr 1
  omega

theorem pixelFwd_def {R G B : BitVec 32} (hR : |R.toInt| ≤ 2 ^ 28) (hG : |G.toInt| ≤ 2 ^ 28) (hB : |B.toInt| ≤ 2 ^ 28) : ∃ p, pixelFwd R G B = some p := by
  rw [abs_le] at hR hG hB
  have e1 : addC G G = some (G + G) := addC_def (by omega)
  have t1 := (addC_some e1).2
  have e2 : addC R (G + G) = some (R + (G + G)) := addC_def (by omega)
  have t2 := (addC_some e2).2
  have e3 : addC (R + (G + G)) B = some (R + (G + G) + B) := addC_def (by omega)
  have e4 : subC B G = some (B - G) := subC_def (by omega)
  have e5 : subC R G = some (R - G) := subC_def (by omega)
  simp [pixelFwd, e1, e2, e3, e4, e5]

theorem sumFwd_eq {L : Nat} (isa : Build) (R G B : V L) (i : Fin L) : sumFwd isa R G B i = R i + (G i + G i) + B i := by
  unfold sumFwd
  split <;> simp only [vadd] <;> ac_rfl

/-! ### In place -/

/-- The words of the rows from `lo` to `hi`. -/
def Holds {α : Type} (x : Trio (Buf α)) (s : Int → Trio α) (lo hi : Int) : Prop := ∀ k, lo ≤ k → k < hi → Pix x k (s k)

theorem Holds.full {α : Type} {x : Trio (Buf α)} {s : Int → Trio α} {lo hi : Int} (h : Holds x s lo hi) : Full x lo hi := by
  intro k h1 h2
  obtain ⟨e1, e2, e3⟩ := h k h1 h2
  rw [e1, e2, e3]; exact ⟨rfl, rfl, rfl⟩

theorem intReg_run {L : Nat} {isa : Build} {s : Int → Trio (BitVec 32)} {x0 x : Trio Mem} {lo m : Int} (h : Run (fun k => wordFwd (s k)) x0 lo m x) (hlo : lo ≤ m)
    (hs : Holds x0 s m (m + L)) : ∃ x', intReg L isa m x = some x' ∧ Run (fun k => wordFwd (s k)) x0 lo (m + L) x' := by
  have g : ∀ i : Fin L, Pix x (m + (i.val : Int)) (s (m + i.val)) := by
    intro i
    obtain ⟨e1, e2, e3⟩ := (h (m + (i.val : Int))).2 (by omega)
    obtain ⟨f1, f2, f3⟩ := hs (m + (i.val : Int)) (by omega) (by have := i.isLt; omega)
    exact ⟨e1.trans f1, e2.trans f2, e3.trans f3⟩
  have l1 := loadB_some (L := L) (b := x.a) (m := m) fun i => (g i).1
  have l2 := loadB_some (L := L) (b := x.b) (m := m) fun i => (g i).2.1
  have l3 := loadB_some (L := L) (b := x.c) (m := m) fun i => (g i).2.2
  obtain ⟨a, b, c, ea, eb, ec, hr⟩ := h.store hlo hs.full (va := vsrai (sumFwd isa (fun i : Fin L => (s (m + i.val)).a) (fun i => (s (m + i.val)).b) fun i => (s (m + i.val)).c) 2)
    (vb := vsub (fun i : Fin L => (s (m + i.val)).c) fun i => (s (m + i.val)).b) (vc := vsub (fun i : Fin L => (s (m + i.val)).a) fun i => (s (m + i.val)).b)
    (fun i => ⟨by simp only [vsrai, sumFwd_eq, wordFwd]; norm_num, rfl, rfl⟩)
  exact ⟨_, by simp only [intReg, l1, l2, l3, Option.bind_some, ea, eb, ec, Option.map_some], hr⟩

/-- Words that are touched. -/
def reach (isa : Build) (width : Nat) : Nat := roundUp width isa.step

theorem intTurn_run {isa : Build} (hv : isa ≠ .scalar) {s : Int → Trio (BitVec 32)} {x0 x : Trio Mem} {lo m : Int} (h : Run (fun k => wordFwd (s k)) x0 lo m x) (hlo : lo ≤ m)
    (hal : isa = .avx2 → m % 8 = 0) (hs : Holds x0 s m (m + isa.step)) : ∃ x', intTurn isa m x = some x' ∧ Run (fun k => wordFwd (s k)) x0 lo (m + isa.step) x' := by
  cases isa with
  | scalar => exact absurd rfl hv
  | wasm => exact intReg_run h hlo hs
  | avx512 => exact intReg_run h hlo hs
  | avx2 =>
    unfold intTurn
    simp only [if_pos (hal rfl)]
    exact intReg_run h hlo hs
  | neon =>
    simp only [Build.step] at hs ⊢
    obtain ⟨x1, e1, r1⟩ := intReg_run (L := 4) (isa := .neon) h hlo (fun k h1 h2 => hs k h1 (by push_cast at h2 ⊢; omega))
    obtain ⟨x2, e2, r2⟩ := intReg_run (L := 4) (isa := .neon) r1 (by push_cast; omega) (fun k h1 h2 => hs k (by push_cast at h1; omega) (by push_cast at h2 ⊢; omega))
    refine ⟨x2, ?_, ?_⟩
    · unfold intTurn; simp only [e1, Option.bind_some]; exact e2
    · have := r2
      push_cast at this ⊢
      rw [show m + 4 + 4 = m + 8 by ring] at this
      exact this

/-- The vector builds. -/
theorem intForward_vector {isa : Build} (hv : isa ≠ .scalar) {s : Int → Trio (BitVec 32)} {x0 : Trio Mem} {off : Int} {width : Nat} (hal : isa = .avx2 → 0 < width → off % 8 = 0)
    (hs : Holds x0 s off (off + reach isa width)) : ∃ y, intForward isa off width x0 = some y ∧ Run (fun k => wordFwd (s k)) x0 off (off + reach isa width) y := by
  have hstep : 0 < isa.step := by cases isa <;> decide
  obtain ⟨i', x', e, ⟨hr, h0, hd, hle⟩, hx⟩ := sweep_run (d := isa.step) (e := 0) hstep (n := (width : Int)) (body := fun i x => intTurn isa (off + i) x)
    (P := fun i x => Run (fun k => wordFwd (s k)) x0 off (off + i) x ∧ 0 ≤ i ∧ i % isa.step = 0 ∧ i ≤ reach isa width) (i := 0) (x := x0)
    ⟨by simpa using Run.start _ x0 off, le_refl _, by simp, by positivity⟩ (by
      intro i x ⟨hr, h0, hd, hle⟩ hlt
      have hin : i + isa.step ≤ reach isa width := by
        unfold reach roundUp
        cases isa <;> simp only [Build.step] at hd ⊢ <;> omega
      obtain ⟨x', e, hr'⟩ := intTurn_run hv hr (by omega) (fun h => by
          have := hal h (by omega)
          subst h
          simp only [Build.step] at hd
          omega) (fun k h1 h2 => hs k (by omega) (by omega))
      refine ⟨x', e, ?_, by omega, ?_, hin⟩
      · rw [← add_assoc]; exact hr'
      · cases isa <;> simp only [Build.step] at hd ⊢ <;> omega)
  have hend : i' = reach isa width := by
    unfold reach roundUp at hle ⊢
    cases isa <;> simp only [Build.step] at hd hle ⊢ <;> omega
  subst hend
  exact ⟨x', by unfold intForward; rw [e]; rfl, hr⟩

/-- The build without vectors. -/
theorem intForward_scalar {s : Int → Trio (BitVec 32)} {x0 : Trio Mem} {off : Int} {width : Nat} (hp : ∀ k, off ≤ k → k < off + width → ∃ p, pixelFwd (s k).a (s k).b (s k).c = some p)
    (hs : Holds x0 s off (off + width)) : ∃ y, intForward .scalar off width x0 = some y ∧ Run (fun k => wordFwd (s k)) x0 off (off + width) y := by
  obtain ⟨i', x', e, ⟨hr, h0, hle⟩, hx⟩ := sweep_run (d := 1) (e := 0) (by decide) (n := (width : Int)) (body := fun i x => intTurn .scalar (off + i) x)
    (P := fun i x => Run (fun k => wordFwd (s k)) x0 off (off + i) x ∧ 0 ≤ i ∧ i ≤ width) (i := 0) (x := x0)
    ⟨by simpa using Run.start _ x0 off, le_refl _, by positivity⟩ (by
      intro i x ⟨hr, h0, hle⟩ hlt
      push_cast at hlt
      have hin := hs (off + i) (by omega) (by omega)
      obtain ⟨p, ep⟩ := hp (off + i) (by omega) (by omega)
      obtain ⟨q1, q2, q3⟩ := (hr (off + i)).2 (by omega)
      obtain ⟨r1, r2, r3⟩ := hin
      obtain ⟨a, b, c, ea, eb, ec, hr'⟩ := hr.put (by omega) (fun k h1 h2 => hs.full k (by omega) (by omega)) (pixelFwd_some ep).1
      refine ⟨⟨a, b, c⟩, ?_, by push_cast; rw [← add_assoc]; exact hr', by push_cast; omega, by push_cast; omega⟩
      unfold intTurn
      simp only [q1, q2, q3, r1, r2, r3, Option.bind_some, ep]
      rw [show Lift.put x.a (off + i) p.a = some a from ea, show Lift.put x.b (off + i) p.b = some b from eb, show Lift.put x.c (off + i) p.c = some c from ec]
      rfl)
  have hend : i' = width := by omega
  subst hend
  exact ⟨x', by unfold intForward; simp only [Build.step]; rw [e]; rfl, hr⟩

/-! ### Into rows of floats -/

theorem fltReg_run {F : Type} {u : Fpu F} {L : Nat} {s : Int → Trio (BitVec 32)} {src : Trio Mem} {x0 x : Trio (Buf F)} {lo m : Int}
    (h : Run (fun k => ⟨u.ofInt (wordFwd (s k)).a, u.ofInt (wordFwd (s k)).b, u.ofInt (wordFwd (s k)).c⟩) x0 lo m x) (hlo : lo ≤ m)
    (hs : Holds src s m (m + L)) (hf : Full x0 m (m + L)) :
    ∃ x', fltReg u L src m x = some x' ∧ Run (fun k => ⟨u.ofInt (wordFwd (s k)).a, u.ofInt (wordFwd (s k)).b, u.ofInt (wordFwd (s k)).c⟩) x0 lo (m + L) x' := by
  have g : ∀ i : Fin L, Pix src (m + (i.val : Int)) (s (m + i.val)) := fun i => hs _ (by omega) (by have := i.isLt; omega)
  have l1 := loadB_some (L := L) (b := src.a) (m := m) fun i => (g i).1
  have l2 := loadB_some (L := L) (b := src.b) (m := m) fun i => (g i).2.1
  have l3 := loadB_some (L := L) (b := src.c) (m := m) fun i => (g i).2.2
  obtain ⟨a, b, c, ea, eb, ec, hr⟩ := h.store hlo hf
    (va := fun i => u.ofInt (vsrai (vadd (vadd (fun i : Fin L => (s (m + i.val)).a) fun i => (s (m + i.val)).c) (vadd (fun i => (s (m + i.val)).b) fun i => (s (m + i.val)).b)) 2 i))
    (vb := fun i => u.ofInt (vsub (fun i : Fin L => (s (m + i.val)).c) (fun i => (s (m + i.val)).b) i))
    (vc := fun i => u.ofInt (vsub (fun i : Fin L => (s (m + i.val)).a) (fun i => (s (m + i.val)).b) i))
    (fun i => ⟨by
      simp only [vsrai, vadd, wordFwd]
      norm_num
      congr 2
      ac_rfl, rfl, rfl⟩)
  exact ⟨_, by simp only [fltReg, l1, l2, l3, Option.bind_some, ea, eb, ec, Option.map_some], hr⟩

theorem regs_run {F : Type} {u : Fpu F} {isa : Build} {s : Int → Trio (BitVec 32)} {src : Trio Mem} {x0 x : Trio (Buf F)} {lo m : Int}
    (h : Run (fun k => ⟨u.ofInt (wordFwd (s k)).a, u.ofInt (wordFwd (s k)).b, u.ofInt (wordFwd (s k)).c⟩) x0 lo m x) (hlo : lo ≤ m)
    (hs : Holds src s m (m + isa.step)) (hf : Full x0 m (m + isa.step)) :
    ∃ x', regs isa (fun L m x => fltReg u L src m x) m x = some x' ∧
      Run (fun k => ⟨u.ofInt (wordFwd (s k)).a, u.ofInt (wordFwd (s k)).b, u.ofInt (wordFwd (s k)).c⟩) x0 lo (m + isa.step) x' := by
  cases isa with
  | scalar => exact fltReg_run h hlo hs hf
  | wasm => exact fltReg_run h hlo hs hf
  | avx512 => exact fltReg_run h hlo hs hf
  | avx2 => exact fltReg_run h hlo hs hf
  | neon =>
    simp only [Build.step] at hs hf ⊢
    obtain ⟨x1, e1, r1⟩ := fltReg_run (L := 4) h hlo (fun k h1 h2 => hs k h1 (by push_cast at h2 ⊢; omega)) (fun k h1 h2 => hf k h1 (by push_cast at h2 ⊢; omega))
    obtain ⟨x2, e2, r2⟩ := fltReg_run (L := 4) r1 (by push_cast; omega) (fun k h1 h2 => hs k (by push_cast at h1; omega) (by push_cast at h2 ⊢; omega))
      (fun k h1 h2 => hf k (by push_cast at h1; omega) (by push_cast at h2 ⊢; omega))
    refine ⟨x2, ?_, ?_⟩
    · unfold regs; simp only [e1, Option.bind_some]; exact e2
    · have := r2
      push_cast at this ⊢
      rw [show m + 4 + 4 = m + 8 by ring] at this
      exact this

theorem fltForward_run {F : Type} {u : Fpu F} {isa : Build} {s : Int → Trio (BitVec 32)} {src : Trio Mem} {x0 : Trio (Buf F)} {width : Nat}
    (hp : ∀ k : Int, 0 ≤ k → k < width → ∃ p, pixelFwd (s k).a (s k).b (s k).c = some p) (hs : Holds src s 0 width) (hf : Full x0 0 width) :
    ∃ y, fltForward u isa width src x0 = some y ∧ Run (fun k => ⟨u.ofInt (wordFwd (s k)).a, u.ofInt (wordFwd (s k)).b, u.ofInt (wordFwd (s k)).c⟩) x0 0 width y := by
  have hstep : 0 < isa.step := by cases isa <;> decide
  have first : ∃ i x, (if isa = .scalar then some (0, x0) else sweep isa.step (isa.step - 1) width (regs isa fun L m x => fltReg u L src m x) 0 x0) = some (i, x) ∧
      Run (fun k => ⟨u.ofInt (wordFwd (s k)).a, u.ofInt (wordFwd (s k)).b, u.ofInt (wordFwd (s k)).c⟩) x0 0 i x ∧ 0 ≤ i ∧ i ≤ width := by
    by_cases hc : isa = .scalar
    · rw [if_pos hc]
      exact ⟨0, x0, rfl, Run.start _ x0 0, le_refl _, by positivity⟩
    · rw [if_neg hc]
      obtain ⟨i', x', e, hP, -⟩ := sweep_run (d := isa.step) (e := isa.step - 1) hstep (n := (width : Int)) (body := regs isa fun L m x => fltReg u L src m x)
        (P := fun i x => Run (fun k => ⟨u.ofInt (wordFwd (s k)).a, u.ofInt (wordFwd (s k)).b, u.ofInt (wordFwd (s k)).c⟩) x0 0 i x ∧ 0 ≤ i ∧ i ≤ width) (i := 0) (x := x0)
        ⟨Run.start _ x0 0, le_refl _, by positivity⟩ (by
          intro i x ⟨hr, h0, hle⟩ hlt
          obtain ⟨x', e, hr'⟩ := regs_run (isa := isa) hr h0 (fun k h1 h2 => hs k (by omega) (by omega)) (fun k h1 h2 => hf k (by omega) (by omega))
          exact ⟨x', e, hr', by omega, by omega⟩)
      exact ⟨i', x', e, hP⟩
  obtain ⟨i, x, e, hr, h0, hle⟩ := first
  obtain ⟨i', x', e', ⟨hr', h0', hle'⟩, hx⟩ := sweep_run (d := 1) (e := 0) (by decide) (n := (width : Int)) (body := fltPixel u src)
    (P := fun i x => Run (fun k => ⟨u.ofInt (wordFwd (s k)).a, u.ofInt (wordFwd (s k)).b, u.ofInt (wordFwd (s k)).c⟩) x0 0 i x ∧ 0 ≤ i ∧ i ≤ width) (i := i) (x := x)
    ⟨hr, h0, hle⟩ (by
      intro i x ⟨hr, h0, hle⟩ hlt
      push_cast at hlt
      obtain ⟨q1, q2, q3⟩ := hs i (by omega) (by omega)
      obtain ⟨p, ep⟩ := hp i (by omega) (by omega)
      obtain ⟨a, b, c, ea, eb, ec, hr'⟩ := hr.put (p := ⟨u.ofInt p.a, u.ofInt p.b, u.ofInt p.c⟩) (by omega) (fun k h1 h2 => hf k (by omega) (by omega)) (by rw [(pixelFwd_some ep).1])
      exact ⟨⟨a, b, c⟩, by unfold fltPixel; simp only [q1, q2, q3, Option.bind_some, ep, ea, eb, ec, Option.map_some], hr', by push_cast; omega, by push_cast; omega⟩)
  have hend : i' = width := by omega
  subst hend
  refine ⟨x', ?_, hr'⟩
  unfold fltForward
  rw [e, Option.bind_some]
  simp only [e', Option.map_some]

/-! ### Back -/

theorem clamp_order {l : Level} (ho : l.mn.toInt ≤ l.mx.toInt) (t : BitVec 32) :
    (if l.mx.slt (if t.slt l.mn then l.mn else t) then l.mx else if t.slt l.mn then l.mn else t) =
      if (if l.mx.slt t then l.mx else t).slt l.mn then l.mn else if l.mx.slt t then l.mx else t := by
  have n : l.mx.slt l.mn = false := by simp only [BitVec.slt, decide_eq_false_iff_not]; omega
  cases c1 : t.slt l.mn <;> cases c2 : l.mx.slt t <;> simp [c1, c2, n]
  simp only [BitVec.slt, decide_eq_true_eq] at c1 c2
  omega

theorem clamp_eq {k : Nat} {isa : Build} {l : Level} (ho : l.mn.toInt ≤ l.mx.toInt) {v : V k} {i : Fin k} {w : BitVec 32} (h : clampC l (v i) = some w) : clampV isa l v i = w := by
  unfold clampC at h
  obtain ⟨t, h1, rfl⟩ := Option.map_eq_some_iff.1 h
  obtain ⟨rfl, -⟩ := addC_some h1
  unfold clampV
  cases isa
  case neon => rfl
  all_goals exact clamp_order ho _

/-- What the synthesis stores. -/
def pixOr {F : Type} (u : Fpu F) (fp : Trio Level) (p : Trio F) : Trio (BitVec 32) := (pixelInv u fp p.a p.b p.c).getD ⟨0, 0, 0⟩

/-- The number is whole: the conversion of the build agrees with the cast. -/
def Whole {F : Type} (u : Fpu F) (isa : Build) (v : F) : Prop := ∀ w, u.cast v = some w → u.conv isa v = w

theorem invReg_run {F : Type} {u : Fpu F} {isa : Build} {fp : Trio Level} (h1 : fp.a.mn.toInt ≤ fp.a.mx.toInt) (h2 : fp.b.mn.toInt ≤ fp.b.mx.toInt) (h3 : fp.c.mn.toInt ≤ fp.c.mx.toInt)
    {L : Nat} {s : Int → Trio F} {src : Trio (Buf F)} {x0 x : Trio Mem} {lo m : Int} (h : Run (fun k => pixOr u fp (s k)) x0 lo m x) (hlo : lo ≤ m)
    (hs : Holds src s m (m + L)) (hf : Full x0 m (m + L)) (hp : ∀ k, m ≤ k → k < m + L → (pixelInv u fp (s k).a (s k).b (s k).c).isSome)
    (hw : ∀ k, m ≤ k → k < m + L → Whole u isa (s k).a ∧ Whole u isa (s k).b ∧ Whole u isa (s k).c) :
    ∃ x', invReg u isa fp src L m x = some x' ∧ Run (fun k => pixOr u fp (s k)) x0 lo (m + L) x' := by
  have g : ∀ i : Fin L, Pix src (m + (i.val : Int)) (s (m + i.val)) := fun i => hs _ (by omega) (by have := i.isLt; omega)
  have l1 := loadB_some (L := L) (b := src.a) (m := m) fun i => (g i).1
  have l2 := loadB_some (L := L) (b := src.b) (m := m) fun i => (g i).2.1
  have l3 := loadB_some (L := L) (b := src.c) (m := m) fun i => (g i).2.2
  have key : ∀ i : Fin L,
      let Y : V L := fun i => u.conv isa (s (m + i.val)).a
      let Cb : V L := fun i => u.conv isa (s (m + i.val)).b
      let Cr : V L := fun i => u.conv isa (s (m + i.val)).c
      let G := vsub Y (vsrai (vadd Cb Cr) 2)
      clampV isa fp.a (vadd Cr G) i = (pixOr u fp (s (m + i.val))).a ∧ clampV isa fp.b G i = (pixOr u fp (s (m + i.val))).b ∧
        clampV isa fp.c (vadd Cb G) i = (pixOr u fp (s (m + i.val))).c := by
    intro i
    obtain ⟨p, ep⟩ := Option.isSome_iff_exists.1 (hp (m + i.val) (by omega) (by have := i.isLt; omega))
    obtain ⟨w1, w2, w3⟩ := hw (m + i.val) (by omega) (by have := i.isLt; omega)
    unfold pixOr
    rw [ep]
    simp only [pixelInv, Option.bind_eq_bind, Option.bind_eq_some_iff, Option.pure_def, Option.some.injEq] at ep
    obtain ⟨Y, cY, Cb, cCb, Cr, cCr, t, a1, G, a2, r, a3, r', a4, g', a5, b, a6, b', a7, rfl⟩ := ep
    obtain ⟨rfl, -⟩ := addC_some a1
    obtain ⟨rfl, -⟩ := subC_some a2
    obtain ⟨rfl, -⟩ := addC_some a3
    obtain ⟨rfl, -⟩ := addC_some a6
    have y1 := w1 _ cY
    have y2 := w2 _ cCb
    have y3 := w3 _ cCr
    refine ⟨clamp_eq h1 ?_, clamp_eq h2 ?_, clamp_eq h3 ?_⟩ <;> simp only [vadd, vsub, vsrai, y1, y2, y3] <;> assumption
  obtain ⟨a, b, c, ea, eb, ec, hr⟩ := h.store hlo hf key
  exact ⟨_, by simp only [invReg, l1, l2, l3, Option.bind_some, ea, eb, ec, Option.map_some], hr⟩

theorem fusedInverse_run {F : Type} {u : Fpu F} {isa : Build} {fp : Trio Level} (h1 : fp.a.mn.toInt ≤ fp.a.mx.toInt) (h2 : fp.b.mn.toInt ≤ fp.b.mx.toInt)
    (h3 : fp.c.mn.toInt ≤ fp.c.mx.toInt) {s : Int → Trio F} {src : Trio (Buf F)} {x0 : Trio Mem} {width : Nat} (hs : Holds src s 0 width) (hf : Full x0 0 width)
    (hp : ∀ k : Int, 0 ≤ k → k < width → (pixelInv u fp (s k).a (s k).b (s k).c).isSome) (hw : isa ≠ .scalar → ∀ k : Int, 0 ≤ k → k < width → Whole u isa (s k).a ∧ Whole u isa (s k).b ∧ Whole u isa (s k).c) :
    ∃ y, fusedInverse u isa fp width src x0 = some y ∧ Run (fun k => pixOr u fp (s k)) x0 0 width y := by
  have hstep : 0 < isa.lanes := by cases isa <;> decide
  have first : ∃ i x, (if isa = .scalar then some (0, x0) else sweep isa.lanes (isa.lanes - 1) width (invReg u isa fp src isa.lanes) 0 x0) = some (i, x) ∧
      Run (fun k => pixOr u fp (s k)) x0 0 i x ∧ 0 ≤ i ∧ i ≤ width := by
    by_cases hc : isa = .scalar
    · rw [if_pos hc]
      exact ⟨0, x0, rfl, Run.start _ x0 0, le_refl _, by positivity⟩
    · rw [if_neg hc]
      obtain ⟨i', x', e, hP, -⟩ := sweep_run (d := isa.lanes) (e := isa.lanes - 1) hstep (n := (width : Int)) (body := invReg u isa fp src isa.lanes)
        (P := fun i x => Run (fun k => pixOr u fp (s k)) x0 0 i x ∧ 0 ≤ i ∧ i ≤ width) (i := 0) (x := x0)
        ⟨Run.start _ x0 0, le_refl _, by positivity⟩ (by
          intro i x ⟨hr, h0, hle⟩ hlt
          obtain ⟨x', e, hr'⟩ := invReg_run (isa := isa) h1 h2 h3 hr h0 (L := isa.lanes) (fun k h1 h2 => hs k (by omega) (by omega)) (fun k h1 h2 => hf k (by omega) (by omega))
            (fun k h1 h2 => hp k (by omega) (by omega)) (fun k h1 h2 => hw hc k (by omega) (by omega))
          exact ⟨x', e, hr', by omega, by omega⟩)
      exact ⟨i', x', e, hP⟩
  obtain ⟨i, x, e, hr, h0, hle⟩ := first
  obtain ⟨i', x', e', ⟨hr', h0', hle'⟩, hx⟩ := sweep_run (d := 1) (e := 0) (by decide) (n := (width : Int)) (body := invPixel u fp src)
    (P := fun i x => Run (fun k => pixOr u fp (s k)) x0 0 i x ∧ 0 ≤ i ∧ i ≤ width) (i := i) (x := x)
    ⟨hr, h0, hle⟩ (by
      intro i x ⟨hr, h0, hle⟩ hlt
      push_cast at hlt
      obtain ⟨q1, q2, q3⟩ := hs i (by omega) (by omega)
      obtain ⟨p, ep⟩ := Option.isSome_iff_exists.1 (hp i (by omega) (by omega))
      obtain ⟨a, b, c, ea, eb, ec, hr'⟩ := hr.put (p := p) (by omega) (fun k h1 h2 => hf k (by omega) (by omega)) (by unfold pixOr; rw [ep]; rfl)
      exact ⟨⟨a, b, c⟩, by unfold invPixel; simp only [q1, q2, q3, Option.bind_some, ep, ea, eb, ec, Option.map_some], hr', by push_cast; omega, by push_cast; omega⟩)
  have hend : i' = width := by omega
  subst hend
  refine ⟨x', ?_, hr'⟩
  unfold fusedInverse
  rw [e, Option.bind_some]
  simp only [e', Option.map_some]

end Verif.Simd.Colour
