import Verif.Simd.ColourLemmas
import Verif.Simd.LiftImageLemmas
/-
Lemmas about the rows of the streaming encoder.
-/
namespace Verif.Simd.Colour
open Verif.Dwt (Buf toFloat)
open Verif.Simd Verif.Simd.Lift Verif.Simd.Lift.Wide

/-! ### What a loop touches -/

theorem sweep_sup {σ : Type} {d e : Nat} {n : Int} {body : Int → σ → Option σ} {sup : σ → Int → Prop} (hb : ∀ i x x', body i x = some x' → ∀ k, sup x' k → sup x k) (c : Nat) :
    ∀ i x r, (n - i).toNat ≤ c → sweep d e n body i x = some r → ∀ k, sup r.2 k → sup x k := by
  induction c with
  | zero =>
    intro i x r hc h k hk
    rw [sweep, if_neg (by omega)] at h
    cases h
    exact hk
  | succ c ih =>
    intro i x r hc h k hk
    rw [sweep] at h
    split_ifs at h with hif
    · obtain ⟨x', h1, h2⟩ := Option.bind_eq_some_iff.1 h
      exact hb i x x' h1 k (ih _ _ _ (by omega) h2 k hk)
    · cases h
      exact hk

theorem sweep_touch {σ : Type} {d : Nat} (hd : 0 < d) {n : Int} {body : Int → σ → Option σ} {sup : σ → Int → Prop}
    (hb : ∀ i x x', body i x = some x' → (∀ l : Int, 0 ≤ l → l < d → sup x (i + l)) ∧ ∀ k, sup x' k → sup x k) (t : Nat) :
    ∀ i x r, sweep d 0 n body i x = some r → i + (t : Int) * d < n → ∀ l : Int, 0 ≤ l → l < d → sup x (i + (t : Int) * d + l) := by
  induction t with
  | zero =>
    intro i x r h hlt l l0 l1
    rw [sweep, if_pos ⟨by simpa using hlt, hd⟩] at h
    obtain ⟨x', h1, -⟩ := Option.bind_eq_some_iff.1 h
    simpa using (hb i x x' h1).1 l l0 l1
  | succ t ih =>
    intro i x r h hlt l l0 l1
    have e : i + (((t + 1 : Nat) : Int)) * d = i + d + (t : Int) * d := by push_cast; ring
    have hp : 0 ≤ (t : Int) * d := by positivity
    rw [e] at hlt ⊢
    rw [sweep, if_pos ⟨by push_cast; omega, hd⟩] at h
    obtain ⟨x', h1, h2⟩ := Option.bind_eq_some_iff.1 h
    exact (hb i x x' h1).2 _ (ih _ _ _ h2 hlt l l0 l1)

theorem putB_sup {α : Type} {b b' : Buf α} {m : Int} {v : α} (h : putB b m v = some b') : (b m).isSome ∧ ∀ k, (b' k).isSome → (b k).isSome := by
  unfold putB at h
  split_ifs at h with hm
  cases h
  refine ⟨hm, fun k hk => ?_⟩
  by_cases e : k = m
  · rwa [e]
  · simpa [Function.update, e] using hk

theorem storeB_sup {α : Type} {L : Nat} {b b' : Buf α} {m : Int} {v : Fin L → α} (h : storeB b m v = some b') :
    (∀ l : Int, 0 ≤ l → l < L → (b (m + l)).isSome) ∧ ∀ k, (b' k).isSome → (b k).isSome := by
  unfold storeB at h
  split_ifs at h with hm
  cases h
  have all : ∀ l : Int, 0 ≤ l → l < L → (b (m + l)).isSome := fun l l0 l1 => by
    have := hm ⟨l.toNat, by omega⟩
    rwa [show m + (((⟨l.toNat, by omega⟩ : Fin L).val : Nat) : Int) = m + l by simp only; omega] at this
  refine ⟨all, fun k hk => ?_⟩
  by_cases e : m ≤ k ∧ k < m + L
  · have := all (k - m) (by omega) (by omega)
    rwa [show m + (k - m) = k by ring] at this
  · simpa [e] using hk

theorem intReg_sup {L : Nat} {isa : Build} {m : Int} {x x' : Trio Mem} (h : intReg L isa m x = some x') :
    (∀ l : Int, 0 ≤ l → l < L → (x.a (m + l)).isSome) ∧ ∀ k, (x'.a k).isSome → (x.a k).isSome := by
  simp only [intReg, Option.bind_eq_some_iff, Option.map_eq_some_iff] at h
  obtain ⟨R, -, G, -, B, -, b, -, c, -, a, ha, rfl⟩ := h
  exact storeB_sup ha

theorem intTurn_sup {isa : Build} {m : Int} {x x' : Trio Mem} (h : intTurn isa m x = some x') :
    (∀ l : Int, 0 ≤ l → l < isa.step → (x.a (m + l)).isSome) ∧ ∀ k, (x'.a k).isSome → (x.a k).isSome := by
  cases isa with
  | scalar =>
    simp only [intTurn, Option.bind_eq_some_iff, Option.map_eq_some_iff] at h
    obtain ⟨R, -, G, -, B, -, p, -, a, ha, b, -, c, -, rfl⟩ := h
    obtain ⟨h1, h2⟩ := putB_sup (show putB x.a m p.a = some a from ha)
    refine ⟨fun l l0 l1 => ?_, h2⟩
    simp only [Build.step] at l1
    rwa [show m + l = m by omega]
  | wasm => exact intReg_sup h
  | avx512 => exact intReg_sup h
  | avx2 =>
    unfold intTurn at h
    simp only at h
    split_ifs at h
    exact intReg_sup h
  | neon =>
    simp only [intTurn, Option.bind_eq_some_iff] at h
    obtain ⟨x1, h1, h2⟩ := h
    obtain ⟨a1, a2⟩ := intReg_sup h1
    obtain ⟨b1, b2⟩ := intReg_sup h2
    refine ⟨fun l l0 l1 => ?_, fun k hk => a2 k (b2 k hk)⟩
    simp only [Build.step] at l1
    by_cases hl : l < 4
    · exact a1 l l0 (by omega)
    · have := a2 _ (b1 (l - 4) (by omega) (by push_cast at l1 ⊢; omega))
      rwa [show m + 4 + (l - 4) = m + l by ring] at this

/-- Where the transform in place succeeds, the words up to the end of the last register are there, and the AVX2 build has found them aligned. -/
theorem intForward_touch {isa : Build} {off : Int} {width : Nat} {x y : Trio Mem} (h : intForward isa off width x = some y) :
    (∀ k, off ≤ k → k < off + reach isa width → (x.a k).isSome) ∧ (isa = .avx2 → 0 < width → off % 8 = 0) := by
  have hstep : 0 < isa.step := by cases isa <;> decide
  obtain ⟨r, hr, -⟩ := Option.map_eq_some_iff.1 h
  constructor
  · intro k h1 h2
    have hb := fun i (x x' : Trio Mem) (h : intTurn isa (off + i) x = some x') => intTurn_sup h
    have := sweep_touch hstep (sup := fun x k => (x.a (off + k)).isSome) (body := fun i x => intTurn isa (off + i) x) (n := width)
      (fun i x x' h => ⟨fun l l0 l1 => by rw [← add_assoc]; exact (intTurn_sup h).1 l l0 l1, fun k hk => (intTurn_sup h).2 _ hk⟩) ((k - off) / isa.step).toNat 0 x r hr (by
        unfold reach roundUp at h2
        cases isa <;> simp only [Build.step] at h2 ⊢ <;> omega) ((k - off) % isa.step) (Int.emod_nonneg _ (by omega)) (Int.emod_lt_of_pos _ (by omega))
    have e : 0 + (((k - off) / isa.step).toNat : Int) * isa.step + (k - off) % isa.step = k - off := by
      rw [Int.toNat_of_nonneg (Int.ediv_nonneg (by omega) (by omega))]
      have := Int.mul_ediv_add_emod (k - off) isa.step
      linarith [mul_comm (isa.step : Int) ((k - off) / isa.step)]
    rw [e] at this
    rwa [show off + (k - off) = k by ring] at this
  · rintro rfl hw
    rw [sweep, if_pos ⟨by omega, by decide⟩] at hr
    obtain ⟨x', h1, -⟩ := Option.bind_eq_some_iff.1 hr
    unfold intTurn at h1
    simp only at h1
    split_ifs at h1 with hm
    simpa using hm

/-! ### Level shift -/

theorem levelShift_run {dco : BitVec 32} {off : Int} {width : Nat} {row : Mem} (h : ∀ k, off ≤ k → k < off + width → ∃ v, row k = some v ∧ (subC v dco).isSome) :
    ∃ row', levelShift dco off width row = some row' ∧ ∀ k, (off ≤ k ∧ k < off + width → row' k = (row k).map (· - dco)) ∧ (¬ (off ≤ k ∧ k < off + width) → row' k = row k) := by
  obtain ⟨i', r', e, ⟨hr, h0, hle⟩, hx⟩ := sweep_run (d := 1) (e := 0) (by decide) (n := (width : Int))
    (body := fun i (row : Mem) => (row (off + i)).bind fun v => (subC v dco).bind fun v => Lift.put row (off + i) v)
    (P := fun i r => (∀ k, (off ≤ k ∧ k < off + i → r k = (row k).map (· - dco)) ∧ (¬ (off ≤ k ∧ k < off + i) → r k = row k)) ∧ 0 ≤ i ∧ i ≤ width) (i := 0) (x := row)
    ⟨fun k => ⟨fun h => absurd h (by omega), fun _ => rfl⟩, le_refl _, by positivity⟩ (by
      intro i r ⟨hr, h0, hle⟩ hlt
      push_cast at hlt
      obtain ⟨v, ev, hv⟩ := h (off + i) (by omega) (by omega)
      obtain ⟨w, ew⟩ := Option.isSome_iff_exists.1 hv
      have er : r (off + i) = some v := ((hr (off + i)).2 (by omega)).trans ev
      refine ⟨Function.update r (off + i) (some w), ?_, fun k => ?_, by push_cast; omega, by push_cast; omega⟩
      · simp only [er, Option.bind_some, ew, Lift.put, Option.isSome_some, if_true]
      · by_cases hk : k = off + i
        · subst hk
          refine ⟨fun _ => ?_, fun hn => absurd ⟨by omega, by push_cast; omega⟩ hn⟩
          simp [ev, (subC_some ew).1]
        · simp only [Function.update, hk, dite_false]
          exact ⟨fun h => (hr k).1 (by push_cast at h; omega), fun h => (hr k).2 (by push_cast at h; omega)⟩)
  have hend : i' = width := by omega
  subst hend
  refine ⟨r', ?_, hr⟩
  unfold levelShift
  rw [e]
  rfl

theorem levelShift_sup {dco : BitVec 32} {off : Int} {width : Nat} {row row' : Mem} (h : levelShift dco off width row = some row') : ∀ k, (row' k).isSome → (row k).isSome := by
  obtain ⟨r, hr, rfl⟩ := Option.map_eq_some_iff.1 h
  refine sweep_sup (sup := fun (x : Mem) k => (x k).isSome) ?_ _ _ _ _ (le_refl _) hr
  intro i x x' h k hk
  obtain ⟨v, -, h⟩ := Option.bind_eq_some_iff.1 h
  obtain ⟨w, -, h⟩ := Option.bind_eq_some_iff.1 h
  exact (putB_sup (show putB x (off + i) w = some x' from h)).2 k hk

theorem blit_sup {l : List (BitVec 32)} {b b' : Mem} (h : blit l b = some b') : ∀ k, (b' k).isSome → (b k).isSome := by
  unfold blit at h
  split_ifs at h with hb
  cases h
  intro k hk
  by_cases e : 0 ≤ k ∧ k < l.length
  · have := hb k.toNat (by omega)
    rwa [show ((k.toNat : Nat) : Int) = k by omega] at this
  · simpa [e] using hk

theorem blit_ok {l : List (BitVec 32)} {b : Mem} (h : ∀ k : Int, 0 ≤ k → k < l.length → (b k).isSome) :
    ∃ b', blit l b = some b' ∧ (∀ k : Nat, k < l.length → b' k = l[k]?) ∧ ∀ k : Int, (b k).isSome → (b' k).isSome := by
  refine ⟨_, if_pos fun i hi => h _ (by omega) (by omega), fun k hk => ?_, fun k hk => ?_⟩
  · simp only [show (0 : Int) ≤ k ∧ (k : Int) < l.length by omega, and_self, dif_pos, Int.toNat_natCast]
    rw [List.getElem?_eq_getElem hk]
  · by_cases e : 0 ≤ k ∧ k < l.length
    · simp [e]
    · simpa [e] using hk

/-- What a row that was filled and shifted holds. -/
theorem shifted {l : List (BitVec 32)} {b : Mem} {dco : BitVec 32} {off width N : Nat} (hN : ∀ k : Int, 0 ≤ k → k < N → (b k).isSome) (hl : l.length ≤ N) (hw : off + width ≤ l.length)
    (hv : ∀ v ∈ l, |v.toInt - dco.toInt| ≤ 2 ^ 28) :
    ∃ b1 b2, blit l b = some b1 ∧ levelShift dco off width b1 = some b2 ∧ (∀ k : Nat, off ≤ k → k < off + width → ∃ v, l[k]? = some v ∧ b2 k = some (v - dco) ∧ (v - dco).toInt = v.toInt - dco.toInt) ∧
      ∀ k : Int, 0 ≤ k → k < N → (b2 k).isSome := by
  obtain ⟨b1, e1, g1, s1⟩ := blit_ok (l := l) (b := b) fun k h1 h2 => hN k h1 (by omega)
  have sub : ∀ v ∈ l, subC v dco = some (v - dco) := fun v hv' => by
    have := hv v hv'
    rw [abs_le] at this
    exact subC_def (by omega)
  obtain ⟨b2, e2, g2⟩ := levelShift_run (dco := dco) (off := off) (width := width) (row := b1) fun k h1 h2 => by
    have := g1 k.toNat (by omega)
    rw [show ((k.toNat : Nat) : Int) = k by omega, List.getElem?_eq_getElem (by omega)] at this
    exact ⟨_, this, by rw [sub _ (List.getElem_mem _)]; rfl⟩
  refine ⟨b1, b2, e1, e2, fun k h1 h2 => ?_, fun k h1 h2 => ?_⟩
  · have hk : k < l.length := by omega
    refine ⟨l[k], List.getElem?_eq_getElem hk, ?_, (subC_some (sub _ (List.getElem_mem hk))).2⟩
    rw [(g2 k).1 (by omega), g1 k hk, List.getElem?_eq_getElem hk]
    rfl
  · by_cases hk : (off : Int) ≤ k ∧ k < off + width
    · rw [(g2 k).1 hk, Option.isSome_map]
      exact s1 k (hN k h1 h2)
    · rw [(g2 k).2 hk]
      exact s1 k (hN k h1 h2)

end Verif.Simd.Colour
