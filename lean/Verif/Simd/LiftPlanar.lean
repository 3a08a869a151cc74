import Verif.Simd.LiftRows
import Mathlib.Tactic.FinCases
/-
Rows filtered from planes and to planes.
-/
namespace Verif.Simd.Lift
open Verif.Dwt (Buf pseo fromLeft loopM ceilHalf copyTo Step Filter Agree Filled liftLoop liftStep liftAll Ext Lists Sym mirror)
open Verif.Simd

/-! ### Lanes -/

theorem shl1_lane (a : V 8) (c : BitVec 32) (i : Fin 8) : shl1 a (vset c) i = if h : i.val < 7 then a ⟨i.val + 1, by omega⟩ else c := by
  fin_cases i <;> rfl

theorem shl1_lane' (a b : V 8) (i : Fin 8) : shl1 a b i = if h : i.val < 7 then a ⟨i.val + 1, by omega⟩ else b 0 := by
  fin_cases i <;> rfl

theorem shr1_lane (p a : V 8) (i : Fin 8) : shr1 p a i = if h : 0 < i.val then a ⟨i.val - 1, by omega⟩ else p 7 := by
  fin_cases i <;> rfl

theorem weave_lo (a b : V 8) (i : Fin 8) : perm20 (unpackLo a b) (unpackHi a b) i = if i.val % 2 = 0 then a ⟨i.val / 2, by omega⟩ else b ⟨i.val / 2, by omega⟩ := by
  fin_cases i <;> rfl

theorem weave_hi (a b : V 8) (i : Fin 8) :
    perm31 (unpackLo a b) (unpackHi a b) i = if i.val % 2 = 0 then a ⟨i.val / 2 + 4, by omega⟩ else b ⟨i.val / 2 + 4, by omega⟩ := by
  fin_cases i <;> rfl

theorem loadDeint_spec {b : Mem} {m : Int} {s : Int → BitVec 32} (h : Agree b s m (m + 15)) :
    ∃ e o, loadDeint b m = some (e, o) ∧ (∀ i : Fin 8, e i = s (m + 2 * (i.val : Int))) ∧ ∀ i : Fin 8, o i = s (m + 2 * (i.val : Int) + 1) := by
  have l1 : load b m = some fun i => s (m + (i.val : Int)) := load_some fun i => h _ (by omega) (by omega)
  have l2 : load b (m + 8) = some fun i => s (m + 8 + (i.val : Int)) := load_some fun i => h _ (by omega) (by omega)
  refine ⟨_, _, by rw [loadDeint, l1, l2]; rfl, ?_, ?_⟩
  · intro i
    fin_cases i <;> simp [permute, shuf88] <;> (congr 1; omega)
  · intro i
    fin_cases i <;> simp [permute, shufDD] <;> (congr 1; omega)

/-! ### Loops of single stores -/

theorem putLoop {n : Nat} {body : Nat → Mem → Option Mem} {d : Nat → Int} {v : Nat → BitVec 32} (hbody : ∀ i < n, ∀ b, body i b = put b (d i) (v i))
    {lo hi : Int} (hd : ∀ i < n, lo ≤ d i ∧ d i ≤ hi) (hinj : ∀ i < n, ∀ j < n, d i = d j → i = j) {b : Mem} (hF : Filled b lo hi) :
    ∃ b', loopM n body b = some b' ∧ Filled b' lo hi ∧ (∀ i < n, b' (d i) = some (v i)) ∧ ∀ k : Int, (∀ i < n, k ≠ d i) → b' k = b k := by
  induction n with
  | zero => exact ⟨b, rfl, hF, fun i hi => by omega, fun k _ => rfl⟩
  | succ n ih =>
    obtain ⟨b1, e1, f1, a1, c1⟩ := ih (fun i hi => hbody i (by omega)) (fun i hi => hd i (by omega)) (fun i hi j hj => hinj i (by omega) j (by omega))
    have hn := hd n (by omega)
    refine ⟨Function.update b1 (d n) (some (v n)), ?_, ?_, ?_, ?_⟩
    · rw [loopM, e1, Option.bind_some, hbody n (by omega), put_filled (f1 _ hn.1 hn.2)]
    · intro k k1 k2
      by_cases h : k = d n
      · rw [h, Function.update_self]; rfl
      · rw [Function.update_of_ne h]; exact f1 k k1 k2
    · intro i hi'
      by_cases h : i = n
      · rw [h, Function.update_self]
      · rw [Function.update_of_ne fun e => h (hinj i hi' n (by omega) e)]
        exact a1 i (by omega)
    · intro k hk
      rw [Function.update_of_ne (hk n (by omega))]
      exact c1 k fun i hi' => hk i (by omega)

/-! ### Mirrored samples -/

theorem mirror_parity (w k : Int) : mirror w k % 2 = k % 2 := by
  have h : k % (2 * (w - 1)) % 2 = k % 2 := Int.emod_emod_of_dvd k ⟨w - 1, rfl⟩
  unfold mirror
  generalize k % (2 * (w - 1)) = r at *
  split_ifs <;> omega

/-! ### From planes -/

/-- What the even samples become. -/
def sEven (s : Int → BitVec 32) (j : Int) : BitVec 32 := s (2 * j) - (s (2 * j - 1) + s (2 * j + 1) + 2#32).sshiftRight 2
/-- What the odd samples become. -/
def sOdd (s : Int → BitVec 32) (j : Int) : BitVec 32 := s (2 * j + 1) + (sEven s j + sEven s (j + 1)).sshiftRight 1

theorem synth_even (s : Int → BitVec 32) (j : Int) : Dwt.synthesiseAll wInv 0 s (2 * j) = sEven s j := by
  simp only [Dwt.synthesiseAll, wInv, liftAll, sEven]
  rw [if_neg (by omega), if_pos (by omega)]

theorem synth_odd (s : Int → BitVec 32) (j : Int) : Dwt.synthesiseAll wInv 0 s (2 * j + 1) = sOdd s j := by
  have h0 : ∀ i : Int, liftAll 0 (fun a b t => t - (a + b + 2#32).sshiftRight 2) s (2 * i) = sEven s i := fun i => by
    simp only [liftAll, sEven]; rw [if_pos (by omega)]
  have h1 : liftAll 0 (fun a b t => t - (a + b + 2#32).sshiftRight 2) s (2 * j + 1) = s (2 * j + 1) := by
    simp only [liftAll]; rw [if_neg (by omega)]
  simp only [Dwt.synthesiseAll, wInv]
  generalize liftAll 0 (fun a b t => t - (a + b + 2#32).sshiftRight 2) s = r at h0 h1
  simp only [liftAll, sOdd]
  rw [if_pos (by omega), show 2 * j + 1 - 1 = 2 * j by omega, show 2 * j + 1 + 1 = 2 * (j + 1) by omega, h0, h0, h1]

theorem planarInvLoop_spec {lp hp : Mem} {s : Int → BitVec 32} {N : Int} (hlp : ∀ i, 0 ≤ i → i < N → lp i = some (s (2 * i)))
    (hhp : ∀ i, 0 ≤ i → i < N → hp i = some (s (2 * i + 1))) {lo hi : Int} (hlo : lo ≤ 0) (hhi : 2 * N ≤ hi) (c : Nat) :
    ∀ (j : Int) (out : Mem), (N - j).toNat ≤ c → 0 ≤ j → j ≤ N → Filled out lo hi → Agree out (Dwt.synthesiseAll wInv 0 s) 0 (2 * j - 1) →
      ∃ j' out', planarInvLoop lp hp N (s (-1)) j out = some (j', out') ∧ 0 ≤ j' ∧ j' ≤ N ∧ N ≤ j' + 8 ∧ Filled out' lo hi ∧
        Agree out' (Dwt.synthesiseAll wInv 0 s) 0 (2 * j' - 1) ∧ ∀ k : Int, ¬ (0 ≤ k ∧ k ≤ 2 * N) → out' k = out k := by
  induction c with
  | zero =>
    intro j out hc j0 jN hF hA
    rw [planarInvLoop, if_neg (by omega)]
    exact ⟨j, out, rfl, j0, jN, by omega, hF, hA, fun _ _ => rfl⟩
  | succ c ih =>
    intro j out hc j0 jN hF hA
    rw [planarInvLoop]
    by_cases hj : j + 8 ≤ N - 1
    · rw [if_pos hj]
      have lO : load hp j = some fun i => s (2 * (j + (i.val : Int)) + 1) := load_some fun i => hhp _ (by omega) (by omega)
      have lE : load lp j = some fun i => s (2 * (j + (i.val : Int))) := load_some fun i => hlp _ (by omega) (by omega)
      have lJ : (if j = 0 then some (shr1 (vset (s (-1))) fun i => s (2 * (j + (i.val : Int)) + 1)) else load hp (j - 1)) =
          some fun i => s (2 * (j + (i.val : Int)) - 1) := by
        by_cases h0 : j = 0
        · rw [if_pos h0]
          congr 1
          funext i
          rw [shr1_lane]
          by_cases hi' : 0 < i.val
          · rw [dif_pos hi']; simp only []; congr 1; omega
          · rw [dif_neg hi']; simp only [vset]; congr 1; omega
        · rw [if_neg h0]
          refine load_some fun i => ?_
          rw [hhp _ (by omega) (by omega)]
          congr 2; omega
      simp only [lO, lE, lJ, Option.bind_some, hlp (j + 8) (by omega) (by omega), hhp (j + 7) (by omega) (by omega), hhp (j + 8) (by omega) (by omega)]
      -- the lanes
      generalize hS1 : (vsub (fun i : Fin 8 => s (2 * (j + (i.val : Int)))) (vsrai (vadd (vadd (fun i : Fin 8 => s (2 * (j + (i.val : Int)) - 1))
        (fun i : Fin 8 => s (2 * (j + (i.val : Int)) + 1))) (vset 2#32)) 2) : V 8) = S1
      have eS1 : ∀ i : Fin 8, S1 i = sEven s (j + (i.val : Int)) := by
        intro i; subst hS1; rfl
      have eN : s (2 * (j + 8)) - (s (2 * (j + 7) + 1) + s (2 * (j + 8) + 1) + 2#32).sshiftRight 2 = sEven s (j + 8) := by
        unfold sEven
        rw [show 2 * (j + 8) - 1 = 2 * (j + 7) + 1 by omega]
      rw [eN]
      generalize hS2 : (vadd (fun i : Fin 8 => s (2 * (j + (i.val : Int)) + 1)) (vsrai (vadd S1 (shl1 S1 (vset (sEven s (j + 8))))) 1) : V 8) = S2
      have eS2 : ∀ i : Fin 8, S2 i = sOdd s (j + (i.val : Int)) := by
        intro i
        subst hS2
        simp only [vadd, vsrai, shl1_lane, sOdd, eS1]
        by_cases hi' : i.val < 7
        · rw [dif_pos hi']
          simp only [show min 1 31 = 1 from rfl]
          rw [show j + ((i.val + 1 : Nat) : Int) = j + (i.val : Int) + 1 by omega]
        · rw [dif_neg hi']
          simp only [show min 1 31 = 1 from rfl]
          rw [show j + (i.val : Int) + 1 = j + 8 by omega]
      obtain ⟨o1, e1, s1, s2⟩ := store_filled (b := out) (m := 2 * j) (fun k k1 k2 => hF k (by omega) (by omega)) (perm20 (unpackLo S1 S2) (unpackHi S1 S2))
      have f1 : Filled o1 lo hi := filled_of_eq hF (m := 2 * j) (fun k k1 k2 => by
        obtain ⟨i, hi⟩ : ∃ i : Fin 8, k = 2 * j + (i.val : Int) := ⟨⟨(k - 2 * j).toNat, by omega⟩, by simp; omega⟩
        rw [hi, s1]; rfl) s2
      obtain ⟨o2, e2, s3, s4⟩ := store_filled (b := o1) (m := 2 * j + 8) (fun k k1 k2 => f1 k (by omega) (by omega)) (perm31 (unpackLo S1 S2) (unpackHi S1 S2))
      have f2 : Filled o2 lo hi := filled_of_eq f1 (m := 2 * j + 8) (fun k k1 k2 => by
        obtain ⟨i, hi⟩ : ∃ i : Fin 8, k = 2 * j + 8 + (i.val : Int) := ⟨⟨(k - 2 * j - 8).toNat, by omega⟩, by simp; omega⟩
        rw [hi, s3]; rfl) s4
      have a2 : Agree o2 (Dwt.synthesiseAll wInv 0 s) 0 (2 * (j + 8) - 1) := by
        intro k k1 k2
        by_cases hk : k < 2 * j
        · rw [s4 _ (by omega), s2 _ (by omega), hA k k1 (by omega)]
        · by_cases hk2 : k < 2 * j + 8
          · obtain ⟨i, rfl⟩ : ∃ i : Fin 8, k = 2 * j + (i.val : Int) := ⟨⟨(k - 2 * j).toNat, by omega⟩, by simp; omega⟩
            rw [s4 _ (by omega), s1 i, weave_lo]
            by_cases hp' : i.val % 2 = 0
            · rw [if_pos hp', eS1, show 2 * j + (i.val : Int) = 2 * (j + ((i.val / 2 : Nat) : Int)) by omega, synth_even]
            · rw [if_neg hp', eS2, show 2 * j + (i.val : Int) = 2 * (j + ((i.val / 2 : Nat) : Int)) + 1 by omega, synth_odd]
          · obtain ⟨i, rfl⟩ : ∃ i : Fin 8, k = 2 * j + 8 + (i.val : Int) := ⟨⟨(k - 2 * j - 8).toNat, by omega⟩, by simp; omega⟩
            rw [s3 i, weave_hi]
            by_cases hp' : i.val % 2 = 0
            · rw [if_pos hp', eS1, show 2 * j + 8 + (i.val : Int) = 2 * (j + ((i.val / 2 + 4 : Nat) : Int)) by omega, synth_even]
            · rw [if_neg hp', eS2, show 2 * j + 8 + (i.val : Int) = 2 * (j + ((i.val / 2 + 4 : Nat) : Int)) + 1 by omega, synth_odd]
      obtain ⟨j', out', e, g1, g2, g3, g4, g5, g6⟩ := ih (j + 8) o2 (by omega) (by omega) (by omega) f2 a2
      refine ⟨j', out', by rw [e1, Option.bind_some, e2, Option.bind_some, e], g1, g2, g3, g4, g5, fun k hk => ?_⟩
      rw [g6 k hk, s4 k (by omega), s2 k (by omega)]
    · rw [if_neg hj]
      exact ⟨j, out, rfl, j0, jN, by omega, hF, hA, fun _ _ => rfl⟩

theorem tailS1_spec {E O : Int → Option (BitVec 32)} {s : Int → BitVec 32} (hE : ∀ j, E j = some (s (2 * j))) (hO : ∀ j, O j = some (s (2 * j + 1))) (c : Nat) :
    ∀ t : Int, ∃ l, tailS1 E O c t (s (2 * t - 1)) = some l ∧ ∀ i < c, l[i]? = some (sEven s (t + i)) := by
  induction c with
  | zero => intro t; exact ⟨[], rfl, fun i hi => by omega⟩
  | succ c ih =>
    intro t
    obtain ⟨l, e, h⟩ := ih (t + 1)
    rw [show 2 * (t + 1) - 1 = 2 * t + 1 by omega] at e
    refine ⟨(s (2 * t) - (s (2 * t - 1) + s (2 * t + 1) + 2#32).sshiftRight 2) :: l, by simp only [tailS1, hE, hO, e, Option.bind_some, Option.map_some], fun i hi => ?_⟩
    cases i with
    | zero => simp [sEven]
    | succ i =>
      rw [List.getElem?_cons_succ, h i (by omega)]
      congr 2
      push_cast; omega

theorem planarInvTail_spec {E O : Int → Option (BitVec 32)} {s : Int → BitVec 32} (hE : ∀ j, E j = some (s (2 * j))) (hO : ∀ j, O j = some (s (2 * j + 1)))
    {N j : Int} (j0 : 0 ≤ j) (jN : j ≤ N) (hj : N ≤ j + 8) {lo hi : Int} (hlo : lo ≤ 0) (hhi : 2 * N ≤ hi) {out : Mem} (hF : Filled out lo hi)
    (hA : Agree out (Dwt.synthesiseAll wInv 0 s) 0 (2 * j - 1)) :
    ∃ out', planarInvTail E O N j out = some out' ∧ Filled out' lo hi ∧ Agree out' (Dwt.synthesiseAll wInv 0 s) 0 (2 * N) ∧
      ∀ k : Int, ¬ (0 ≤ k ∧ k ≤ 2 * N) → out' k = out k := by
  obtain ⟨l, el, hl⟩ := tailS1_spec hE hO (N - j + 1).toNat j
  obtain ⟨o1, e1, f1, a1, c1⟩ := putLoop (n := (N - j + 1).toNat) (body := fun i out => l[i]?.bind fun v => put out (2 * (j + i)) v)
    (d := fun i => 2 * (j + i)) (v := fun i => sEven s (j + i)) (fun i hi b => by simp [hl i hi]) (lo := lo) (hi := hi) (fun i hi => by omega)
    (fun i _ k _ h => by omega) hF
  obtain ⟨o2, e2, f2, a2, c2⟩ := putLoop (n := (N - j).toNat) (body := fun i out => (O (j + i)).bind fun o => l[i]?.bind fun a => l[i + 1]?.bind fun b =>
      put out (2 * (j + i) + 1) (o + (a + b).sshiftRight 1))
    (d := fun i => 2 * (j + i) + 1) (v := fun i => sOdd s (j + i)) (fun i hi b => by
      have h1 := hl i (by omega)
      have h2 := hl (i + 1) (by omega)
      push_cast at h2
      simp only [hO, h1, h2, Option.bind_some, sOdd]
      rw [show j + ((i : Int) + 1) = j + i + 1 by omega]) (lo := lo) (hi := hi) (fun i hi => by omega)
    (fun i _ k _ h => by omega) f1
  refine ⟨o2, ?_, f2, ?_, ?_⟩
  · unfold planarInvTail
    simp only []
    rw [if_neg (by omega), hO, Option.bind_some, show 2 * (j - 1) + 1 = 2 * j - 1 by omega, el, Option.bind_some, e1, Option.bind_some, e2]
  · intro k k1 k2
    by_cases hk : k < 2 * j
    · rw [c2 k (fun i hi => by omega), c1 k (fun i hi => by omega), hA k k1 (by omega)]
    · by_cases hp : k % 2 = 0
      · rw [c2 k (fun i hi => by omega)]
        have := a1 (k / 2 - j).toNat (by omega)
        rw [show j + (((k / 2 - j).toNat : Nat) : Int) = k / 2 by omega, show 2 * (k / 2) = k by omega] at this
        rw [this, ← synth_even, show 2 * (k / 2) = k by omega]
      · have := a2 (k / 2 - j).toNat (by omega)
        rw [show j + (((k / 2 - j).toNat : Nat) : Int) = k / 2 by omega, show 2 * (k / 2) + 1 = k by omega] at this
        rw [this, ← synth_odd, show 2 * (k / 2) + 1 = k by omega]
  · intro k hk
    rw [c2 k (fun i hi => by omega), c1 k (fun i hi => by omega)]

/-- The kernel that reads planes gives the synthesis of the interleaved row; nothing but the row and one word after it changes. -/
theorem planarInverse_spec {u0 : Int} (hu : u0 % 2 = 0) {w : Nat} (hw : 2 ≤ w) {lp hp out : Mem} {s : Int → BitVec 32} (hs : Sym w s)
    (hlp : ∀ i : Int, 0 ≤ i → 2 * i < w → lp i = some (s (2 * i))) (hhp : ∀ i : Int, 0 ≤ i → 2 * i + 1 < w → hp i = some (s (2 * i + 1))) {lo hi : Int} (hlo : lo ≤ 0)
    (hhi : w ≤ hi) (hF : Filled out lo hi) :
    ∃ out', planarInverse u0 (u0 + w) lp hp out = some out' ∧ Agree out' (Dwt.synthesiseAll wInv (u0 % 2) s) 0 (w - 1) ∧ Filled out' lo hi ∧
      ∀ k : Int, ¬ (0 ≤ k ∧ k ≤ w) → out' k = out k := by
  have hE : ∀ j : Int, planeAt lp u0 (u0 + w) (u0 + 2 * j) = some (s (2 * j)) := by
    intro j
    unfold planeAt
    rw [Dwt.pseo_eq (by omega), Option.bind_some, show u0 + (w : Int) - u0 = w by ring, show u0 + 2 * j - u0 = 2 * j by ring]
    have h1 := Dwt.mirror_range (w := (w : Int)) (by omega) (2 * j)
    have h2 := mirror_parity w (2 * j)
    rw [hlp _ (by omega) (by omega), show 2 * (mirror w (2 * j) / 2) = mirror w (2 * j) by omega, hs.at_mirror]
  have hO : ∀ j : Int, planeAt hp u0 (u0 + w) (u0 + 2 * j + 1) = some (s (2 * j + 1)) := by
    intro j
    unfold planeAt
    rw [Dwt.pseo_eq (by omega), Option.bind_some, show u0 + (w : Int) - u0 = w by ring, show u0 + 2 * j + 1 - u0 = 2 * j + 1 by ring]
    have h1 := Dwt.mirror_range (w := (w : Int)) (by omega) (2 * j + 1)
    have h2 := mirror_parity w (2 * j + 1)
    rw [hhp _ (by omega) (by omega), show 2 * (mirror w (2 * j + 1) / 2) + 1 = mirror w (2 * j + 1) by omega, hs.at_mirror]
  have hN : (u0 + w) / 2 - u0 / 2 = (w : Int) / 2 := by omega
  obtain ⟨j, o1, e1, g1, g2, g3, g4, g5, g6⟩ := planarInvLoop_spec (lp := lp) (hp := hp) (s := s) (N := (w : Int) / 2) (fun i h1 h2 => hlp i h1 (by omega))
    (fun i h1 h2 => hhp i h1 (by omega)) (lo := lo) (hi := hi) hlo (by omega) _ 0 out (le_refl _) (le_refl _) (by omega) hF (fun k k1 k2 => by omega)
  obtain ⟨o2, e2, f2, a2, c2⟩ := planarInvTail_spec (E := fun j => planeAt lp u0 (u0 + w) (u0 + 2 * j)) (O := fun j => planeAt hp u0 (u0 + w) (u0 + 2 * j + 1))
    hE hO g1 g2 g3 hlo (by omega) g4 g5
  refine ⟨o2, ?_, ?_, f2, fun k hk => ?_⟩
  · unfold planarInverse
    simp only [hN]
    rw [hO (-1), Option.bind_some, show 2 * (-1 : Int) + 1 = -1 by norm_num, e1, Option.bind_some, e2]
  · rw [hu]
    exact a2.mono (le_refl _) (by omega)
  · rw [c2 k (by omega), g6 k (by omega)]

/-! ### To planes -/

/-- What the odd samples become. -/
def dOdd (s : Int → BitVec 32) (j : Int) : BitVec 32 := s (2 * j + 1) - (s (2 * j) + s (2 * j + 2)).sshiftRight 1
/-- What the even samples become. -/
def dEven (s : Int → BitVec 32) (j : Int) : BitVec 32 := s (2 * j) + (dOdd s (j - 1) + dOdd s j + 2#32).sshiftRight 2

theorem anal_odd (s : Int → BitVec 32) (j : Int) : Dwt.analyseAll wFwd 0 s (2 * j + 1) = dOdd s j := by
  simp only [Dwt.analyseAll, wFwd, liftAll, dOdd]
  rw [if_neg (by omega), if_pos (by omega), show 2 * j + 1 - 1 = 2 * j by omega, show 2 * j + 1 + 1 = 2 * j + 2 by omega]

theorem anal_even (s : Int → BitVec 32) (j : Int) : Dwt.analyseAll wFwd 0 s (2 * j) = dEven s j := by
  have h0 : ∀ i : Int, liftAll (1 - 0) (fun a b t => t - (a + b).sshiftRight 1) s (2 * i + 1) = dOdd s i := fun i => by
    simp only [liftAll, dOdd]; rw [if_pos (by omega), show 2 * i + 1 - 1 = 2 * i by omega, show 2 * i + 1 + 1 = 2 * i + 2 by omega]
  have h1 : liftAll (1 - 0) (fun a b t => t - (a + b).sshiftRight 1) s (2 * j) = s (2 * j) := by
    simp only [liftAll]; rw [if_neg (by omega)]
  simp only [Dwt.analyseAll, wFwd]
  generalize liftAll (1 - 0) (fun a b t => t - (a + b).sshiftRight 1) s = r at h0 h1
  simp only [liftAll, dEven]
  rw [if_pos (by omega), show 2 * j - 1 = 2 * (j - 1) + 1 by omega, h0, h0, h1]

/-- What is known of the planes before block `n`. -/
structure PlanesTo (s : Int → BitVec 32) (P : Int) (lp hp lp0 hp0 : Mem) (hiL hiH : Int) : Prop where
  lpF : Filled lp 0 hiL
  hpF : Filled hp 0 hiH
  lpA : ∀ k : Int, 0 ≤ k → k < P → lp k = some (dEven s k)
  hpA : ∀ k : Int, 0 ≤ k → k < P → hp k = some (dOdd s k)
  lpU : ∀ k : Int, ¬ (0 ≤ k ∧ k ≤ hiL) → lp k = lp0 k
  hpU : ∀ k : Int, ¬ (0 ≤ k ∧ k ≤ hiH) → hp k = hp0 k

theorem planarFwdLoop_spec {inp : Mem} {s : Int → BitVec 32} {NH : Int} (hinp : ∀ k : Int, 0 ≤ k → k < 2 * NH → inp k = some (s k)) {lp0 hp0 : Mem} {hiL hiH : Int}
    (hL : NH ≤ hiL + 1) (hH : NH ≤ hiH + 1) (c : Nat) :
    ∀ (n : Int) (Em Om Tm : V 8) (lp hp : Mem), (NH - 8 * n).toNat ≤ c → 1 ≤ n → 8 * n ≤ NH → (∀ i : Fin 8, Em i = s (2 * (8 * (n - 1) + (i.val : Int)))) →
      (∀ i : Fin 8, Om i = s (2 * (8 * (n - 1) + (i.val : Int)) + 1)) → Tm 7 = dOdd s (8 * (n - 1) - 1) → PlanesTo s (8 * (n - 1)) lp hp lp0 hp0 hiL hiH →
      ∃ n' T' lp' hp', planarFwdLoop inp NH n Em Om Tm lp hp = some (n', T', lp', hp') ∧ 1 ≤ n' ∧ 8 * n' ≤ NH ∧ NH ≤ 8 * n' + 7 ∧
        T' 7 = dOdd s (8 * (n' - 1) - 1) ∧ PlanesTo s (8 * (n' - 1)) lp' hp' lp0 hp0 hiL hiH := by
  induction c with
  | zero =>
    intro n Em Om Tm lp hp hc h1 h2 hE hO hT hP
    rw [planarFwdLoop, if_neg (by omega)]
    exact ⟨n, Tm, lp, hp, rfl, h1, h2, by omega, hT, hP⟩
  | succ c ih =>
    intro n Em Om Tm lp hp hc h1 h2 hE hO hT hP
    rw [planarFwdLoop]
    by_cases hn : 8 * n + 7 ≤ NH - 1
    · rw [if_pos hn]
      obtain ⟨e, o, el, he, ho⟩ := loadDeint_spec (b := inp) (m := 16 * n) (s := s) (fun k k1 k2 => hinp k (by omega) (by omega))
      simp only [el, Option.bind_some]
      generalize hT1 : (vsub Om (vsrai (vadd Em (shl1 Em e)) 1) : V 8) = T1
      have eT1 : ∀ i : Fin 8, T1 i = dOdd s (8 * (n - 1) + (i.val : Int)) := by
        intro i
        subst hT1
        simp only [vsub, vsrai, vadd, shl1_lane', dOdd, hO, hE, he, show min 1 31 = 1 from rfl]
        by_cases hi' : i.val < 7
        · rw [dif_pos hi', show 2 * (8 * (n - 1) + ((i.val + 1 : Nat) : Int)) = 2 * (8 * (n - 1) + (i.val : Int)) + 2 by omega]
        · rw [dif_neg hi', show 16 * n + 2 * (((0 : Fin 8).val : Nat) : Int) = 2 * (8 * (n - 1) + (i.val : Int)) + 2 by simp; omega]
      generalize hT2 : (vadd Em (vsrai (vadd (vadd (shr1 Tm T1) T1) (vset 2#32)) 2) : V 8) = T2
      have eT2 : ∀ i : Fin 8, T2 i = dEven s (8 * (n - 1) + (i.val : Int)) := by
        intro i
        subst hT2
        simp only [vsrai, vadd, vset, shr1_lane, dEven, hE, eT1, show min 2 31 = 2 from rfl]
        by_cases hi' : 0 < i.val
        · rw [dif_pos hi', show 8 * (n - 1) + ((i.val - 1 : Nat) : Int) = 8 * (n - 1) + (i.val : Int) - 1 by omega]
        · rw [dif_neg hi', hT, show (i.val : Int) = 0 by omega]
          simp
      obtain ⟨hp1, e1, s1, s2⟩ := store_filled (b := hp) (m := 8 * (n - 1)) (fun k k1 k2 => hP.hpF k (by omega) (by omega)) T1
      have f1 : Filled hp1 0 hiH := filled_of_eq hP.hpF (m := 8 * (n - 1)) (fun k k1 k2 => by
        obtain ⟨i, hi⟩ : ∃ i : Fin 8, k = 8 * (n - 1) + (i.val : Int) := ⟨⟨(k - 8 * (n - 1)).toNat, by omega⟩, by simp; omega⟩
        rw [hi, s1]; rfl) s2
      obtain ⟨lp1, e2, s3, s4⟩ := store_filled (b := lp) (m := 8 * (n - 1)) (fun k k1 k2 => hP.lpF k (by omega) (by omega)) T2
      have f2 : Filled lp1 0 hiL := filled_of_eq hP.lpF (m := 8 * (n - 1)) (fun k k1 k2 => by
        obtain ⟨i, hi⟩ : ∃ i : Fin 8, k = 8 * (n - 1) + (i.val : Int) := ⟨⟨(k - 8 * (n - 1)).toNat, by omega⟩, by simp; omega⟩
        rw [hi, s3]; rfl) s4
      have hP' : PlanesTo s (8 * (n + 1 - 1)) lp1 hp1 lp0 hp0 hiL hiH := by
        refine ⟨f2, f1, fun k k1 k2 => ?_, fun k k1 k2 => ?_, fun k hk => ?_, fun k hk => ?_⟩
        · by_cases hk : k < 8 * (n - 1)
          · rw [s4 k (by omega), hP.lpA k k1 hk]
          · obtain ⟨i, rfl⟩ : ∃ i : Fin 8, k = 8 * (n - 1) + (i.val : Int) := ⟨⟨(k - 8 * (n - 1)).toNat, by omega⟩, by simp; omega⟩
            rw [s3 i, eT2]
        · by_cases hk : k < 8 * (n - 1)
          · rw [s2 k (by omega), hP.hpA k k1 hk]
          · obtain ⟨i, rfl⟩ : ∃ i : Fin 8, k = 8 * (n - 1) + (i.val : Int) := ⟨⟨(k - 8 * (n - 1)).toNat, by omega⟩, by simp; omega⟩
            rw [s1 i, eT1]
        · rw [s4 k (by omega), hP.lpU k hk]
        · rw [s2 k (by omega), hP.hpU k hk]
      obtain ⟨n', T', lp', hp', ee, g⟩ := ih (n + 1) e o T1 lp1 hp1 (by omega) (by omega) (by omega)
        (fun i => by rw [he]; congr 1; omega) (fun i => by rw [ho]; congr 1; omega)
        (by rw [eT1]; congr 1; simp; omega) hP'
      exact ⟨n', T', lp', hp', by rw [e1, Option.bind_some, e2, Option.bind_some, ee], g⟩
    · rw [if_neg hn]
      exact ⟨n, Tm, lp, hp, rfl, h1, h2, by omega, hT, hP⟩

theorem mapM_range {f : Nat → Option (BitVec 32)} {v : Nat → BitVec 32} (c : Nat) (h : ∀ i < c, f i = some (v i)) :
    (List.range c).mapM f = some ((List.range c).map v) := by
  have key : ∀ l : List Nat, (∀ i ∈ l, i < c) → l.mapM f = some (l.map v) := by
    intro l
    induction l with
    | nil => intro _; rfl
    | cons i l ih =>
      intro hl
      rw [List.mapM_cons, h i (hl i (by simp)), ih fun j hj => hl j (by simp [hj])]
      rfl
  exact key _ fun i hi => List.mem_range.1 hi

theorem planarFwdDrain_spec {E O : Int → Option (BitVec 32)} {s : Int → BitVec 32} (hE : ∀ j, E j = some (s (2 * j))) (hO : ∀ j, O j = some (s (2 * j + 1)))
    {NL NH P : Int} (h0 : 0 ≤ P) (h1 : P ≤ NH) (h2 : NH ≤ NL) (h3 : NL ≤ P + 16) {t : BitVec 32} (ht : t = dOdd s (P - 1)) {lp hp lp0 hp0 : Mem} {hiL hiH : Int}
    (hL : NL ≤ hiL + 1) (hH : NH ≤ hiH + 1) (hP : PlanesTo s P lp hp lp0 hp0 hiL hiH) :
    ∃ lp' hp', planarFwdDrain E O NL NH P t lp hp = some (lp', hp') ∧ (∀ k : Int, 0 ≤ k → k < NL → lp' k = some (dEven s k)) ∧
      (∀ k : Int, 0 ≤ k → k < NH → hp' k = some (dOdd s k)) ∧ (∀ k : Int, ¬ (0 ≤ k ∧ k ≤ hiL) → lp' k = lp0 k) ∧ ∀ k : Int, ¬ (0 ≤ k ∧ k ≤ hiH) → hp' k = hp0 k := by
  have hm := mapM_range (f := fun (i : Nat) => (O (P + i)).bind fun o => (E (P + i)).bind fun a => (E (P + i + 1)).map fun b => o - (a + b).sshiftRight 1)
    (v := fun i => dOdd s (P + i)) (NL - P).toNat (fun i _ => by
      simp only [hE, hO, Option.bind_some, Option.map_some, dOdd]
      rw [show 2 * (P + (i : Int) + 1) = 2 * (P + i) + 2 by omega])
  have hg : ∀ i < (NL - P).toNat, ((List.range (NL - P).toNat).map fun (i : Nat) => dOdd s (P + (i : Int)))[i]? = some (dOdd s (P + i)) := by
    intro i hi
    rw [List.getElem?_map, List.getElem?_range hi, Option.map_some]
  generalize ((List.range (NL - P).toNat).map fun (i : Nat) => dOdd s (P + (i : Int))) = l at hm hg
  obtain ⟨hp1, e1, f1, a1, c1⟩ := putLoop (n := (NH - P).toNat) (body := fun i hp => l[i]?.bind fun v => put hp (P + i) v) (d := fun i => P + i)
    (v := fun i => dOdd s (P + i)) (fun i hi b => by simp [hg i (by omega)]) (lo := 0) (hi := hiH) (fun i hi => by omega) (fun i _ k _ h => by omega) hP.hpF
  obtain ⟨lp1, e2, f2, a2, c2⟩ := putLoop (n := (NL - P).toNat)
    (body := fun i lp => (if i = 0 then some t else l[i - 1]?).bind fun t1l => l[i]?.bind fun t => (E (P + i)).bind fun e =>
      put lp (P + i) (e + (t1l + t + 2#32).sshiftRight 2)) (d := fun i => P + i)
    (v := fun i => dEven s (P + i)) (fun i hi b => by
      have q : (if i = 0 then some t else l[i - 1]?) = some (dOdd s (P + i - 1)) := by
        split_ifs with hi0
        · rw [ht, hi0]; simp
        · rw [hg (i - 1) (by omega)]; congr 2; omega
      simp only [q, hg i hi, hE, Option.bind_some, dEven]) (lo := 0) (hi := hiL) (fun i hi => by omega) (fun i _ k _ h => by omega) hP.lpF
  refine ⟨lp1, hp1, ?_, ?_, ?_, ?_, ?_⟩
  · unfold planarFwdDrain
    simp only []
    rw [if_neg (by omega), hm, Option.bind_some, e1, Option.bind_some, e2, Option.map_some]
  · intro k k1 k2
    by_cases hk : k < P
    · rw [c2 k (fun i hi => by omega), hP.lpA k k1 hk]
    · have := a2 (k - P).toNat (by omega)
      rwa [show P + (((k - P).toNat : Nat) : Int) = k by omega] at this
  · intro k k1 k2
    by_cases hk : k < P
    · rw [c1 k (fun i hi => by omega), hP.hpA k k1 hk]
    · have := a1 (k - P).toNat (by omega)
      rwa [show P + (((k - P).toNat : Nat) : Int) = k by omega] at this
  · intro k hk
    rw [c2 k (fun i hi => by omega), hP.lpU k hk]
  · intro k hk
    rw [c1 k (fun i hi => by omega), hP.hpU k hk]

/-- The kernel that writes planes gives the analysis of the row; nothing but the planes changes. -/
theorem planarForward_spec {u0 : Int} (hu : u0 % 2 = 0) {w : Nat} (hw : 16 ≤ w) {inp lp hp : Mem} {s : Int → BitVec 32} (hs : Sym w s)
    (hinp : ∀ k : Int, 0 ≤ k → k < w → inp k = some (s k)) {hiL hiH : Int} (hL : ((w : Int) + 1) / 2 ≤ hiL + 1) (hH : (w : Int) / 2 ≤ hiH + 1) (hlF : Filled lp 0 hiL)
    (hhF : Filled hp 0 hiH) :
    ∃ lp' hp', planarForward u0 (u0 + w) inp lp hp = some (lp', hp') ∧ (∀ k : Int, 0 ≤ k → 2 * k < w → lp' k = some (Dwt.analyseAll wFwd (u0 % 2) s (2 * k))) ∧
      (∀ k : Int, 0 ≤ k → 2 * k + 1 < w → hp' k = some (Dwt.analyseAll wFwd (u0 % 2) s (2 * k + 1))) ∧ (∀ k : Int, ¬ (0 ≤ k ∧ k ≤ hiL) → lp' k = lp k) ∧
      ∀ k : Int, ¬ (0 ≤ k ∧ k ≤ hiH) → hp' k = hp k := by
  have hR : ∀ k : Int, (pseo (u0 + k) u0 (u0 + w)).bind inp = some (s k) := by
    intro k
    rw [Dwt.pseo_eq (by omega), Option.bind_some, show u0 + (w : Int) - u0 = w by ring, show u0 + k - u0 = k by ring]
    have h1 := Dwt.mirror_range (w := (w : Int)) (by omega) k
    rw [hinp _ h1.1 h1.2, hs.at_mirror]
  have hE : ∀ j : Int, (pseo (u0 + 2 * j) u0 (u0 + w)).bind inp = some (s (2 * j)) := fun j => hR _
  have hO : ∀ j : Int, (pseo (u0 + 2 * j + 1) u0 (u0 + w)).bind inp = some (s (2 * j + 1)) := fun j => by rw [add_assoc]; exact hR _
  have hNH : (u0 + w) / 2 - u0 / 2 = (w : Int) / 2 := by omega
  have hNL : ceilHalf (u0 + w) - u0 / 2 = ((w : Int) + 1) / 2 := by unfold ceilHalf; omega
  obtain ⟨e, o, el, he, ho⟩ := loadDeint_spec (b := inp) (m := 0) (s := s) (fun k k1 k2 => hinp k (by omega) (by omega))
  obtain ⟨n, T, lp1, hp1, e1, g1, g2, g3, g4, g5⟩ := planarFwdLoop_spec (inp := inp) (s := s) (NH := (w : Int) / 2) (fun k k1 k2 => hinp k k1 (by omega))
    (lp0 := lp) (hp0 := hp) (hiL := hiL) (hiH := hiH) (by omega) (by omega) _ 1 e o (vset (s (2 * (-1) + 1) - (s (2 * (-1)) + s (2 * 0)).sshiftRight 1)) lp hp
    (le_refl _) (le_refl _) (by omega) (fun i => by rw [he]; congr 1; omega) (fun i => by rw [ho]; congr 1; omega)
    (by simp [vset, dOdd]) ⟨hlF, hhF, fun k k1 k2 => by omega, fun k k1 k2 => by omega, fun _ _ => rfl, fun _ _ => rfl⟩
  obtain ⟨lp2, hp2, e2, a1, a2, u1, u2⟩ := planarFwdDrain_spec (E := fun j => (pseo (u0 + 2 * j) u0 (u0 + w)).bind inp)
    (O := fun j => (pseo (u0 + 2 * j + 1) u0 (u0 + w)).bind inp) hE hO (NL := ((w : Int) + 1) / 2) (NH := (w : Int) / 2) (P := 8 * (n - 1)) (by omega) (by omega)
    (by omega) (by omega) g4 (by omega) (by omega) g5
  refine ⟨lp2, hp2, ?_, ?_, ?_, u1, u2⟩
  · unfold planarForward
    simp only [hNH, hNL]
    rw [hO (-1), Option.bind_some, hE (-1), Option.bind_some, hE 0, Option.bind_some, el, Option.bind_some]
    simp only []
    rw [e1, Option.bind_some]
    exact e2
  · intro k k1 k2
    rw [a1 k k1 (by omega), hu, anal_even]
  · intro k k1 k2
    rw [a2 k k1 (by omega), hu, anal_odd]

end Verif.Simd.Lift
