import Verif.Ht.QuadLemmas

/-!
# The cleanup encoder computes its closed form

`encBlock` walks the block with line buffers that are updated in place; here it is shown to emit what
one gets from each quad and its neighbours in the sample array directly.
-/

namespace Verif.Ht

/-- Significance pattern of quad `(r, j)`. -/
def rhoQ (s : Nat → Nat → Nat) (r j : Nat) : Nat := rhoOf (quad s r j)
/-- Significance pattern of the western neighbour. -/
def rhoW (s : Nat → Nat → Nat) (r j : Nat) : Nat := if j = 0 then 0 else rhoQ s r (j - 1)

/-- Context of quad `(r, j)`, times 256. -/
def ctxS (s : Nat → Nat → Nat) : Nat → Nat → Nat
  | 0, j => ((rhoW s 0 j >>> 1) ||| (rhoW s 0 j &&& 1)) <<< 8
  | r + 1, j => encCtx (rhoW s (r + 1) j) (rhoW s r j) (rhoQ s r j) (rhoQ s r (j + 1))

/-- Exponent of the bottom sample in column `c` of line-pair `r`. -/
def lineE (s : Nat → Nat → Nat) (r c : Nat) : Nat := expE (quad s r (c / 2)) (2 * (c % 2) + 1)

/-- Largest exponent among the bottom samples of line-pair `r` that neighbour quad `j` below. -/
def emaxA (s : Nat → Nat → Nat) (r j : Nat) : Nat :=
  max4 (if j = 0 then 0 else lineE s r (2 * j - 1)) (lineE s r (2 * j)) (lineE s r (2 * j + 1))
    (lineE s r (2 * j + 2))

/-- `kappa` of quad `(r, j)`. -/
def kap (s : Nat → Nat → Nat) : Nat → Nat → Nat
  | 0, _ => 1
  | r + 1, j => kappaOf (emaxA s r j) (rhoQ s (r + 1) j)

/-- Quad `(r, j)`, coded. -/
def cq (s : Nat → Nat → Nat) (r j : Nat) : Coded :=
  codeQuad (encVlc (r == 0)) (ctxS s r j) (kap s r j) (quad s r j)

/-- MEL event for the significance of quad `(r, j)`. -/
def melEv (s : Nat → Nat → Nat) (r j : Nat) : List Bool :=
  if ctxS s r j = 0 then [decide (rhoOf (quad s r j) ≠ 0)] else []

/-- VLC codeword of quad `(r, j)`. -/
def vlcE (s : Nat → Nat → Nat) (r j : Nat) : Nat × Nat := ((cq s r j).cwd, (cq s r j).len)

/-- MEL event for the exponent residuals of two quads of the initial line-pair. -/
def melU (r u0 u1 : Nat) : List Bool :=
  if r = 0 ∧ u0 ≠ 0 ∧ u1 ≠ 0 then [decide (2 < min u0 u1)] else []

/-- MEL events of the pair starting at quad `(r, j)`; `two` when the second quad exists. -/
def pairMel (s : Nat → Nat → Nat) (r j : Nat) (two : Bool) : List Bool :=
  melEv s r j ++ if two then melEv s r (j + 1) ++ melU r (cq s r j).u (cq s r (j + 1)).u else []

/-- VLC codewords of a pair. -/
def pairVlc (s : Nat → Nat → Nat) (r j : Nat) (two : Bool) : List (Nat × Nat) :=
  vlcE s r j :: if two then
      [vlcE s r (j + 1), uvlcWord (tab (encUvlc (r == 0)) ((cq s r j).u + 32 * (cq s r (j + 1)).u))]
    else [uvlcWord (tab (encUvlc (r == 0)) ((cq s r j).u + 32 * 0))]

/-- MagSgn fields of quad `(r, j)`. -/
def msE (s : Nat → Nat → Nat) (r j : Nat) : List (Nat × Nat × Nat) := msFields (quad s r j) (cq s r j)

/-- MagSgn fields of a pair. -/
def pairMs (s : Nat → Nat → Nat) (r j : Nat) (two : Bool) : List (Nat × Nat × Nat) :=
  msE s r j ++ if two then msE s r (j + 1) else []

/-- Concatenation over the pairs of a line-pair. -/
def overRow {α : Type} (f : Nat → Bool → List α) (QW n : Nat) : List α :=
  (List.range n).flatMap fun i => f (2 * i) (decide (2 * i + 1 < QW))

/-- Concatenation over the first `n` line-pairs. -/
def overBlock {α : Type} (f : Nat → Nat → Bool → List α) (QW n : Nat) : List α :=
  (List.range n).flatMap fun r => overRow (f r) QW ((QW + 1) / 2)

theorem overRow_succ {α : Type} (f : Nat → Bool → List α) (QW n : Nat) :
    overRow f QW (n + 1) = overRow f QW n ++ f (2 * n) (decide (2 * n + 1 < QW)) := by
  simp [overRow, List.range_succ]

theorem overBlock_succ {α : Type} (f : Nat → Nat → Bool → List α) (QW n : Nat) :
    overBlock f QW (n + 1) = overBlock f QW n ++ overRow (f n) QW ((QW + 1) / 2) := by
  simp [overBlock, List.range_succ]

/-- The block is well formed: words as `quantize` leaves them, nothing right of `2 * QW`. -/
structure SOk (s : Nat → Nat → Nat) (QW : Nat) : Prop where
  word : ∀ r c, s r c = 0 ∨ (2 ^ 31 ≤ s r c ∧ s r c < 2 ^ 32)
  out : ∀ r c, 2 * QW ≤ c → s r c = 0

theorem SOk.qok {s : Nat → Nat → Nat} {QW : Nat} (h : SOk s QW) (r j : Nat) : QOk (quad s r j) :=
  fun _ => h.word _ _

theorem SOk.quad_out {s : Nat → Nat → Nat} {QW : Nat} (h : SOk s QW) (r : Nat) {j : Nat} (hj : QW ≤ j) (i : Nat) :
    quad s r j i = 0 := h.out _ _ (by omega)

theorem SOk.rho_out {s : Nat → Nat → Nat} {QW : Nat} (h : SOk s QW) (r : Nat) {j : Nat} (hj : QW ≤ j) :
    rhoQ s r j = 0 := by
  simp [rhoQ, rhoOf, sig, h.quad_out r hj]

theorem SOk.lineE_out {s : Nat → Nat → Nat} {QW : Nat} (h : SOk s QW) (r : Nat) {c : Nat} (hc : 2 * QW ≤ c) :
    lineE s r c = 0 := by
  simp [lineE, expE, sig, h.quad_out r (j := c / 2) (by omega)]

theorem SOk.rho_lt {s : Nat → Nat → Nat} {QW : Nat} (h : SOk s QW) (r j : Nat) : rhoQ s r j < 16 :=
  (h.qok r j).rho_lt

theorem SOk.rhoW_lt {s : Nat → Nat → Nat} {QW : Nat} (h : SOk s QW) (r j : Nat) : rhoW s r j < 16 := by
  unfold rhoW; split_ifs
  · omega
  · exact h.rho_lt _ _

theorem SOk.ctx {s : Nat → Nat → Nat} {QW : Nat} (h : SOk s QW) (r j : Nat) : ∃ k < 8, ctxS s r j = 256 * k := by
  cases r with
  | zero =>
    refine ⟨_, (ctxInit _ (h.rhoW_lt 0 j)).1, ?_⟩
    rw [ctxS, Nat.shiftLeft_eq]; omega
  | succ r => exact encCtx_shape (h.rhoW_lt _ _) (h.rhoW_lt _ _) (h.rho_lt _ _) (h.rho_lt _ _)

theorem SOk.coded {s : Nat → Nat → Nat} {QW : Nat} (h : SOk s QW) (r j : Nat) :
    CodedOk (ctxS s r j) (kap s r j) (quad s r j) (cq s r j) := by
  obtain ⟨k, hk, e⟩ := h.ctx r j
  unfold cq
  rw [e]
  exact codeQuad_ok _ (h.qok r j) hk

theorem SOk.u_zero {s : Nat → Nat → Nat} {QW : Nat} (h : SOk s QW) {r j : Nat} (hr : rhoQ s r j = 0) :
    (cq s r j).u = 0 := by
  have c := h.coded r j
  rw [c.u, c.U, rho_zero_emax (h.qok r j) hr]
  omega

/-! ## Line buffers -/

/-- Exponent line left by the previous line-pair. -/
def lineP (s : Nat → Nat → Nat) : Nat → Nat → Nat
  | 0, _ => 0
  | r + 1, c => lineE s r c

/-- Significance line left by the previous line-pair. -/
def rhoP (s : Nat → Nat → Nat) : Nat → Nat → Nat
  | 0, _ => 0
  | r + 1, k => rhoQ s r k

/-- The line buffers after `j` quads of line-pair `r`. -/
structure Lines (s : Nat → Nat → Nat) (r j : Nat) (e rh : Nat → Nat) : Prop where
  e0 : e 0 = 0
  e : ∀ c, e (c + 1) = if c < 2 * j then lineE s r c else lineP s r c
  r0 : rh 0 = 0
  r : ∀ k, rh (k + 1) = if k < j then rhoQ s r k else rhoP s r k

theorem storeE_spec {s : Nat → Nat → Nat} {r j : Nat} {e : Nat → Nat} (h0 : e 0 = 0)
    (h : ∀ c, e (c + 1) = if c < 2 * j then lineE s r c else lineP s r c) :
    storeE e (1 + 2 * j) (quad s r j) 0 = 0 ∧
      ∀ c, storeE e (1 + 2 * j) (quad s r j) (c + 1) = if c < 2 * (j + 1) then lineE s r c else lineP s r c := by
  constructor
  · simp [storeE, Function.update, h0]
    omega
  · intro c
    simp only [storeE, Function.update, eq_rec_constant, dite_eq_ite]
    by_cases h1 : c + 1 = 1 + 2 * j + 1
    · rw [if_pos h1, if_pos (by omega)]
      unfold lineE
      rw [show c / 2 = j by omega, show c % 2 = 1 by omega]
    · rw [if_neg h1]
      by_cases h2 : c + 1 = 1 + 2 * j
      · rw [if_pos h2, if_pos (by omega)]
        unfold lineE
        rw [show c / 2 = j by omega, show c % 2 = 0 by omega]
      · rw [if_neg h2, h c]
        by_cases h3 : c < 2 * j
        · rw [if_pos h3, if_pos (by omega)]
        · rw [if_neg h3, if_neg (by omega)]

theorem storeR_spec {s : Nat → Nat → Nat} {r j : Nat} {rh : Nat → Nat} (h0 : rh 0 = 0)
    (h : ∀ k, rh (k + 1) = if k < j then rhoQ s r k else rhoP s r k) :
    Function.update rh (1 + j) (rhoOf (quad s r j)) 0 = 0 ∧
      ∀ k, Function.update rh (1 + j) (rhoOf (quad s r j)) (k + 1) =
        if k < j + 1 then rhoQ s r k else rhoP s r k := by
  constructor
  · simp [Function.update, h0]
    omega
  · intro k
    simp only [Function.update, eq_rec_constant, dite_eq_ite]
    by_cases h1 : k + 1 = 1 + j
    · rw [if_pos h1, if_pos (by omega), show k = j by omega]; rfl
    · rw [if_neg h1, h k]
      by_cases h3 : k < j
      · rw [if_pos h3, if_pos (by omega)]
      · rw [if_neg h3, if_neg (by omega)]

theorem Lines.step {s : Nat → Nat → Nat} {r j : Nat} {e rh : Nat → Nat} (h : Lines s r j e rh) :
    Lines s r (j + 1) (storeE e (1 + 2 * j) (quad s r j)) (Function.update rh (1 + j) (rhoOf (quad s r j))) := by
  obtain ⟨a, b⟩ := storeE_spec h.e0 h.e
  obtain ⟨c, d⟩ := storeR_spec h.r0 h.r
  exact ⟨a, b, c, d⟩

/-- At the end of a line-pair the buffers are those of the next line-pair's start. -/
theorem Lines.wrap {s : Nat → Nat → Nat} {QW r : Nat} (hs : SOk s QW) {e rh : Nat → Nat} (h : Lines s r QW e rh)
    (hp : ∀ c, 2 * QW ≤ c → lineP s r c = 0) (hq : ∀ k, QW ≤ k → rhoP s r k = 0) : Lines s (r + 1) 0 e rh := by
  refine ⟨h.e0, fun c => ?_, h.r0, fun k => ?_⟩
  · rw [h.e c, if_neg (show ¬ c < 2 * 0 by omega)]
    by_cases hc : c < 2 * QW
    · rw [if_pos hc]; rfl
    · rw [if_neg hc, hp c (by omega)]
      exact (hs.lineE_out r (by omega)).symm
  · rw [h.r k, if_neg (show ¬ k < 0 by omega)]
    by_cases hc : k < QW
    · rw [if_pos hc]; rfl
    · rw [if_neg hc, hq k (by omega)]
      exact (hs.rho_out r (by omega)).symm

theorem lineP_out {s : Nat → Nat → Nat} {QW : Nat} (hs : SOk s QW) (r : Nat) {c : Nat} (hc : 2 * QW ≤ c) :
    lineP s r c = 0 := by
  cases r with
  | zero => rfl
  | succ r => exact hs.lineE_out r hc

theorem rhoP_out {s : Nat → Nat → Nat} {QW : Nat} (hs : SOk s QW) (r : Nat) {k : Nat} (hk : QW ≤ k) :
    rhoP s r k = 0 := by
  cases r with
  | zero => rfl
  | succ r => exact hs.rho_out r hk

/-! ## Initial line-pair -/

/-- State in the initial line-pair before pair `i`. -/
structure Inv0 (s : Nat → Nat → Nat) (QW i : Nat) (st : Enc) : Prop where
  mel : st.mel = overRow (pairMel s 0) QW i
  vlc : st.vlc = overRow (pairVlc s 0) QW i
  ms : st.ms = overRow (pairMs s 0) QW i
  ctx : st.ctx <<< 8 = ctxS s 0 (2 * i)
  lines : Lines s 0 (2 * i) st.eline st.rholine

/-- State after the line-pairs before `r`. -/
structure RowEnd (s : Nat → Nat → Nat) (QW r : Nat) (st : Enc) : Prop where
  mel : st.mel = overBlock (pairMel s) QW r
  vlc : st.vlc = overBlock (pairVlc s) QW r
  ms : st.ms = overBlock (pairMs s) QW r
  lines : Lines s r 0 st.eline st.rholine

theorem ctx_zero_iff {a b : Nat} (h : a <<< 8 = b) : a = 0 ↔ b = 0 := by
  rw [Nat.shiftLeft_eq] at h; omega

theorem rhoW_succ (s : Nat → Nat → Nat) (r j : Nat) : rhoW s r (j + 1) = rhoQ s r j := by simp [rhoW]

theorem inv0_step {s : Nat → Nat → Nat} {QW i : Nat} (hs : SOk s QW) {st : Enc} (h : Inv0 s QW i st)
    (hi : 2 * i + 1 < QW) : Inv0 s QW (i + 1) (encInitPair s (2 * i) st) := by
  have hc0 : codeQuad encVlc0 (st.ctx <<< 8) 1 (quad s 0 (2 * i)) = cq s 0 (2 * i) := by rw [h.ctx]; rfl
  have hctx1 : ((rhoOf (quad s 0 (2 * i)) >>> 1) ||| (rhoOf (quad s 0 (2 * i)) &&& 1)) <<< 8 =
      ctxS s 0 (2 * i + 1) := by rw [ctxS, rhoW_succ]; rfl
  have hc1 : codeQuad encVlc0 (((rhoOf (quad s 0 (2 * i)) >>> 1) ||| (rhoOf (quad s 0 (2 * i)) &&& 1)) <<< 8) 1
      (quad s 0 (2 * i + 1)) = cq s 0 (2 * i + 1) := by rw [hctx1]; rfl
  have hl := h.lines.step.step
  refine ⟨?_, ?_, ?_, ?_, ?_⟩
  · simp only [encInitPair, hc0, hc1]
    rw [overRow_succ, h.mel, List.append_assoc]
    congr 1
    rw [decide_eq_true hi]
    simp only [pairMel, if_true]
    have e0 : (if st.ctx = 0 then [decide (rhoOf (quad s 0 (2 * i)) ≠ 0)] else []) = melEv s 0 (2 * i) := by
      unfold melEv
      simp only [ctx_zero_iff h.ctx]
    rw [e0]
    congr 1
    unfold melEv melU
    by_cases hz : ((rhoOf (quad s 0 (2 * i)) >>> 1) ||| (rhoOf (quad s 0 (2 * i)) &&& 1)) = 0
    · rw [if_pos hz, if_pos ((ctx_zero_iff hctx1).mp hz)]
      have hr0 : rhoQ s 0 (2 * i) = 0 := by
        have : ∀ w < 16, ((w >>> 1) ||| (w &&& 1)) = 0 → w = 0 := by decide +kernel
        exact this _ (hs.rho_lt 0 (2 * i)) hz
      have hu := hs.u_zero hr0
      rw [hu]
      simp
    · rw [if_neg hz, if_neg (fun h => hz ((ctx_zero_iff hctx1).mpr h))]
      simp
  · simp only [encInitPair, hc0, hc1]
    rw [overRow_succ, h.vlc, decide_eq_true hi]
    simp only [pairVlc, vlcE, if_true, Nat.shiftLeft_eq]
    rw [Nat.mul_comm (cq s 0 (2 * i + 1)).u (2 ^ 5)]
    rfl
  · simp only [encInitPair, hc0, hc1]
    rw [overRow_succ, h.ms, decide_eq_true hi]
    simp only [pairMs, msE, if_true, List.append_assoc]
  · simp only [encInitPair]
    rw [show 2 * (i + 1) = 2 * i + 1 + 1 by ring, ctxS, rhoW_succ]
    rfl
  · simp only [encInitPair]
    rw [show 2 * (i + 1) = 2 * i + 1 + 1 by ring, show 1 + 2 * (2 * i) + 2 = 1 + 2 * (2 * i + 1) by ring]
    exact hl

theorem inv0_init (s : Nat → Nat → Nat) (QW : Nat) : Inv0 s QW 0 Enc.init :=
  ⟨rfl, rfl, rfl, by simp [Enc.init, ctxS, rhoW], ⟨rfl, fun c => by simp [Enc.init, lineP], rfl,
    fun k => by simp [Enc.init, rhoP]⟩⟩

theorem foldl_range {α : Type} (P : Nat → α → Prop) (f : α → Nat → α) (n : Nat) (a : α) (h0 : P 0 a)
    (hs : ∀ i a, i < n → P i a → P (i + 1) (f a i)) : P n ((List.range n).foldl f a) := by
  induction n with
  | zero => exact h0
  | succ n ih =>
    rw [List.range_succ, List.foldl_append]
    exact hs n _ (by omega) (ih fun i a hi => hs i a (by omega))

theorem overBlock_one {α : Type} (f : Nat → Nat → Bool → List α) (QW : Nat) :
    overBlock f QW 1 = overRow (f 0) QW ((QW + 1) / 2) := by
  rw [overBlock_succ]; simp [overBlock]

theorem encInitRow_spec {s : Nat → Nat → Nat} {QW : Nat} (hs : SOk s QW) :
    RowEnd s QW 1 (encInitRow s QW Enc.init) := by
  have h := foldl_range (fun i st => Inv0 s QW i st) (fun st i => encInitPair s (2 * i) st) (QW / 2) Enc.init
    (inv0_init s QW) (fun i st hi h => inv0_step hs h (by omega))
  unfold encInitRow
  simp only
  generalize (List.range (QW / 2)).foldl (fun st i => encInitPair s (2 * i) st) Enc.init = st at *
  by_cases ho : QW % 2 = 1
  · rw [if_pos ho]
    have e1 : (QW + 1) / 2 = QW / 2 + 1 := by omega
    have e2 : QW - 1 = 2 * (QW / 2) := by omega
    have hc0 : codeQuad encVlc0 (st.ctx <<< 8) 1 (quad s 0 (2 * (QW / 2))) = cq s 0 (2 * (QW / 2)) := by
      rw [h.ctx]; rfl
    have hd : decide (2 * (QW / 2) + 1 < QW) = false := decide_eq_false (by omega)
    have hl := h.lines.step
    rw [show 2 * (QW / 2) + 1 = QW by omega] at hl
    rw [e2]
    refine ⟨?_, ?_, ?_, ?_⟩
    · simp only [encInitLast]
      rw [overBlock_one, e1, overRow_succ, h.mel, hd]
      congr 1
      simp only [pairMel, melEv, ctx_zero_iff h.ctx]
      simp
    · simp only [encInitLast, hc0]
      rw [overBlock_one, e1, overRow_succ, h.vlc, hd]
      rfl
    · simp only [encInitLast, hc0]
      rw [overBlock_one, e1, overRow_succ, h.ms, hd]
      simp [pairMs, msE]
    · simp only [encInitLast]
      exact hl.wrap hs (fun c hc => rfl) (fun k hk => rfl)
  · rw [if_neg ho]
    have e1 : (QW + 1) / 2 = QW / 2 := by omega
    have hl := h.lines
    rw [show 2 * (QW / 2) = QW by omega] at hl
    refine ⟨?_, ?_, ?_, hl.wrap hs (fun c hc => rfl) (fun k hk => rfl)⟩
    · rw [overBlock_one, e1]; exact h.mel
    · rw [overBlock_one, e1]; exact h.vlc
    · rw [overBlock_one, e1]; exact h.ms

/-! ## Further line-pairs -/

/-- State in line-pair `r + 1` before pair `i`. -/
structure Inv1 (s : Nat → Nat → Nat) (QW r i : Nat) (st : Enc) : Prop where
  mel : st.mel = overBlock (pairMel s) QW (r + 1) ++ overRow (pairMel s (r + 1)) QW i
  vlc : st.vlc = overBlock (pairVlc s) QW (r + 1) ++ overRow (pairVlc s (r + 1)) QW i
  ms : st.ms = overBlock (pairMs s) QW (r + 1) ++ overRow (pairMs s (r + 1)) QW i
  ctx : st.ctx = ctxS s (r + 1) (2 * i)
  emax0 : st.emax0 = emaxA s r (2 * i)
  emax1 : st.emax1 = emaxA s r (2 * i + 1)
  lines : Lines s (r + 1) (2 * i) st.eline st.rholine

/-- Old entries of the exponent line. -/
theorem Lines.old {s : Nat → Nat → Nat} {r j : Nat} {e rh : Nat → Nat} (h : Lines s (r + 1) j e rh) (c : Nat)
    (hc : 2 * j ≤ c) : e (c + 1) = lineE s r c := by
  rw [h.e c, if_neg (by omega)]; rfl

/-- Old entries of the significance line. -/
theorem Lines.oldR {s : Nat → Nat → Nat} {r j : Nat} {e rh : Nat → Nat} (h : Lines s (r + 1) j e rh) (k : Nat)
    (hk : j ≤ k) : rh (k + 1) = rhoQ s r k := by
  rw [h.r k, if_neg (by omega)]; rfl

theorem emaxA_pos (s : Nat → Nat → Nat) (r j : Nat) : emaxA s r (j + 1) =
    max4 (lineE s r (2 * j + 1)) (lineE s r (2 * j + 2)) (lineE s r (2 * j + 3)) (lineE s r (2 * j + 4)) := by
  unfold emaxA
  rw [if_neg (by omega), show 2 * (j + 1) - 1 = 2 * j + 1 by omega, show 2 * (j + 1) = 2 * j + 2 by ring]

theorem encRowHead_spec {s : Nat → Nat → Nat} {QW r : Nat} {st : Enc} (h : RowEnd s QW (r + 1) st) :
    Inv1 s QW r 0 (encRowHead st) := by
  have l := h.lines
  have e1 := l.old 0 (by omega)
  have e2 := l.old 1 (by omega)
  have e3 := l.old 2 (by omega)
  have e4 := l.old 3 (by omega)
  have e5 := l.old 4 (by omega)
  have r1 := l.oldR 0 (by omega)
  have r2 := l.oldR 1 (by omega)
  refine ⟨?_, ?_, ?_, ?_, ?_, ?_, ?_⟩
  · simp [encRowHead, h.mel, overRow]
  · simp [encRowHead, h.vlc, overRow]
  · simp [encRowHead, h.ms, overRow]
  · simp only [encRowHead, ctxS, rhoW, Nat.mul_zero, if_true]
    rw [l.r0, ← r1, ← r2]
  · simp only [encRowHead, emaxA, Nat.mul_zero, if_true]
    rw [l.e0, ← e1, ← e2, ← e3]
  · simp only [encRowHead, Nat.mul_zero]
    rw [emaxA_pos, ← e2, ← e3, ← e4, ← e5]
  · exact l

theorem inv1_step {s : Nat → Nat → Nat} {QW r i : Nat} {st : Enc} (h : Inv1 s QW r i st)
    (hi : 2 * i + 1 < QW) : Inv1 s QW r (i + 1) (encPair s (r + 1) (2 * i) st) := by
  have l := h.lines
  have hctx1 : encCtx (rhoOf (quad s (r + 1) (2 * i))) (st.rholine (1 + 2 * i)) (st.rholine (1 + 2 * i + 1))
      (st.rholine (1 + 2 * i + 2)) = ctxS s (r + 1) (2 * i + 1) := by
    rw [ctxS, rhoW_succ, rhoW_succ, show 1 + 2 * i = 2 * i + 1 by ring, l.oldR (2 * i) (by omega),
      l.oldR (2 * i + 1) (by omega), l.oldR (2 * i + 2) (by omega)]
    rfl
  have hctx2 : encCtx (rhoOf (quad s (r + 1) (2 * i + 1))) (st.rholine (1 + 2 * i + 1)) (st.rholine (1 + 2 * i + 2))
      (st.rholine (1 + 2 * i + 3)) = ctxS s (r + 1) (2 * i + 1 + 1) := by
    rw [ctxS, rhoW_succ, rhoW_succ, show 1 + 2 * i = 2 * i + 1 by ring,
      l.oldR (2 * i + 1) (by omega), l.oldR (2 * i + 2) (by omega), l.oldR (2 * i + 3) (by omega)]
    rfl
  have hc0 : codeQuad encVlc1 st.ctx (kappaOf st.emax0 (rhoOf (quad s (r + 1) (2 * i))))
      (quad s (r + 1) (2 * i)) = cq s (r + 1) (2 * i) := by rw [h.ctx, h.emax0]; rfl
  have hc1 : codeQuad encVlc1 (ctxS s (r + 1) (2 * i + 1))
      (kappaOf st.emax1 (rhoOf (quad s (r + 1) (2 * i + 1)))) (quad s (r + 1) (2 * i + 1)) =
      cq s (r + 1) (2 * i + 1) := by rw [h.emax1]; rfl
  have hl := h.lines.step.step
  refine ⟨?_, ?_, ?_, ?_, ?_, ?_, ?_⟩
  · simp only [encPair, hctx1]
    rw [overRow_succ, h.mel, decide_eq_true hi, h.ctx]
    simp [pairMel, melEv, melU]
  · simp only [encPair, hctx1, hc0, hc1]
    rw [overRow_succ, h.vlc, decide_eq_true hi, List.append_assoc]
    simp only [pairVlc, vlcE, if_true, Nat.shiftLeft_eq]
    rw [Nat.mul_comm (cq s (r + 1) (2 * i + 1)).u (2 ^ 5)]
    rfl
  · simp only [encPair, hctx1, hc0, hc1]
    rw [overRow_succ, h.ms, decide_eq_true hi]
    simp only [pairMs, msE, if_true, List.append_assoc]
  · simp only [encPair]
    rw [show 2 * (i + 1) = 2 * i + 1 + 1 by ring]
    exact hctx2
  · simp only [encPair]
    rw [show 2 * (i + 1) = (2 * i + 1) + 1 by ring, emaxA_pos, ← l.old _ (by omega), ← l.old _ (by omega),
      ← l.old _ (by omega), ← l.old _ (by omega)]
    congr 2 <;> ring
  · simp only [encPair]
    rw [emaxA_pos, ← l.old _ (by omega), ← l.old _ (by omega),
      ← l.old _ (by omega), ← l.old _ (by omega)]
    congr 2 <;> ring
  · simp only [encPair]
    rw [show 2 * (i + 1) = 2 * i + 1 + 1 by ring, show 1 + 2 * (2 * i) + 2 = 1 + 2 * (2 * i + 1) by ring]
    exact hl

theorem encRow_spec {s : Nat → Nat → Nat} {QW r : Nat} (hs : SOk s QW) {st : Enc} (h0 : RowEnd s QW (r + 1) st) :
    RowEnd s QW (r + 2) (encRow s QW (r + 1) st) := by
  have h := foldl_range (fun i st => Inv1 s QW r i st) (fun st i => encPair s (r + 1) (2 * i) st) (QW / 2)
    (encRowHead st) (encRowHead_spec h0) (fun i st hi h => inv1_step h (by omega))
  unfold encRow
  simp only
  generalize (List.range (QW / 2)).foldl (fun st i => encPair s (r + 1) (2 * i) st) (encRowHead st) = st at *
  by_cases ho : QW % 2 = 1
  · rw [if_pos ho]
    have e1 : (QW + 1) / 2 = QW / 2 + 1 := by omega
    have e2 : QW - 1 = 2 * (QW / 2) := by omega
    have hc0 : codeQuad encVlc1 st.ctx (kappaOf st.emax0 (rhoOf (quad s (r + 1) (2 * (QW / 2)))))
        (quad s (r + 1) (2 * (QW / 2))) = cq s (r + 1) (2 * (QW / 2)) := by
      rw [h.ctx, h.emax0]; rfl
    have hd : decide (2 * (QW / 2) + 1 < QW) = false := decide_eq_false (by omega)
    have hl := h.lines.step
    rw [show 2 * (QW / 2) + 1 = QW by omega] at hl
    rw [e2]
    refine ⟨?_, ?_, ?_, ?_⟩
    · simp only [encLast]
      rw [overBlock_succ _ _ (r + 1), e1, overRow_succ, h.mel, hd, h.ctx]
      simp [pairMel, melEv]
    · simp only [encLast, hc0]
      rw [overBlock_succ _ _ (r + 1), e1, overRow_succ, h.vlc, hd, List.append_assoc]
      rfl
    · simp only [encLast, hc0]
      rw [overBlock_succ _ _ (r + 1), e1, overRow_succ, h.ms, hd, List.append_assoc]
      simp [pairMs, msE]
    · simp only [encLast]
      exact hl.wrap hs (fun c hc => lineP_out hs _ hc) (fun k hk => rhoP_out hs _ hk)
  · rw [if_neg ho]
    have e1 : (QW + 1) / 2 = QW / 2 := by omega
    have hl := h.lines
    rw [show 2 * (QW / 2) = QW by omega] at hl
    refine ⟨?_, ?_, ?_, hl.wrap hs (fun c hc => lineP_out hs _ hc) (fun k hk => rhoP_out hs _ hk)⟩
    · rw [overBlock_succ _ _ (r + 1), e1]; exact h.mel
    · rw [overBlock_succ _ _ (r + 1), e1]; exact h.vlc
    · rw [overBlock_succ _ _ (r + 1), e1]; exact h.ms

/-- The encoder emits its closed form. -/
theorem encBlock_spec {s : Nat → Nat → Nat} {QW QH : Nat} (hs : SOk s QW) (hQH : 0 < QH) :
    RowEnd s QW QH (encBlock s QW QH) := by
  have h := foldl_range (fun i st => RowEnd s QW (i + 1) st) (fun st i => encRow s QW (i + 1) st) (QH - 1)
    (encInitRow s QW Enc.init) (encInitRow_spec hs) (fun i st _ h => encRow_spec hs h)
  rw [show QH - 1 + 1 = QH by omega] at h
  exact h

end Verif.Ht
