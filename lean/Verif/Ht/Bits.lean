import Verif.Ht.Streams

/-!
# Bit lists and stuffed byte streams: specification and reader lemmas
-/

namespace Verif.Ht

/-- The `n` low bits of `v`, least significant first. -/
def bitsLE (n v : Nat) : List Bool := (List.range n).map v.testBit

@[simp] theorem bitsLE_length (n v : Nat) : (bitsLE n v).length = n := by simp [bitsLE]

@[simp] theorem bitsLE_zero (v : Nat) : bitsLE 0 v = [] := rfl

theorem bitsLE_getElem? (n v i : Nat) :
    (bitsLE n v)[i]? = if i < n then some (v.testBit i) else none := by
  unfold bitsLE
  rw [List.getElem?_map]
  split_ifs with h
  · rw [List.getElem?_range h]; rfl
  · rw [List.getElem?_eq_none (by simpa using h)]; rfl

theorem bitsLE_congr {n v w : Nat} (h : ∀ i, i < n → v.testBit i = w.testBit i) :
    bitsLE n v = bitsLE n w := by
  apply List.ext_getElem?
  intro i
  rw [bitsLE_getElem?, bitsLE_getElem?]
  split_ifs with hi
  · rw [h i hi]
  · rfl

theorem bitsLE_add (m n v : Nat) : bitsLE (m + n) v = bitsLE m v ++ bitsLE n (v >>> m) := by
  apply List.ext_getElem?
  intro i
  rw [List.getElem?_append, bitsLE_getElem?, bitsLE_getElem?, bitsLE_getElem?, bitsLE_length,
    Nat.testBit_shiftRight]
  by_cases h1 : i < m
  · rw [if_pos (by omega), if_pos h1, if_pos h1]
  · rw [if_neg h1]
    by_cases h2 : i < m + n
    · rw [if_pos h2, if_pos (by omega), Nat.add_sub_cancel' (by omega)]
    · rw [if_neg h2, if_neg (by omega)]

theorem bitsLE_mod {n k : Nat} (v : Nat) (h : n ≤ k) : bitsLE n (v % 2 ^ k) = bitsLE n v := by
  apply bitsLE_congr
  intro i hi
  rw [Nat.testBit_mod_two_pow]
  simp [show i < k by omega]

/-- Two numbers below `2^n` with the same `n` low bits are equal. -/
theorem eq_of_bitsLE {n v w : Nat} (hv : v < 2 ^ n) (hw : w < 2 ^ n) (h : bitsLE n v = bitsLE n w) :
    v = w := by
  apply Nat.eq_of_testBit_eq
  intro i
  by_cases hi : i < n
  · have := congrArg (fun l : List Bool => l[i]?) h
    simp only [bitsLE_getElem?, if_pos hi, Option.some.injEq] at this
    exact this
  · rw [Nat.testBit_lt_two_pow (lt_of_lt_of_le hv (Nat.pow_le_pow_right (by omega) (by omega))),
      Nat.testBit_lt_two_pow (lt_of_lt_of_le hw (Nat.pow_le_pow_right (by omega) (by omega)))]

/-- How a reader removes stuffing bits: `w u b` is the number of payload bits of byte `b` when the
previous byte left the flag `u`, and `nx b` the flag that `b` leaves. -/
structure Disc where
  w : Bool → Nat → Nat
  nx : Nat → Bool

/-- Forward streams: seven bits after a byte 0xFF. -/
def fwdDisc : Disc := ⟨fun u _ => 8 - u.toNat, fun b => b == 0xFF⟩

/-- Reverse streams: seven bits when the previous byte exceeded 0x8F and the seven low bits are
ones. -/
def revDisc : Disc := ⟨revWidth, fun b => decide (0x8F < b)⟩

/-- The payload bits of a byte sequence. -/
def unstuff (D : Disc) : Bool → List Nat → List Bool
  | _, [] => []
  | u, b :: bs => bitsLE (D.w u b) b ++ unstuff D (D.nx b) bs

/-- Every stuffing bit is zero and every byte is below 256. -/
def Legal (D : Disc) : Bool → List Nat → Prop
  | _, [] => True
  | u, b :: bs => b < 2 ^ D.w u b ∧ Legal D (D.nx b) bs

/-- The flag left after a byte sequence. -/
def flagAfter (D : Disc) : Bool → List Nat → Bool
  | u, [] => u
  | _, b :: bs => flagAfter D (D.nx b) bs

theorem unstuff_append (D : Disc) (u : Bool) (a b : List Nat) :
    unstuff D u (a ++ b) = unstuff D u a ++ unstuff D (flagAfter D u a) b := by
  induction a generalizing u with
  | nil => rfl
  | cons x a ih => simp [unstuff, flagAfter, ih, List.append_assoc]

theorem legal_append (D : Disc) (u : Bool) (a b : List Nat) :
    Legal D u (a ++ b) ↔ Legal D u a ∧ Legal D (flagAfter D u a) b := by
  induction a generalizing u with
  | nil => simp [Legal, flagAfter]
  | cons x a ih => simp [Legal, flagAfter, ih, and_assoc]

theorem flagAfter_append (D : Disc) (u : Bool) (a b : List Nat) :
    flagAfter D u (a ++ b) = flagAfter D (flagAfter D u a) b := by
  induction a generalizing u with
  | nil => rfl
  | cons x a ih => simp [flagAfter, ih]

/-- One byte enters the register: common form of `fwdPush` and `revPush`. -/
def push (D : Disc) (s : BitRd) (d : Nat) : BitRd :=
  { creg := (s.creg ||| (d <<< s.bits)) % 2 ^ 64, bits := s.bits + D.w s.unstuff d,
    unstuff := D.nx d, rest := s.rest.tail }

/-- The reader `s`, with the exhausted segment padded by `X`, is about to deliver the bits `L`
(and then unspecified ones). -/
def Rep (D : Disc) (X : Nat) (s : BitRd) (L : List Bool) : Prop :=
  s.bits ≤ 64 ∧ (∀ b ∈ s.rest, b < 256) ∧ ∃ pre k, pre <+: s.rest ++ List.replicate k X ∧
    Legal D s.unstuff pre ∧ ∀ i b, L[i]? = some b →
      (i < s.bits → s.creg.testBit i = b) ∧
      (s.bits ≤ i → s.creg.testBit i = false ∧ (unstuff D s.unstuff pre)[i - s.bits]? = some b)

theorem Rep.push_spec {D : Disc} {X : Nat} {s : BitRd} {L : List Bool} (h : Rep D X s L)
    (hw : ∀ u b, D.w u b ≤ 8) (hb : s.bits + 8 ≤ 64) :
    Rep D X (push D s (s.rest.headD X)) L := by
  obtain ⟨-, hr, pre, k, hpre, hleg, hL⟩ := h
  have h8 := hw s.unstuff (s.rest.headD X)
  refine ⟨by simp only [Ht.push]; omega,
    fun b hb' => hr b (List.mem_of_mem_tail hb'), ?_⟩
  cases pre with
  | nil =>
    refine ⟨[], 0, List.nil_prefix, trivial, ?_⟩
    intro i b hi
    have hlt : i < s.bits := by
      by_contra hc
      have := ((hL i b hi).2 (by omega)).2
      simp [unstuff] at this
    refine ⟨fun _ => ?_, fun hge => absurd hge (by simp only [Ht.push]; omega)⟩
    simp only [Ht.push, Nat.testBit_mod_two_pow, Nat.testBit_or, Nat.testBit_shiftLeft]
    rw [(hL i b hi).1 hlt]
    simp [show i < 64 by omega, show ¬ s.bits ≤ i by omega]
  | cons d pre' =>
    have hd : s.rest.headD X = d ∧ ∃ k', pre' <+: s.rest.tail ++ List.replicate k' X := by
      cases hrest : s.rest with
      | nil =>
        rw [hrest, List.nil_append] at hpre
        cases k with
        | zero => simp at hpre
        | succ k =>
          rw [List.replicate_succ, List.cons_prefix_cons] at hpre
          exact ⟨hpre.1.symm, k, by simpa using hpre.2⟩
      | cons r rs =>
        rw [hrest, List.cons_append, List.cons_prefix_cons] at hpre
        exact ⟨hpre.1.symm, k, by simpa using hpre.2⟩
    obtain ⟨hd, k', hpre'⟩ := hd
    rw [hd] at h8 ⊢
    refine ⟨pre', k', hpre', hleg.2, ?_⟩
    intro i b hi
    have hdlt := hleg.1
    simp only [Ht.push, Nat.testBit_mod_two_pow, Nat.testBit_or, Nat.testBit_shiftLeft]
    by_cases hlt : i < s.bits
    · refine ⟨fun _ => ?_, fun hge => absurd hge (by omega)⟩
      rw [(hL i b hi).1 hlt]
      simp [show i < 64 by omega, show ¬ s.bits ≤ i by omega]
    · obtain ⟨h0, h1⟩ := (hL i b hi).2 (by omega)
      rw [unstuff, List.getElem?_append, bitsLE_length] at h1
      rw [h0]
      constructor
      · intro hi2
        rw [if_pos (by omega), bitsLE_getElem?, if_pos (by omega)] at h1
        rw [Option.some.inj h1]
        simp [show i < 64 by omega, show s.bits ≤ i by omega]
      · intro hi2
        rw [if_neg (by omega)] at h1
        refine ⟨?_, by rw [← h1]; congr 1; omega⟩
        rw [Nat.testBit_lt_two_pow (lt_of_lt_of_le hdlt (Nat.pow_le_pow_right (by omega) (by omega)))]
        simp

/-- Consuming bits. -/
theorem Rep.advance_spec {D : Disc} {X : Nat} {s : BitRd} {n : Nat} {A L : List Bool}
    (h : Rep D X s (A ++ L)) (hA : A.length = n) (hn : n ≤ s.bits) :
    ∃ s', s.advance n = some s' ∧ Rep D X s' L ∧ s'.bits = s.bits - n ∧
      s'.creg = s.creg >>> n ∧ bitsLE n s.creg = A := by
  obtain ⟨h64, hr, pre, k, hpre, hleg, hL⟩ := h
  refine ⟨{ s with creg := s.creg >>> n, bits := s.bits - n }, ?_, ⟨by simp only; omega, hr, pre, k, hpre,
    hleg, ?_⟩, rfl, rfl, ?_⟩
  · unfold BitRd.advance
    rw [if_neg (by omega)]
  · intro i b hi
    have hi' : (A ++ L)[n + i]? = some b := by
      rw [List.getElem?_append_right (by omega), hA, Nat.add_sub_cancel_left]; exact hi
    simp only [Nat.testBit_shiftRight]
    constructor
    · intro h1
      exact (hL _ b hi').1 (by omega)
    · intro h1
      obtain ⟨h2, h3⟩ := (hL _ b hi').2 (by omega)
      exact ⟨h2, by rw [← h3]; congr 1; omega⟩
  · apply List.ext_getElem?
    intro i
    rw [bitsLE_getElem?]
    split_ifs with hi
    · have hA' : A[i]? = some A[i] := List.getElem?_eq_getElem (by omega)
      rw [hA', (hL i A[i] (by rw [List.getElem?_append_left (by omega)]; exact hA')).1 (by omega)]
    · rw [List.getElem?_eq_none (by omega)]

/-- The four-byte refill equals four single-byte pushes. -/
theorem creg_four {c b0 b1 b2 b3 n n1 n2 n3 : Nat} (h0 : b0 < 256) (h1 : b1 < 256) (h2 : b2 < 256)
    (h3 : b3 < 256) (hn1 : n1 ≤ 8) (hn2 : n2 ≤ 16) (hn3 : n3 ≤ 24) :
    (((((((c ||| b0 <<< n) % 2 ^ 64) ||| b1 <<< (n + n1)) % 2 ^ 64) ||| b2 <<< (n + n2)) % 2 ^ 64) |||
      b3 <<< (n + n3)) % 2 ^ 64 =
    (c ||| (((b0 ||| b1 <<< n1 ||| b2 <<< n2 ||| b3 <<< n3) % 2 ^ 32) <<< n)) % 2 ^ 64 := by
  apply Nat.eq_of_testBit_eq
  intro i
  have hbig : ∀ b j, b < 256 → 8 ≤ j → Nat.testBit b j = false := fun b j hb hj =>
    Nat.testBit_lt_two_pow (lt_of_lt_of_le hb (by
      calc 256 = 2 ^ 8 := rfl
        _ ≤ 2 ^ j := Nat.pow_le_pow_right (by omega) hj))
  simp only [Nat.testBit_mod_two_pow, Nat.testBit_or, Nat.testBit_shiftLeft]
  by_cases h64 : i < 64
  · by_cases hi : n ≤ i
    · obtain ⟨j, rfl⟩ := Nat.exists_eq_add_of_le hi
      simp only [h64, hi, decide_true, Bool.true_and, Nat.add_sub_cancel_left,
        show n + j - (n + n1) = j - n1 by omega, show n + j - (n + n2) = j - n2 by omega,
        show n + j - (n + n3) = j - n3 by omega, ge_iff_le, Nat.add_le_add_iff_left]
      by_cases h32 : j < 32
      · simp [h32, Bool.or_assoc]
      · rw [hbig b0 j h0 (by omega), hbig b1 _ h1 (by omega), hbig b2 _ h2 (by omega),
          hbig b3 _ h3 (by omega)]
        simp [h32]
    · simp [h64, hi, show ¬ n + n1 ≤ i by omega, show ¬ n + n2 ≤ i by omega,
        show ¬ n + n3 ≤ i by omega]
  · simp [h64]

theorem getD_eq_headD_drop (l : List Nat) (i X : Nat) : l.getD i X = (l.drop i).headD X := by
  rw [List.getD_eq_getElem?_getD, List.headD_eq_head?_getD, List.head?_drop]

theorem headD_lt {l : List Nat} {X : Nat} (h : ∀ b ∈ l, b < 256) (hX : X < 256) : l.headD X < 256 := by
  cases l with
  | nil => exact hX
  | cons a l => exact h a (by simp)

/-! ## Forward reader -/

theorem fwdW_le (u : Bool) (b : Nat) : fwdDisc.w u b ≤ 8 := by simp [fwdDisc]
theorem fwdW_ge (u : Bool) (b : Nat) : 7 ≤ fwdDisc.w u b := by cases u <;> simp [fwdDisc]

theorem fwdPush_eq (X : Nat) (s : BitRd) : fwdPush X s = push fwdDisc s (s.rest.headD X) := rfl

/-- Four pushes. -/
def push4 (D : Disc) (X : Nat) (s : BitRd) : BitRd :=
  let s := push D s (s.rest.headD X)
  let s := push D s (s.rest.headD X)
  let s := push D s (s.rest.headD X)
  push D s (s.rest.headD X)

theorem Rep.push4_spec {D : Disc} {X : Nat} {s : BitRd} {L : List Bool} (h : Rep D X s L)
    (hw : ∀ u b, D.w u b ≤ 8) (hw7 : ∀ u b, 7 ≤ D.w u b) (hb : s.bits ≤ 32) :
    Rep D X (push4 D X s) L ∧ s.bits + 28 ≤ (push4 D X s).bits ∧ (push4 D X s).bits ≤ 64 := by
  have key : ∀ s' : BitRd, s.bits ≤ s'.bits →
      s'.bits + 7 ≤ (Ht.push D s' (s'.rest.headD X)).bits ∧
      (Ht.push D s' (s'.rest.headD X)).bits ≤ s'.bits + 8 := by
    intro s' _
    have := hw s'.unstuff (s'.rest.headD X)
    have := hw7 s'.unstuff (s'.rest.headD X)
    simp only [Ht.push]; omega
  unfold Ht.push4
  set s1 := Ht.push D s (s.rest.headD X) with e1
  have k1 := key s le_rfl
  rw [← e1] at k1
  set s2 := Ht.push D s1 (s1.rest.headD X) with e2
  have k2 := key s1 (by omega)
  rw [← e2] at k2
  set s3 := Ht.push D s2 (s2.rest.headD X) with e3
  have k3 := key s2 (by omega)
  rw [← e3] at k3
  set s4 := Ht.push D s3 (s3.rest.headD X) with e4
  have k4 := key s3 (by omega)
  rw [← e4] at k4
  have r1 : Rep D X s1 L := h.push_spec hw (by omega)
  have r2 : Rep D X s2 L := r1.push_spec hw (by omega)
  have r3 : Rep D X s3 L := r2.push_spec hw (by omega)
  have r4 : Rep D X s4 L := r3.push_spec hw (by omega)
  exact ⟨r4, by omega, by omega⟩

theorem fwdRead_eq {X : Nat} {s : BitRd} (hX : X < 256) (hr : ∀ b ∈ s.rest, b < 256)
    (hb : s.bits ≤ 32) : fwdRead X s = some (push4 fwdDisc X s) := by
  have hd : ∀ i, (s.rest.drop i).headD X < 256 := fun i =>
    headD_lt (fun b hb' => hr b (List.mem_of_mem_drop hb')) hX
  unfold fwdRead
  rw [if_neg (by omega)]
  congr 1
  simp only [push4, push, getD_eq_headD_drop, fwdDisc, List.drop_zero]
  simp only [← List.drop_one, List.drop_drop, Nat.reduceAdd]
  have c : ∀ b : Bool, 8 - b.toNat ≤ 8 := fun b => by omega
  have c0 := c s.unstuff
  have c1 := c (s.rest.headD X == 255)
  have c2 := c ((s.rest.drop 1).headD X == 255)
  refine congrArg some (BitRd.mk.injEq .. |>.mpr ⟨?_, ?_, rfl, rfl⟩)
  · refine (creg_four (c := s.creg) (n := s.bits) (hd 0) (hd 1) (hd 2) (hd 3)
      (n1 := 8 - s.unstuff.toNat)
      (n2 := 8 - s.unstuff.toNat + (8 - (s.rest.headD X == 255).toNat))
      (n3 := 8 - s.unstuff.toNat + (8 - (s.rest.headD X == 255).toNat) +
        (8 - ((s.rest.drop 1).headD X == 255).toNat)) (by omega) (by omega) (by omega)).symm.trans ?_
    simp only [List.drop_zero, Nat.add_assoc]
  · omega

theorem Rep.fwdFetch_spec {X : Nat} {s : BitRd} {L : List Bool} (hX : X < 256) (h : Rep fwdDisc X s L) :
    ∃ s', fwdFetch X s = some (s'.creg % 2 ^ 32, s') ∧ Rep fwdDisc X s' L ∧ 32 ≤ s'.bits := by
  unfold Ht.fwdFetch
  by_cases h1 : s.bits < 32
  · obtain ⟨r1, b1, -⟩ := h.push4_spec fwdW_le fwdW_ge (by omega)
    rw [if_pos h1, fwdRead_eq hX h.2.1 (by omega)]
    simp only [Option.bind_eq_bind, Option.bind_some]
    by_cases h2 : (push4 fwdDisc X s).bits < 32
    · obtain ⟨r2, b2, -⟩ := r1.push4_spec fwdW_le fwdW_ge (by omega)
      rw [if_pos h2, fwdRead_eq hX r1.2.1 (by omega)]
      exact ⟨_, rfl, r2, by omega⟩
    · rw [if_neg h2]
      exact ⟨_, rfl, r1, by omega⟩
  · rw [if_neg h1]
    simp only [Option.bind_eq_bind, Option.bind_some]
    rw [if_neg h1]
    exact ⟨_, rfl, h, by omega⟩

/-- The constructor leaves the reader in front of the first payload bit. -/
theorem fwdInit_rep {X p : Nat} {bytes : List Nat} {L : List Bool} (hX : X < 256) (hp : p < 4)
    (hb : ∀ b ∈ bytes, b < 256) {pre : List Nat} {k : Nat}
    (hpre : pre <+: bytes ++ List.replicate k X) (hleg : Legal fwdDisc false pre)
    (hL : L <+: unstuff fwdDisc false pre) :
    ∃ s, fwdInit X p bytes = some s ∧ Rep fwdDisc X s L := by
  have r0 : Rep fwdDisc X ⟨0, 0, false, bytes⟩ L := by
    refine ⟨by simp, hb, pre, k, hpre, hleg, ?_⟩
    intro i b hi
    refine ⟨fun h => absurd h (by simp), fun _ => ⟨by simp, ?_⟩⟩
    obtain ⟨t, ht⟩ := hL
    have hlt : i < L.length := by
      by_contra hc
      rw [List.getElem?_eq_none (by omega)] at hi
      cases hi
    rw [Nat.sub_zero, ← ht, List.getElem?_append_left hlt]
    exact hi
  have key : ∀ n (s : BitRd), Rep fwdDisc X s L → s.bits + 8 * n ≤ 32 →
      Rep fwdDisc X (fwdPushes X n s) L ∧ (fwdPushes X n s).bits ≤ 32 := by
    intro n
    induction n with
    | zero => intro s h1 h2; exact ⟨h1, by simpa [fwdPushes] using h2⟩
    | succ n ih =>
      intro s h1 h2
      have hw := fwdW_le s.unstuff (s.rest.headD X)
      have h3 : Rep fwdDisc X (fwdPush X s) L := by
        rw [fwdPush_eq]; exact h1.push_spec fwdW_le (by omega)
      exact ih _ h3 (by rw [fwdPush_eq]; simp only [push]; omega)
  obtain ⟨r1, b1⟩ := key (4 - p) _ r0 (by simp only; omega)
  refine ⟨_, ?_, (r1.push4_spec fwdW_le fwdW_ge b1).1⟩
  unfold fwdInit
  exact fwdRead_eq hX r1.2.1 b1

/-! ## Reverse reader -/

theorem revW_le (u : Bool) (b : Nat) : revDisc.w u b ≤ 8 := by simp [revDisc, revWidth]
theorem revW_ge (u : Bool) (b : Nat) : 7 ≤ revDisc.w u b := by
  simp only [revDisc, revWidth]
  cases (u && ((b &&& 0x7F) == 0x7F)) <;> simp

theorem revRead_eq {s : BitRd} (hr : ∀ b ∈ s.rest, b < 256) (hb : s.bits ≤ 32) :
    revRead s = push4 revDisc 0 s := by
  have hd : ∀ i, (s.rest.drop i).headD 0 < 256 := fun i =>
    headD_lt (fun b hb' => hr b (List.mem_of_mem_drop hb')) (by omega)
  unfold revRead
  rw [if_neg (by omega)]
  simp only [push4, push, getD_eq_headD_drop, revDisc, List.drop_zero]
  simp only [← List.drop_one, List.drop_drop, Nat.reduceAdd]
  have c0 := revW_le s.unstuff (s.rest.headD 0)
  have c1 := revW_le (decide (0x8F < s.rest.headD 0)) ((s.rest.drop 1).headD 0)
  have c2 := revW_le (decide (0x8F < (s.rest.drop 1).headD 0)) ((s.rest.drop 2).headD 0)
  simp only [revDisc] at c0 c1 c2
  refine BitRd.mk.injEq .. |>.mpr ⟨?_, ?_, rfl, rfl⟩
  · refine (creg_four (c := s.creg) (n := s.bits) (hd 0) (hd 1) (hd 2) (hd 3)
      (n1 := revWidth s.unstuff (s.rest.headD 0))
      (n2 := revWidth s.unstuff (s.rest.headD 0) +
        revWidth (decide (0x8F < s.rest.headD 0)) ((s.rest.drop 1).headD 0))
      (n3 := revWidth s.unstuff (s.rest.headD 0) +
        revWidth (decide (0x8F < s.rest.headD 0)) ((s.rest.drop 1).headD 0) +
        revWidth (decide (0x8F < (s.rest.drop 1).headD 0)) ((s.rest.drop 2).headD 0))
      (by omega) (by omega) (by omega)).symm.trans ?_
    simp only [List.drop_zero, Nat.add_assoc]
  · omega

theorem Rep.revRead_spec {s : BitRd} {L : List Bool} (h : Rep revDisc 0 s L) :
    Rep revDisc 0 (revRead s) L ∧ min 33 (s.bits + 28) ≤ (Ht.revRead s).bits := by
  by_cases h1 : s.bits ≤ 32
  · obtain ⟨r1, b1, -⟩ := h.push4_spec revW_le revW_ge h1
    rw [revRead_eq h.2.1 h1]
    exact ⟨r1, by omega⟩
  · have : Ht.revRead s = s := by unfold Ht.revRead; rw [if_pos (by omega)]
    rw [this]
    exact ⟨h, by omega⟩

theorem Rep.revFetch_spec {s : BitRd} {L : List Bool} (h : Rep revDisc 0 s L) :
    ∃ s', revFetch s = (s'.creg % 2 ^ 32, s') ∧ Rep revDisc 0 s' L ∧ 32 ≤ s'.bits := by
  simp only [Ht.revFetch]
  by_cases h1 : s.bits < 32
  · obtain ⟨r1, b1⟩ := h.revRead_spec
    rw [if_pos h1]
    by_cases h2 : (Ht.revRead s).bits < 32
    · obtain ⟨r2, b2⟩ := r1.revRead_spec
      rw [if_pos h2]
      exact ⟨_, rfl, r2, by omega⟩
    · rw [if_neg h2]
      exact ⟨_, rfl, r1, by omega⟩
  · rw [if_neg h1, if_neg h1]
    exact ⟨_, rfl, h, by omega⟩

end Verif.Ht
