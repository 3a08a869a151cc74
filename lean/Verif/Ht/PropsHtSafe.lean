import Verif.Ht.HtSafe

/-!
# C62: HT decoding of any bytes

The decoder is given any bytes, any table of segment lengths and any number of passes.  It does nothing undefined, with one exception: where
it finds an exponent bound `U_q` above the number of bit-planes, it prints an error and goes on, and may then shift by 32 or more.
-/

namespace Verif.Ht

/-- The decoder prints "ERROR" (ht_block_decoding.cpp 137-139, 247-249) for some quad. -/
def htPrints (x : CbIn) (pm pv pd : Nat) : Bool :=
  match htSetup x with
  | .go _ _ sBlk _ _ ms seg =>
    match decStep1 ((x.w + 1) / 2) ((x.h + 1) / 2) ((x.w + 2 + 7) / 8 * 8) pm pv seg (fun _ => 0) with
    | some sp =>
      match decStep2E x.w x.h (30 - sBlk) ((x.w + 2 + 7) / 8 * 8) pd ms sp with
      | .error .printed => true
      | _ => false
    | none => false
  | _ => false

theorem htSetup_go {x : CbIn} {lcup lref sBlk nHt : Nat} {hasRef : Bool} {ms seg : List Nat} (h : htSetup x = .go lcup lref sBlk nHt hasRef ms seg) :
    sBlk < 30 ∧ 2 ≤ seg.length ∧ 1 ≤ nHt ∧ (1 < nHt → ∀ k < lref, drefByte x lcup hasRef k ≠ none) := by
  unfold htSetup at h
  dsimp only at h
  rcases hs : x.passLen.filter (· ≠ 0) with _ | ⟨a, refs⟩
  · simp only [hs] at h
    split_ifs at h
  · simp only [hs] at h
    split_ifs at h with h1 h2 h3 h4 h5 h6 h7
    rcases ho : openCup (x.data.take a) with _ | ⟨ms', seg'⟩
    · simp only [ho] at h; cases h
    · simp only [ho] at h
      obtain ⟨rfl, rfl, rfl, rfl, rfl, rfl, rfl⟩ := HtSetup.go.inj h
      refine ⟨by omega, ?_, by omega, fun h9 k hk => ?_⟩
      · unfold openCup at ho
        dsimp only at ho
        split_ifs at ho with h9 h10
        obtain ⟨-, rfl⟩ := Prod.mk.inj (Option.some.inj ho)
        rw [List.length_drop, List.length_set, List.length_set]
        omega
      · have : refs ≠ [] := by rintro rfl; simp at hk
        have := List.length_pos_of_ne_nil this
        unfold drefByte
        rw [if_pos (by simp only [List.length_cons, Bool.and_eq_true, decide_eq_true_eq]; omega), Ne, List.getElem?_eq_none_iff]
        omega

theorem foldlM_ext {σ α : Type} {f g : σ → α → Option σ} : ∀ (xs : List α) (s : σ), (∀ s, ∀ x ∈ xs, f s x = g s x) → xs.foldlM f s = xs.foldlM g s
  | [], _, _ => rfl
  | x :: xs, s, h => by
    rw [List.foldlM_cons, List.foldlM_cons, h s x (by simp)]
    congr 1; funext s'; exact foldlM_ext xs s' fun s y hy => h s y (by simp [hy])

/-- Step 2 reads no other cells than those of its quads. -/
theorem decStep2_ext {w h pLSB sstr p : Nat} {ms : List Nat} {o o' : Nat → Nat} (hw : 0 < w)  (hh : 0 < h)
    (h1 : ∀ r < (h + 1) / 2, ∀ k < 4 * (((w + 1) / 2 + 1) / 2), o (r * sstr + k) = o' (r * sstr + k)) :
    decStep2 w h pLSB sstr p ms o = decStep2 w h pLSB sstr p ms o' := by
  have hi : ∀ st, dec2InitRow w pLSB o st = dec2InitRow w pLSB o' st := by
    intro st
    unfold dec2InitRow
    congr 1
    refine foldlM_ext _ _ fun s j hj => ?_
    rw [List.mem_range] at hj
    have a := h1 0 (by omega) (2 * j) (by omega)
    have b := h1 0 (by omega) (2 * j + 1) (by omega)
    rw [Nat.zero_mul, Nat.zero_add] at a b
    rw [a, b]
  unfold decStep2
  congr 1; funext m
  rw [hi]
  congr 1; funext st
  congr 1
  refine foldlM_ext _ _ fun s i hi => ?_
  rw [List.mem_range] at hi
  unfold dec2Row
  congr 1
  refine foldlM_ext _ _ fun s j hj => ?_
  rw [List.mem_range] at hj
  have a := h1 (i + 1) (by omega) (2 * j) (by omega)
  have b := h1 (i + 1) (by omega) (2 * j + 1) (by omega)
  rw [← Nat.add_assoc] at b
  dsimp only
  rw [a, b]

theorem sigmaStates_ext {w h sstr : Nat} {o o' : Nat → Nat} (st : Nat → Nat → Nat)
    (h1 : ∀ r < (h + 1) / 2, ∀ k < 4 * (((w + 1) / 2 + 1) / 2), o (r * sstr + k) = o' (r * sstr + k)) :
    sigmaStates w h sstr o st = sigmaStates w h sstr o' st := by
  unfold sigmaStates
  dsimp only
  split_ifs
  · congr 1; funext r c
    split_ifs with h3 h4
    · rw [h1 _ (by omega) _ (by omega)]
    · rfl
    · rfl
  · rfl

theorem sigmaStates_safe (w h sstr : Nat) (sp : Nat → Nat) (st : Nat → Nat → Nat) : ∃ s, sigmaStates w h sstr sp st = some s := by
  unfold sigmaStates
  dsimp only
  rw [if_pos (by unfold rup8; omega)]
  exact ⟨_, rfl⟩

theorem refineDecode_safe {D : Nat → Option Nat} {lref nHt : Nat} (sBlk : Nat) (hD : 1 < nHt → ∀ k < lref, D k ≠ none) (b : RBlk) :
    ∃ b', refineDecode D lref sBlk nHt b = some b' := by
  unfold refineDecode
  by_cases h : 1 < nHt
  · obtain ⟨b1, e1, -⟩ := sigpropDecode_safe (hD h) (30 - (sBlk + 1)) b
    simp only [if_pos h, e1, Option.bind_eq_bind, Option.bind_some]
    split_ifs
    · exact magrefDecode_safe (hD h) _ _
    · exact ⟨_, rfl⟩
  · simp only [if_neg h, if_neg (show ¬ 2 < nHt by omega)]
    exact ⟨_, rfl⟩

/-- C62, what remains true for all bytes: the decoder has a result unless it printed an error, and the result does not depend on what the
uninitialised scratch array holds. -/
theorem C62_any_bytes_partial (x : CbIn) (pm pv pd : Nat) (sp : Nat → Nat) (st : Nat → Nat → Nat) (hw : 0 < x.w) (hh : 0 < x.h) (hmb : x.mb ≤ 30)
    (hp : htPrints x pm pv pd = false) : ∃ r, htDecode x pm pv pd sp st = some r := by
  unfold htDecode
  rcases hs : htSetup x with _ | _ | ⟨lcup, lref, sBlk, nHt, hasRef, ms, seg⟩
  · exact ⟨_, rfl⟩
  · exact ⟨_, rfl⟩
  · obtain ⟨h1, h2, h3, h4⟩ := htSetup_go hs
    obtain ⟨o, o', e, e', a1, a2, a3⟩ := decStep1_any (QW := (x.w + 1) / 2) (QH := (x.h + 1) / 2) (sstr := (x.w + 2 + 7) / 8 * 8) (by omega) (by omega)
      (by omega) (by omega) pm pv h2 (fun _ => 0) sp
    obtain ⟨out, e2⟩ : ∃ out, decStep2 x.w x.h (30 - sBlk) ((x.w + 2 + 7) / 8 * 8) pd ms o = some out := by
      rcases decStep2_any (pLSB := 30 - sBlk) (w := x.w) (h := x.h) (sstr := (x.w + 2 + 7) / 8 * 8) pd ms (sp := o) (by omega)
        (fun j hj => a3 j (by omega)) (fun r hr j hj => a2 r hr j (by omega)) with h | ⟨s, e2, -⟩
      · simp only [htPrints, hs, e, h] at hp; cases hp
      · exact ⟨s, e2⟩
    rw [decStep2_ext hw hh a1] at e2
    have hsh : ¬ (if nHt = 1 ∧ x.h % 2 = 0 then 31 else 30) < x.mb := by split_ifs <;> omega
    dsimp only
    by_cases hn : nHt = 1
    · obtain ⟨b, e4⟩ := refineDecode_safe sBlk h4 ⟨x.w, x.h, x.causal, st, out⟩
      simp only [if_pos hn, e', Option.bind_eq_bind, Option.bind_some, e2, e4]
      rw [if_neg hsh]; exact ⟨_, rfl⟩
    · obtain ⟨s1, e3⟩ := sigmaStates_safe x.w x.h ((x.w + 2 + 7) / 8 * 8) o' st
      obtain ⟨b, e4⟩ := refineDecode_safe sBlk h4 ⟨x.w, x.h, x.causal, s1, out⟩
      simp only [if_neg hn, e', Option.bind_eq_bind, Option.bind_some, e3, e2, e4]
      rw [if_neg hsh]; exact ⟨_, rfl⟩

/-- C62, the scratch array: its contents before the call have no influence, on the samples or on whether anything undefined happens. -/
theorem C62_scratch_irrelevant (x : CbIn) (pm pv pd : Nat) (sp sp' : Nat → Nat) (st : Nat → Nat → Nat) (hw : 0 < x.w) (hh : 0 < x.h) :
    htDecode x pm pv pd sp st = htDecode x pm pv pd sp' st := by
  unfold htDecode
  rcases hs : htSetup x with _ | _ | ⟨lcup, lref, sBlk, nHt, hasRef, ms, seg⟩
  · rfl
  · rfl
  · obtain ⟨-, h2, -⟩ := htSetup_go hs
    obtain ⟨o, o', e, e', a1, -⟩ := decStep1_any (QW := (x.w + 1) / 2) (QH := (x.h + 1) / 2) (sstr := (x.w + 2 + 7) / 8 * 8) (by omega) (by omega)
      (by omega) (by omega) pm pv h2 sp sp'
    dsimp only
    rw [e, e']
    simp only [Option.bind_eq_bind, Option.bind_some]
    rw [decStep2_ext hw hh a1, sigmaStates_ext st a1]

theorem decRow_outside (QW sstr r : Nat) (st : Dec1) :
    ∃ s, decRow QW sstr r st = some s ∧ ∀ x, (x < r * sstr ∨ r * sstr + 4 * ((QW + 1) / 2) + 4 ≤ x) → s.sp x = st.sp x := by
  unfold decRow
  obtain ⟨s, e, h⟩ := foldlM_safe (f := fun st i => decPair sstr (r * sstr + 4 * i) (decide (1 < QW - 2 * i)) st)
    (fun s => ∀ x, (x < r * sstr ∨ r * sstr + 4 * ((QW + 1) / 2) + 4 ≤ x) → s.sp x = st.sp x)
    (List.range ((QW + 1) / 2)) (decRowHead sstr (r * sstr) st) (fun _ _ => rfl) (fun s i hi hs => by
      rw [List.mem_range] at hi
      obtain ⟨t, e, -, h4⟩ := decPair_safe sstr (r * sstr + 4 * i) (decide (1 < QW - 2 * i)) s
      exact ⟨t, e, fun x hx => by rw [h4 x (by omega), hs x hx]⟩)
  dsimp only
  rw [e]
  refine ⟨_, rfl, fun x hx => ?_⟩
  dsimp only [guard4]
  rw [if_neg (by omega), h x hx]

theorem decInitRow_outside (QW : Nat) (st : Dec1) :
    ∃ s, decInitRow QW st = some s ∧ ∀ x, 4 * ((QW + 1) / 2) + 4 ≤ x → s.sp x = st.sp x := by
  unfold decInitRow
  obtain ⟨s, e, h⟩ := foldlM_safe (f := fun st i => decInitPair (4 * i) (decide (1 < QW - 2 * i)) st)
    (fun s => ∀ x, 4 * ((QW + 1) / 2) + 4 ≤ x → s.sp x = st.sp x)
    (List.range ((QW + 1) / 2)) st (fun _ _ => rfl) (fun s i hi hs => by
      rw [List.mem_range] at hi
      obtain ⟨t, e, -, -, h4⟩ := decInitPair_safe (4 * i) (decide (1 < QW - 2 * i)) s
      exact ⟨t, e, fun x hx => by rw [h4 x (by omega), hs x hx]⟩)
  rw [e]
  refine ⟨_, rfl, fun x hx => ?_⟩
  dsimp only [guard4]
  rw [if_neg (by omega), h x hx]

/-- The highest cell step 1 may write lies inside `uint16_t scratch[8 * 513]`, for the blocks the COD and COC parsers admit. -/
theorem scratch_room {w h a b : Nat} (hw : w ≤ 2 ^ a) (hh : h ≤ 2 ^ b) (ha : 2 ≤ a ∧ a ≤ 10) (hb : 2 ≤ b ∧ b ≤ 10) (hab : a + b ≤ 12) :
    ((h + 1) / 2 - 1) * ((w + 2 + 7) / 8 * 8) + 4 * (((w + 1) / 2 + 1) / 2) + 4 ≤ 8 * 513 := by
  have h2 : (h + 1) / 2 - 1 ≤ 2 ^ (12 - a) / 2 - 1 := by
    have : 2 ^ b ≤ 2 ^ (12 - a) := Nat.pow_le_pow_right (by decide) (by omega)
    have h3 : 2 ^ (12 - a) = 2 * 2 ^ (11 - a) := by rw [← pow_succ']; congr 1; omega
    omega
  have h4 : (w + 2 + 7) / 8 * 8 ≤ (2 ^ a + 2 + 7) / 8 * 8 := by omega
  have h5 : 4 * (((w + 1) / 2 + 1) / 2) ≤ 4 * (((2 ^ a + 1) / 2 + 1) / 2) := by omega
  have h6 := Nat.mul_le_mul h2 h4
  have key : ∀ a, 2 ≤ a → a ≤ 10 →
      (2 ^ (12 - a) / 2 - 1) * ((2 ^ a + 2 + 7) / 8 * 8) + 4 * (((2 ^ a + 1) / 2 + 1) / 2) + 4 ≤ 8 * 513 := by
    intro a h1 h2
    interval_cases a <;> decide
  have := key a ha.1 ha.2
  omega

/-- C62, bounds of the scratch array: whatever the bytes, step 1 leaves everything beyond its 4104 cells alone. -/
theorem C62_scratch_bounds {w h a b : Nat} (hw : 0 < w ∧ w ≤ 2 ^ a) (hh : 0 < h ∧ h ≤ 2 ^ b) (ha : 2 ≤ a ∧ a ≤ 10) (hb : 2 ≤ b ∧ b ≤ 10) (hab : a + b ≤ 12)
    (pm pv : Nat) (seg : List Nat) (hseg : 2 ≤ seg.length) (sp : Nat → Nat) :
    ∃ o, decStep1 ((w + 1) / 2) ((h + 1) / 2) ((w + 2 + 7) / 8 * 8) pm pv seg sp = some o ∧ ∀ i, 8 * 513 ≤ i → o i = sp i := by
  obtain ⟨o, -, e, -⟩ := decStep1_any (QW := (w + 1) / 2) (QH := (h + 1) / 2) (sstr := (w + 2 + 7) / 8 * 8) (by omega) (by omega)
      (by omega) (by omega) pm pv hseg sp sp
  refine ⟨o, e, fun i hi => ?_⟩
  have hroom := scratch_room hw.2 hh.2 ha hb hab
  generalize (w + 2 + 7) / 8 * 8 = sstr at *
  unfold decStep1 at e
  simp only [Option.bind_eq_bind] at e
  obtain ⟨m, -, e⟩ := Option.bind_eq_some_iff.mp e
  obtain ⟨v, -, e⟩ := Option.bind_eq_some_iff.mp e
  obtain ⟨s, e1, e⟩ := Option.bind_eq_some_iff.mp e
  obtain ⟨t, e2, e⟩ := Option.bind_eq_some_iff.mp e
  obtain rfl := Option.some.inj e
  obtain ⟨s', f1, k1⟩ := decInitRow_outside ((w + 1) / 2) ⟨m, v, 0, sp⟩
  obtain rfl := Option.some.inj (f1.symm.trans e1)
  obtain ⟨t', f2, k2⟩ := foldlM_safe (f := fun st i => decRow ((w + 1) / 2) sstr (i + 1) st) (fun t => ∀ i, 8 * 513 ≤ i → t.sp i = sp i)
    (List.range ((h + 1) / 2 - 1)) s' (fun i hi => k1 i (by omega)) (fun s j hj hs => by
      rw [List.mem_range] at hj
      obtain ⟨u, e, h4⟩ := decRow_outside ((w + 1) / 2) sstr (j + 1) s
      refine ⟨u, e, fun i hi => ?_⟩
      have := Nat.mul_le_mul_right sstr (show j + 1 ≤ (h + 1) / 2 - 1 by omega)
      rw [h4 i (by omega), hs i hi])
  obtain rfl := Option.some.inj (f2.symm.trans e2)
  exact k2 i hi

/-- C62, bounds of the VLC tables: every context is a multiple of 128 up to 7 * 128, so that with seven bits of the stream it is an index
below 1024. -/
theorem C62_table_index (t a b c v : Nat) :
    (v &&& 0x7F) + decCtx0 t < 1024 ∧ (v &&& 0x7F) + decCtx t a b c < 1024 ∧ (v &&& 0x7F) + (((a &&& 0xA0) <<< 2) ||| ((b &&& 0x20) <<< 4)) < 1024 := by
  have lim : ∀ n : Nat, n ||| 0x380 = 0x380 → n ≤ 0x380 := fun n h => h ▸ Nat.left_le_or
  have hv : v &&& 0x7F ≤ 0x7F := Nat.and_le_right
  have sh : ∀ x m k : Nat, ((x &&& m) <<< k) ||| (m <<< k) = m <<< k := by
    intro x m k
    apply Nat.eq_of_testBit_eq
    intro i
    simp only [Nat.testBit_or, Nat.testBit_shiftLeft, Nat.testBit_and]
    cases decide (k ≤ i) <;> cases x.testBit (i - k) <;> cases m.testBit (i - k) <;> rfl
  have an : ∀ x m : Nat, (x &&& m) ||| m = m := fun x m => by simpa using sh x m 0
  have step : ∀ n m : Nat, n ||| m = m → m ||| 0x380 = 0x380 → n ||| 0x380 = 0x380 := by
    intro n m h1 h2
    rw [← h2, ← Nat.or_assoc, h1]
  have or : ∀ n m : Nat, n ||| 0x380 = 0x380 → m ||| 0x380 = 0x380 → (n ||| m) ||| 0x380 = 0x380 := by
    intro n m h1 h2
    rw [Nat.or_assoc, h2, h1]
  refine ⟨?_, ?_, ?_⟩
  · have := lim (decCtx0 t) (or _ _ (step _ _ (sh _ _ _) (by decide)) (step _ _ (sh _ _ _) (by decide)))
    omega
  · have := lim (decCtx t a b c) (or _ _ (or _ _ (or _ _ (step _ _ (sh _ _ _) (by decide)) (step _ _ (sh _ _ _) (by decide)))
      (or _ _ (step _ _ (an _ _) (by decide)) (step _ _ (sh _ _ _) (by decide)))) (step _ _ (sh _ _ _) (by decide)))
    omega
  · have := lim _ (or _ _ (step ((a &&& 0xA0) <<< 2) _ (sh _ _ _) (by decide)) (step ((b &&& 0x20) <<< 4) _ (sh _ _ _) (by decide)))
    omega

/-- A block of 2 by 2 samples with five bytes, which no encoder writes: its exponent bound is too large. -/
def hostile : CbIn := ⟨2, 2, 8, 0, false, 1, [5], [98, 23, 192, 149, 0]⟩

/-- C62 is false: five bytes lead to a shift of a 32-bit number by 32 or more (ht_block_decoding.cpp 143-149).  The check in
137-139 only prints. -/
theorem C62_shift_overflow (sp : Nat → Nat) : htDecode hostile 0 0 0 sp (fun _ _ => 0) = none := by
  rw [C62_scratch_irrelevant hostile 0 0 0 sp (fun _ => 0) _ (by decide) (by decide)]
  decide +kernel

/-- Other bytes, with refinement passes, decode without an error. -/
def harmless : CbIn := ⟨2, 2, 8, 0, false, 3, [5, 2], [98, 23, 32, 69, 0, 77, 12]⟩

example (sp : Nat → Nat) (st : Nat → Nat → Nat) : ∃ r, htDecode harmless 0 0 0 sp st = some r :=
  C62_any_bytes_partial harmless 0 0 0 sp st (by decide) (by decide) (by decide) (by decide +kernel)

/-- The samples of `harmless` are not all zero. -/
example : ∃ f, htDecode harmless 0 0 0 (fun _ => 0) (fun _ _ => 0) = some (.samples f) ∧ f 0 0 ≠ 0 ∧ f 0 0 ≠ f 1 0 := by
  obtain ⟨r, h⟩ := C62_any_bytes_partial harmless 0 0 0 (fun _ => 0) (fun _ _ => 0) (by decide) (by decide) (by decide) (by decide +kernel)
  have h2 : ((htDecode harmless 0 0 0 (fun _ => 0) (fun _ _ => 0)).map fun r => match r with
    | .samples f => decide (f 0 0 ≠ 0 ∧ f 0 0 ≠ f 1 0)
    | _ => false) = some true := by decide +kernel
  rw [h] at h2 ⊢
  cases r with
  | samples f => exact ⟨f, rfl, by simpa using h2⟩
  | rejected => simp at h2
  | untouched => simp at h2

/-- The hostile block is one for which an error is printed. -/
example : htPrints hostile 0 0 0 = true := by decide +kernel

/-- A block of the largest area meets the hypotheses of `C62_scratch_bounds`. -/
example (seg : List Nat) (h : 2 ≤ seg.length) (sp : Nat → Nat) :
    ∃ o, decStep1 2 512 8 0 0 seg sp = some o ∧ ∀ i, 8 * 513 ≤ i → o i = sp i :=
  C62_scratch_bounds (w := 4) (h := 1024) (a := 2) (b := 10) (by decide) (by decide) (by decide) (by decide) (by decide) 0 0 seg h sp

end Verif.Ht
