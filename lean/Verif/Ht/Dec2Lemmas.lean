import Verif.Ht.Dec1Lemmas
import Verif.Ht.PropsStreams

/-!
# Decoder step 2: every sample is recovered
-/

namespace Verif.Ht

/-- The word step 2 stores for a sample. -/
def sampleVal (pLSB q : Nat) : Nat :=
  if q = 0 then 0
  else ((q % 2 ^ 31 % 2) * 2 ^ 31) ||| ((((q % 2 ^ 31 ||| 1) + 2) % 2 ^ 32) <<< (pLSB - 1)) % 2 ^ 32

/-- `v_n` of the decoder. -/
def vn (q : Nat → Nat) (i : Nat) : Nat := if sig q i = 1 then magv q i ||| 1 else 0

theorem and_one (x i : Nat) : (x >>> i) &&& 1 = x / 2 ^ i % 2 := by
  rw [Nat.and_one_is_mod, Nat.shiftRight_eq_div_pow]

theorem tb_div (x i : Nat) : x.testBit i = decide (x / 2 ^ i % 2 = 1) := Nat.testBit_eq_decide_div_mod_eq

section
variable {cx kappa : Nat} {q : Nat → Nat} {c : Coded}

theorem CodedOk.emb1_lt (hc : CodedOk cx kappa q c) : c.emb1 < 16 := by
  rw [hc.emb1]; exact lt_of_le_of_lt Nat.and_le_right hc.embk_lt

theorem CodedOk.tOf_sig (hc : CodedOk cx kappa q c) (hq : QOk q) {i : Nat} (hi : i < 4) :
    (tOf c).testBit (4 + i) = decide (sig q i = 1) := by
  rw [← hq.rho_bit hi, ← hc.rho]
  have h1 : c.rho < 16 := by rw [hc.rho]; exact hq.rho_lt
  have h2 := hc.len_le
  rw [tb_div, tb_div]
  unfold tOf
  apply decide_eq_decide.mpr
  interval_cases i <;> split_ifs <;> norm_num <;> omega

theorem CodedOk.tOf_e1 (hc : CodedOk cx kappa q c) (hq : QOk q) {i : Nat} (hi : i < 4) :
    (tOf c >>> (8 + i)) &&& 1 = (c.emb1 >>> i) &&& 1 := by
  have h1 : c.rho < 16 := by rw [hc.rho]; exact hq.rho_lt
  have h2 := hc.len_le
  have h3 := hc.emb1_lt
  rw [and_one, and_one]
  unfold tOf
  interval_cases i <;> split_ifs <;> norm_num <;> omega

theorem CodedOk.tOf_ek (hc : CodedOk cx kappa q c) (hq : QOk q) {i : Nat} (hi : i < 4) :
    (tOf c >>> (12 + i)) &&& 1 = (c.embk >>> i) &&& 1 := by
  have h1 : c.rho < 16 := by rw [hc.rho]; exact hq.rho_lt
  have h2 := hc.len_le
  have h3 := hc.emb1_lt
  rw [and_one, and_one]
  unfold tOf
  interval_cases i <;> split_ifs <;> norm_num <;> omega

theorem bit_of_test {x i : Nat} : (x >>> i) &&& 1 = (x.testBit i).toNat := by
  rw [and_one, Nat.toNat_testBit]

/-- The bit patterns of a coded sample. -/
theorem CodedOk.bits (hc : CodedOk cx kappa q c) (hq : QOk q) (hk : 1 ≤ kappa) {i : Nat} (hi : i < 4) :
    (sig q i = 0 → (c.embk >>> i) &&& 1 = 0 ∧ (c.emb1 >>> i) &&& 1 = 0) ∧
    ((c.embk >>> i) &&& 1 = 0 → (c.emb1 >>> i) &&& 1 = 0) ∧
    ((c.embk >>> i) &&& 1 = 1 → c.U = emaxOf q ∧ 2 ≤ c.U ∧
      (c.emb1 >>> i) &&& 1 = if expE q i = c.U then 1 else 0) ∧
    (c.embk >>> i) &&& 1 ≤ 1 := by
  have hs : sig q i = 0 → c.embk.testBit i = false := by
    intro h
    rw [← hc.embk_sub, hc.rho, Nat.testBit_and, hq.rho_bit hi, h]
    simp
  simp only [bit_of_test]
  have h1 : c.emb1.testBit i = ((embOf kappa q).testBit i && c.embk.testBit i) := by
    rw [hc.emb1, Nat.testBit_and]
  refine ⟨?_, ?_, ?_, ?_⟩
  · intro h; rw [h1, hs h]; simp
  · intro h
    rw [h1]
    cases hb : c.embk.testBit i
    · simp
    · rw [hb] at h; simp at h
  · intro h
    have hb : c.embk.testBit i = true := by
      cases hb : c.embk.testBit i
      · rw [hb] at h; simp at h
      · rfl
    have hu : c.u ≠ 0 := by
      intro h0
      rw [hc.embk_zero h0] at hb; simp at hb
    have hU := hc.U
    have huu := hc.u
    have he : kappa < emaxOf q := by omega
    have hU' : c.U = emaxOf q := by omega
    refine ⟨hU', by omega, ?_⟩
    rw [h1, hb, embOf_testBit, Bool.and_true, hU']
    by_cases e : expE q i = emaxOf q
    · rw [if_pos e, decide_eq_true ⟨hi, he, e⟩]; rfl
    · rw [if_neg e, decide_eq_false (by tauto)]; rfl
  · cases c.embk.testBit i <;> simp

/-- The MagSgn field of sample `i`. -/
def fld (q : Nat → Nat) (c : Coded) (i : Nat) : Nat × Nat × Nat :=
  (magv q i, (sig q i * c.U + 2 ^ 32 - ((c.embk >>> i) &&& 1)) % 256, (c.emb1 >>> i) &&& 1)

theorem fld_zero (hc : CodedOk cx kappa q c) (hq : QOk q) (hk : 1 ≤ kappa) {i : Nat} (hi : i < 4)
    (h : sig q i = 0) : fld q c i = (0, 0, 0) := by
  obtain ⟨h0, -, -, -⟩ := hc.bits hq hk hi
  obtain ⟨a, b⟩ := h0 h
  have hz : q i = 0 := by rcases hq.sig_cases i with ⟨-, h2⟩ | ⟨h2, -⟩ <;> omega
  unfold fld
  rw [a, b, h, magv_eq, hz]
  norm_num

theorem fld_one (hc : CodedOk cx kappa q c) (hq : QOk q) (hk : 1 ≤ kappa) (hU : c.U ≤ 31) {i : Nat} (hi : i < 4)
    (h : sig q i = 1) : ∃ f e, fld q c i = (f + e * 2 ^ (c.U - ((c.embk >>> i) &&& 1)), c.U - ((c.embk >>> i) &&& 1), e) ∧
      e = (c.emb1 >>> i) &&& 1 ∧ f < 2 ^ (c.U - ((c.embk >>> i) &&& 1)) ∧
      f + e * 2 ^ (c.U - ((c.embk >>> i) &&& 1)) = magv q i ∧ 1 ≤ c.U - ((c.embk >>> i) &&& 1) ∧ (c.embk >>> i) &&& 1 ≤ c.U := by
  obtain ⟨-, h0, h1, h2⟩ := hc.bits hq hk hi
  have hE : expE q i = Nat.size (magv q i) := by unfold expE bitLen; rw [h, Nat.mul_one]
  have hEU : expE q i ≤ c.U := by have := le_emaxOf q hi; have := hc.U; omega
  have hlt : magv q i < 2 ^ c.U := Nat.size_le.mp (by omega)
  have hU1 : 1 ≤ c.U := by have := hc.U; omega
  have hm : ∀ e, e ≤ 1 → e ≤ c.U → (sig q i * c.U + 2 ^ 32 - e) % 256 = c.U - e := by
    intro e he _; rw [h]; omega
  generalize hek : (c.embk >>> i) &&& 1 = ek at *
  generalize he1 : (c.emb1 >>> i) &&& 1 = e1 at *
  rcases Nat.lt_or_ge ek 1 with hz | hz
  · obtain rfl : ek = 0 := by omega
    obtain rfl := h0 rfl
    refine ⟨magv q i, 0, ?_, rfl, by simpa using hlt, by simp, by omega, by omega⟩
    unfold fld; rw [hek, he1, hm 0 (by omega) (by omega)]; simp
  · obtain rfl : ek = 1 := by omega
    obtain ⟨a1, a2, a3⟩ := h1 rfl
    by_cases e : expE q i = c.U
    · rw [if_pos e] at a3
      subst a3
      have hge : 2 ^ (c.U - 1) ≤ magv q i := by
        by_contra hcn
        have := Nat.size_le.mpr (Nat.lt_of_not_le hcn)
        omega
      have hp : 2 ^ c.U = 2 * 2 ^ (c.U - 1) := by rw [← pow_succ']; congr 1; omega
      refine ⟨magv q i - 2 ^ (c.U - 1), 1, ?_, rfl, by omega, by omega, by omega, by omega⟩
      unfold fld; rw [hek, he1, hm 1 (by omega) (by omega), Nat.one_mul, Nat.sub_add_cancel hge]
    · rw [if_neg e] at a3
      subst a3
      refine ⟨magv q i, 0, ?_, rfl, Nat.size_le.mp (by omega), by simp, by omega, by omega⟩
      unfold fld; rw [hek, he1, hm 1 (by omega) (by omega)]; simp

theorem fld_ok (hc : CodedOk cx kappa q c) (hq : QOk q) (hk : 1 ≤ kappa) (hU : c.U ≤ 31) {i : Nat} (hi : i < 4) :
    FieldOk (fld q c i) := by
  rcases hq.sig_cases i with ⟨h, -⟩ | ⟨h, -⟩
  · rw [fld_zero hc hq hk hi h]; unfold FieldOk; simp
  · obtain ⟨f, e, h1, h2, h3, h4, h5, h6⟩ := fld_one hc hq hk hU hi h
    rw [h1]
    have := magv_lt q i
    refine ⟨by simp only; omega, by simp only; omega, by simp only; omega, by simp only; omega⟩

theorem decSample_one {pLSB inf U bit n m : Nat} {ms ms1 ms2 : BitRd} (h : inf.testBit (4 + bit) = true)
    (hf : fwdFetch 0xFF ms = some (m, ms1)) (hn : (U + 2 ^ 32 - ((inf >>> (12 + bit)) &&& 1)) % 2 ^ 32 = n)
    (ha : ms1.advance n = some ms2) (h32 : n < 32) :
    decSample pLSB inf U bit ms = some ((((m <<< 31) % 2 ^ 32) ||| (((((m &&& ((1 <<< n) - 1)) ||| (((inf >>> (8 + bit)) &&& 1) <<< n) % 2 ^ 32 ||| 1) + 2) % 2 ^ 32) <<< (pLSB - 1)) % 2 ^ 32),
      (m &&& ((1 <<< n) - 1)) ||| (((inf >>> (8 + bit)) &&& 1) <<< n) % 2 ^ 32 ||| 1, ms2) := by
  unfold decSample
  simp only [h, hf, if_true, Option.bind_eq_bind, Option.bind_some, hn, ha, if_neg (Nat.not_le.mpr h32)]
  rfl

theorem decSample_spec (hc : CodedOk cx kappa q c) (hq : QOk q) (hk : 1 ≤ kappa) (hU : c.U ≤ 31) (pLSB : Nat)
    {i : Nat} (hi : i < 4) {ms : BitRd} {L : List Bool}
    (h : Rep fwdDisc 0xFF ms (bitsLE (fieldVal (fld q c i)).2 (fieldVal (fld q c i)).1 ++ L)) :
    ∃ ms', decSample pLSB (tOf c) c.U i ms = some (sampleVal pLSB (q i), vn q i, ms') ∧ Rep fwdDisc 0xFF ms' L := by
  rcases hq.sig_cases i with ⟨hs, hz⟩ | ⟨hs, hv⟩
  · rw [fld_zero hc hq hk hi hs] at h
    refine ⟨ms, ?_, by simpa [fieldVal, bitsLE] using h⟩
    unfold decSample
    rw [hc.tOf_sig hq hi]
    simp [hs, hz, sampleVal, vn]
  · obtain ⟨f, e, h1, h2, h3, h4, h5, h6⟩ := fld_one hc hq hk hU hi hs
    have h7 := (hc.bits hq hk hi).2.2.2
    rw [h1] at h
    simp only [fieldVal, Nat.add_sub_cancel] at h
    obtain ⟨s1, f1, r1, b1⟩ := h.fwdFetch_spec (by decide)
    have pk := r1.peek h3 (by omega)
    obtain ⟨s2, a2, r2, -, -, -⟩ := r1.advance_spec (bitsLE_length _ _) (by omega)
    have hn : (c.U + 2 ^ 32 - ((tOf c >>> (12 + i)) &&& 1)) % 2 ^ 32 = c.U - ((c.embk >>> i) &&& 1) := by
      rw [hc.tOf_ek hq hi]; omega
    refine ⟨s2, ?_, r2⟩
    rw [decSample_one (by rw [hc.tOf_sig hq hi]; simp [hs]) f1 hn a2 (by omega), hc.tOf_e1 hq hi, ← h2]
    have hn32 : c.U - ((c.embk >>> i) &&& 1) ≤ 31 := by omega
    generalize c.U - ((c.embk >>> i) &&& 1) = n at *
    have hmv := magv_lt q i
    have e1 : s1.creg % 2 ^ 32 &&& (1 <<< n) - 1 = f := by
      rw [Nat.one_shiftLeft, Nat.and_two_pow_sub_one_eq_mod,
        Nat.mod_mod_of_dvd _ (pow_dvd_pow 2 (show n ≤ 32 by omega)), pk]
    have e2 : f ||| e <<< n % 2 ^ 32 = magv q i := by
      rw [Nat.shiftLeft_eq, Nat.mod_eq_of_lt (show e * 2 ^ n < 2 ^ 32 by omega), ← h4, Nat.or_comm, Nat.mul_comm,
        ← Nat.two_pow_add_eq_or_of_lt h3, Nat.add_comm]
    have e3 : (s1.creg % 2 ^ 32) <<< 31 % 2 ^ 32 = q i % 2 ^ 31 % 2 * 2 ^ 31 := by
      have h2n : 2 ^ n = 2 * 2 ^ (n - 1) := by rw [← pow_succ']; congr 1; omega
      have a1 : s1.creg % 2 = f % 2 := by
        rw [← pk, Nat.mod_mod_of_dvd _ (show 2 ∣ 2 ^ n from ⟨_, h2n⟩)]
      have a2 : magv q i % 2 = f % 2 := by
        rw [← h4, h2n]
        have : e * (2 * 2 ^ (n - 1)) = 2 * (e * 2 ^ (n - 1)) := by ring
        omega
      rw [← magv_eq q i, a2, ← a1, Nat.shiftLeft_eq]
      omega
    rw [e1, e2, e3]
    unfold sampleVal vn
    rw [if_neg (by omega), if_pos hs, ← magv_eq q i]

end

theorem size_or (a b : Nat) : Nat.size (a ||| b) = max (Nat.size a) (Nat.size b) := by
  apply le_antisymm
  · rw [Nat.size_le]
    exact Nat.or_lt_two_pow (Nat.size_le.mp (le_max_left _ _)) (Nat.size_le.mp (le_max_right _ _))
  · apply max_le
    · exact Nat.size_le_size Nat.left_le_or
    · exact Nat.size_le_size Nat.right_le_or

theorem size_one : Nat.size 1 = 1 := by simp

theorem size_two : Nat.size 2 = 2 := by
  apply le_antisymm
  · rw [Nat.size_le]; decide
  · by_contra h
    have : Nat.size 2 ≤ 1 := by omega
    rw [Nat.size_le] at this
    omega

theorem size_vn {q : Nat → Nat} (hq : QOk q) (i : Nat) : max (Nat.size (vn q i)) 2 = max (expE q i) 2 := by
  unfold vn expE bitLen
  rcases hq.sig_cases i with ⟨h, -⟩ | ⟨h, -⟩
  · rw [h]; simp
  · rw [h, if_pos rfl, size_or, size_one]; omega

/-- What step 2 remembers of a line-pair for quad `k` below it. -/
def V (s : Nat → Nat → Nat) (r k : Nat) : Nat :=
  (if k = 0 then 0 else vn (quad s r (k - 1)) 3) ||| vn (quad s r k) 1

theorem manyBits_gamma : ∀ rho < 16,
    (((rho <<< 4) &&& (((rho <<< 4) + 2 ^ 32 - 0x10) % 2 ^ 32) ≠ 0) ↔ manyBits rho = true) := by decide +kernel

theorem decKappa_eq {s : Nat → Nat → Nat} {QW : Nat} (hs : SOk s QW) (r j : Nat) :
    decKappa (tOf (cq s (r + 1) j)) (V s r j) (V s r (j + 1)) = kap s (r + 1) j := by
  have e : bitLen (V s r j ||| V s r (j + 1) ||| 2) = max (emaxA s r j) 2 := by
    unfold bitLen V emaxA max4 lineE
    rw [size_or, size_or, size_or, size_or, size_two, if_neg (show ¬ j + 1 = 0 by omega), Nat.add_sub_cancel]
    rw [show 2 * j / 2 = j by omega, show (2 * j + 1) / 2 = j by omega, show (2 * j + 2) / 2 = j + 1 by omega,
      show 2 * (2 * j % 2) + 1 = 1 by omega, show 2 * ((2 * j + 1) % 2) + 1 = 3 by omega,
      show 2 * ((2 * j + 2) % 2) + 1 = 1 by omega]
    have h1 := size_vn (hs.qok r j) 1
    have h2 := size_vn (hs.qok r j) 3
    have h3 := size_vn (hs.qok r (j + 1)) 1
    by_cases hj : j = 0
    · rw [if_pos hj, if_pos hj, Nat.size_zero]
      omega
    · rw [if_neg hj, if_neg hj, show (2 * j - 1) / 2 = j - 1 by omega, show 2 * ((2 * j - 1) % 2) + 1 = 3 by omega]
      have h4 := size_vn (hs.qok r (j - 1)) 3
      omega
  unfold decKappa
  simp only
  rw [e, hs.tOf_rho, kap, kappaOf]
  have := manyBits_gamma _ (hs.rho_lt (r + 1) j)
  by_cases hm : manyBits (rhoQ s (r + 1) j) = true
  · rw [if_pos (this.mpr hm), hm, Bool.toNat_true, Nat.mul_one]; omega
  · rw [if_neg (fun h => hm (this.mp h)), Bool.eq_false_iff.mpr hm]; simp

theorem SOk.U_eq {s : Nat → Nat → Nat} {QW : Nat} (hs : SOk s QW) (r j : Nat) :
    (cq s r j).U = (cq s r j).u + kap s r j := by
  have c := hs.coded r j
  have h1 := c.U
  have h2 := c.u
  omega

theorem SOk.lineE_le {s : Nat → Nat → Nat} {QW : Nat} (hs : SOk s QW) (r c : Nat) : lineE s r c ≤ 31 :=
  (hs.qok _ _).expE_le _

theorem SOk.kap_le {s : Nat → Nat → Nat} {QW : Nat} (hs : SOk s QW) (r j : Nat) : kap s r j ≤ 30 := by
  cases r with
  | zero => simp [kap]
  | succ r =>
    have : emaxA s r j ≤ 31 := by
      unfold emaxA max4
      have h1 := hs.lineE_le r (2 * j - 1); have h2 := hs.lineE_le r (2 * j)
      have h3 := hs.lineE_le r (2 * j + 1); have h4 := hs.lineE_le r (2 * j + 2)
      split_ifs <;> omega
    rw [kap, kappaOf]
    rcases Bool.eq_false_or_eq_true (manyBits (rhoQ s (r + 1) j)) with hb | hb <;> rw [hb] <;> simp <;> omega

theorem SOk.U_le {s : Nat → Nat → Nat} {QW : Nat} (hs : SOk s QW) (r j : Nat) : (cq s r j).U ≤ 31 := by
  have c := hs.coded r j
  have h1 := c.U
  have h2 := emaxOf_le (hs.qok r j)
  have h3 := hs.kap_le r j
  omega

/-! ## One quad -/

/-- MagSgn bits of quad `(r, j)`. -/
def bitsQ (s : Nat → Nat → Nat) (r j : Nat) : List Bool := fieldBits ((msE s r j).map fieldVal)

theorem bitsQ_eq (s : Nat → Nat → Nat) (r j : Nat) (L : List Bool) : bitsQ s r j ++ L =
    bitsLE (fieldVal (fld (quad s r j) (cq s r j) 0)).2 (fieldVal (fld (quad s r j) (cq s r j) 0)).1 ++
    (bitsLE (fieldVal (fld (quad s r j) (cq s r j) 1)).2 (fieldVal (fld (quad s r j) (cq s r j) 1)).1 ++
    (bitsLE (fieldVal (fld (quad s r j) (cq s r j) 2)).2 (fieldVal (fld (quad s r j) (cq s r j) 2)).1 ++
    (bitsLE (fieldVal (fld (quad s r j) (cq s r j) 3)).2 (fieldVal (fld (quad s r j) (cq s r j) 3)).1 ++ L))) := by
  simp only [bitsQ, msE, msFields, List.map_cons, List.map_nil, fieldBits_cons, fld]
  simp [fieldBits]

theorem msE_ok {s : Nat → Nat → Nat} {QW : Nat} (hs : SOk s QW) (r j : Nat) : ∀ f ∈ msE s r j, FieldOk f := by
  intro f hf
  obtain ⟨i, hi, rfl⟩ := List.mem_map.mp hf
  exact fld_ok (hs.coded r j) (hs.qok r j) (SOk.kap_pos r j) (hs.U_le r j) (by simp at hi; omega)

theorem setOut_apply (out : Nat → Nat → Nat) (y x v y' x' : Nat) :
    setOut out y x v y' x' = if y' = y ∧ x' = x then v else out y' x' := by
  unfold setOut
  by_cases h : y' = y
  · subst h
    rw [Function.update_self]
    by_cases h2 : x' = x
    · subst h2; simp
    · rw [Function.update_of_ne h2, if_neg (by tauto)]
  · rw [Function.update_of_ne h, if_neg (by tauto)]

theorem decQuad_spec {s : Nat → Nat → Nat} {QW : Nat} (hs : SOk s QW) (w pLSB r j : Nat)
    (hw : w ≤ 2 * j + 1 → ∀ y, s y (2 * j + 1) = 0) {st : Dec2} {L : List Bool}
    (h : Rep fwdDisc 0xFF st.ms (bitsQ s r j ++ L)) :
    ∃ st', decQuad w pLSB (2 * r) j (tOf (cq s r j)) (cq s r j).U st = some st' ∧ Rep fwdDisc 0xFF st'.ms L ∧
      st'.vp = Function.update st.vp j (st.prev ||| vn (quad s r j) 1) ∧ st'.prev = vn (quad s r j) 3 ∧
      ∀ y x, st'.out y x = if (y = 2 * r ∨ y = 2 * r + 1) ∧ (x = 2 * j ∨ x = 2 * j + 1 ∧ x < w) then
        sampleVal pLSB (s y x) else st.out y x := by
  have c := hs.coded r j
  have hq := hs.qok r j
  have hk := SOk.kap_pos (s := s) r j
  have hU := hs.U_le r j
  rw [bitsQ_eq] at h
  obtain ⟨m0, e0, r0⟩ := decSample_spec c hq hk hU pLSB (i := 0) (by omega) h
  obtain ⟨m1, e1, r1⟩ := decSample_spec c hq hk hU pLSB (i := 1) (by omega) r0
  obtain ⟨m2, e2, r2⟩ := decSample_spec c hq hk hU pLSB (i := 2) (by omega) r1
  obtain ⟨m3, e3, r3⟩ := decSample_spec c hq hk hU pLSB (i := 3) (by omega) r2
  have q0 : quad s r j 0 = s (2 * r) (2 * j) := rfl
  have q1 : quad s r j 1 = s (2 * r + 1) (2 * j) := rfl
  have q2 : quad s r j 2 = s (2 * r) (2 * j + 1) := rfl
  have q3 : quad s r j 3 = s (2 * r + 1) (2 * j + 1) := rfl
  unfold decQuad
  rw [e0]
  simp only [Option.bind_eq_bind, Option.bind_some]
  rw [e1]
  simp only [Option.bind_some]
  by_cases hwj : w ≤ 2 * j + 1
  · have z2 : sig (quad s r j) 2 = 0 := by rw [sig_eq, q2, hw hwj, Nat.zero_div]
    have z3 : sig (quad s r j) 3 = 0 := by rw [sig_eq, q3, hw hwj, Nat.zero_div]
    rw [fld_zero c hq hk (by omega) z2, fld_zero c hq hk (by omega) z3] at r1
    rw [if_pos hwj]
    refine ⟨_, rfl, by simpa [fieldVal, bitsLE] using r1, rfl, by simp [vn, z3], ?_⟩
    intro y x
    simp only [setOut_apply, q0, q1]
    by_cases hx : x = 2 * j
    · subst hx
      by_cases h1 : y = 2 * r + 1
      · subst h1; simp
      · by_cases h2 : y = 2 * r
        · subst h2; simp
        · simp [h1, h2]
    · rw [if_neg (by omega), if_neg (by omega), if_neg (by omega)]
  · rw [if_neg hwj, e2]
    simp only [Option.bind_some]
    rw [e3]
    simp only [Option.bind_some]
    refine ⟨_, rfl, r3, rfl, rfl, ?_⟩
    intro y x
    simp only [setOut_apply, q0, q1, q2, q3]
    by_cases hx : x = 2 * j
    · subst hx
      by_cases h1 : y = 2 * r + 1
      · subst h1; simp
      · by_cases h2 : y = 2 * r
        · subst h2; simp
        · simp [h1, h2]
    · by_cases hx2 : x = 2 * j + 1
      · subst hx2
        have : 2 * j + 1 < w := by omega
        by_cases h1 : y = 2 * r + 1
        · subst h1; simp [this]
        · by_cases h2 : y = 2 * r
          · subst h2; simp [this]
          · simp [h1, h2]
      · simp [hx, hx2]

/-! ## Line-pairs -/

theorem flatMap_next {α : Type} {f : Nat → List α} {i n : Nat} {X : List α} (hi : i < n)
    (h : (List.range n).flatMap f = (List.range i).flatMap f ++ X) :
    ∃ Y, X = f i ++ Y ∧ (List.range n).flatMap f = (List.range (i + 1)).flatMap f ++ Y := by
  have key : ∃ Y, (List.range n).flatMap f = (List.range (i + 1)).flatMap f ++ Y := by
    obtain ⟨k, rfl⟩ : ∃ k, n = (i + 1) + k := ⟨n - (i + 1), by omega⟩
    exact ⟨_, by rw [List.range_add, List.flatMap_append]⟩
  obtain ⟨Y, hY⟩ := key
  refine ⟨Y, ?_, hY⟩
  rw [hY, List.range_succ, List.flatMap_append, List.append_assoc] at h
  simpa using (List.append_cancel_left h).symm

/-- State before quad `j` of line-pair `r`. -/
structure D2Inv (s : Nat → Nat → Nat) (w pLSB QW r : Nat) (L : List Bool) (j : Nat) (st : Dec2) : Prop where
  ms : ∃ X, (List.range QW).flatMap (bitsQ s r) = (List.range j).flatMap (bitsQ s r) ++ X ∧
    Rep fwdDisc 0xFF st.ms (X ++ L)
  old : ∀ r', r = r' + 1 → ∀ k ≤ QW, j ≤ k → st.vp k = V s r' k
  new : ∀ k < j, st.vp k = V s r k
  prev : st.prev = if j = 0 then 0 else vn (quad s r (j - 1)) 3
  out : ∀ y x, x < w → (y < 2 * r ∨ (y < 2 * r + 2 ∧ x < 2 * j)) → st.out y x = sampleVal pLSB (s y x)

theorem d2inv_step {s : Nat → Nat → Nat} {w pLSB r : Nat} {L : List Bool} (hs : SOk s ((w + 1) / 2))
    (hw : ∀ y, s y w = 0) {sstr : Nat} {sp : Nat → Nat} {j : Nat} (hj : j < (w + 1) / 2) (hsp : Has s sstr sp r j) {st : Dec2}
    (h : D2Inv s w pLSB ((w + 1) / 2) r L j st) :
    ∃ st', (if r = 0 then decQuad w pLSB 0 j (sp (2 * j)) (sp (2 * j + 1)) st
      else decQuad w pLSB (2 * r) j (sp (r * sstr + 2 * j))
        ((sp (r * sstr + 2 * j + 1) + decKappa (sp (r * sstr + 2 * j)) (st.vp j) (st.vp (j + 1))) % 2 ^ 32) st) = some st' ∧
      D2Inv s w pLSB ((w + 1) / 2) r L (j + 1) st' := by
  obtain ⟨X, hX, hm⟩ := h.ms
  obtain ⟨X', rfl, hX'⟩ := flatMap_next hj hX
  rw [List.append_assoc] at hm
  obtain ⟨st', e, g1, g2, g3, g4⟩ := decQuad_spec hs w pLSB r j (fun hh y => by
    rw [show 2 * j + 1 = w by omega]; exact hw y) hm
  refine ⟨st', ?_, ⟨X', hX', g1⟩, ?_, ?_, ?_, ?_⟩
  · rw [← e]
    have hU := hs.U_eq r j
    have hU2 := hs.U_le r j
    cases r with
    | zero =>
      rw [if_pos rfl]
      obtain ⟨a, b⟩ := hsp
      rw [Nat.zero_mul, Nat.zero_add] at a b
      rw [a, b, if_pos rfl, hU]
      rfl
    | succ r =>
      rw [if_neg (by omega), hsp.1, hsp.2, if_neg (by omega), h.old r rfl j (by omega) le_rfl,
        h.old r rfl (j + 1) (by omega) (by omega), decKappa_eq hs, Nat.add_zero (cq s (r + 1) j).u, ← hU, Nat.mod_eq_of_lt (by omega)]
  · intro r' hr' k hk hk2
    rw [g2, Function.update_of_ne (by omega)]
    exact h.old r' hr' k hk (by omega)
  · intro k hk
    rw [g2]
    rcases Nat.lt_or_ge k j with h1 | h1
    · rw [Function.update_of_ne (by omega)]; exact h.new k h1
    · obtain rfl : k = j := by omega
      rw [Function.update_self, h.prev]; rfl
  · rw [g3, if_neg (by omega)]; rfl
  · intro y x hx hyx
    rw [g4]
    by_cases hc : (y = 2 * r ∨ y = 2 * r + 1) ∧ (x = 2 * j ∨ x = 2 * j + 1 ∧ x < w)
    · rw [if_pos hc]
    · rw [if_neg hc]
      exact h.out y x hx (by omega)

/-- State between line-pairs. -/
structure D2Row (s : Nat → Nat → Nat) (w pLSB QW r : Nat) (L : List Bool) (st : Dec2) : Prop where
  ms : Rep fwdDisc 0xFF st.ms L
  vp : ∀ k ≤ QW, st.vp k = V s r k
  out : ∀ y x, x < w → y < 2 * r + 2 → st.out y x = sampleVal pLSB (s y x)

theorem d2inv_end {s : Nat → Nat → Nat} {w pLSB QW r : Nat} {L : List Bool} (hs : SOk s QW) (hw : w ≤ 2 * QW)
    (hQ : 0 < QW) {st : Dec2} (h : D2Inv s w pLSB QW r L QW st) : D2Row s w pLSB QW r L (endLine QW st) := by
  obtain ⟨X, hX, hm⟩ := h.ms
  obtain rfl : X = [] := by simpa using hX
  refine ⟨by simpa [endLine] using hm, ?_, ?_⟩
  · intro k hk
    simp only [endLine]
    rcases Nat.lt_or_ge k QW with h1 | h1
    · rw [Function.update_of_ne (by omega)]; exact h.new k h1
    · obtain rfl : k = QW := by omega
      rw [Function.update_self, h.prev, V]
      have : vn (quad s r k) 1 = 0 := by simp [vn, sig, hs.quad_out r (le_refl k)]
      rw [this, Nat.or_zero]
  · intro y x hx hy
    exact h.out y x hx (Or.inr ⟨hy, by omega⟩)

theorem d2inv_start {s : Nat → Nat → Nat} {w pLSB QW r : Nat} {L : List Bool} {st : Dec2}
    (hm : Rep fwdDisc 0xFF st.ms ((List.range QW).flatMap (bitsQ s r) ++ L))
    (hv : ∀ r', r = r' + 1 → ∀ k ≤ QW, st.vp k = V s r' k)
    (ho : ∀ y x, x < w → y < 2 * r → st.out y x = sampleVal pLSB (s y x)) :
    D2Inv s w pLSB QW r L 0 { st with prev := 0 } :=
  ⟨⟨_, by simp, hm⟩, fun r' hr' k hk _ => hv r' hr' k hk, by simp, by simp, fun y x hx hy => ho y x hx (by omega)⟩

theorem dec2InitRow_spec {s : Nat → Nat → Nat} {w pLSB sstr : Nat} {L : List Bool} (hs : SOk s ((w + 1) / 2))
    (hw : ∀ y, s y w = 0) (hw0 : 0 < w) {sp : Nat → Nat} (hsp : ∀ k < (w + 1) / 2, Has s sstr sp 0 k) {st : Dec2}
    (hm : Rep fwdDisc 0xFF st.ms ((List.range ((w + 1) / 2)).flatMap (bitsQ s 0) ++ L)) :
    ∃ st', dec2InitRow w pLSB sp st = some st' ∧ D2Row s w pLSB ((w + 1) / 2) 0 L st' := by
  obtain ⟨st', e, h'⟩ := foldlM_range (D2Inv s w pLSB ((w + 1) / 2) 0 L)
    (fun st j => decQuad w pLSB 0 j (sp (2 * j)) (sp (2 * j + 1)) st) ((w + 1) / 2) { st with prev := 0 }
    (d2inv_start hm (by omega) (by omega))
    (fun j st hj h => by have := d2inv_step hs hw hj (hsp j hj) h; simpa using this)
  refine ⟨_, ?_, d2inv_end hs (by omega) (by omega) h'⟩
  unfold dec2InitRow
  rw [e]
  rfl

theorem dec2Row_spec {s : Nat → Nat → Nat} {w pLSB sstr r : Nat} {L : List Bool} (hs : SOk s ((w + 1) / 2))
    (hw : ∀ y, s y w = 0) (hw0 : 0 < w) {sp : Nat → Nat} (hsp : ∀ k < (w + 1) / 2, Has s sstr sp (r + 1) k) {st : Dec2}
    (h : D2Row s w pLSB ((w + 1) / 2) r ((List.range ((w + 1) / 2)).flatMap (bitsQ s (r + 1)) ++ L) st) :
    ∃ st', dec2Row w pLSB sstr sp (r + 1) st = some st' ∧ D2Row s w pLSB ((w + 1) / 2) (r + 1) L st' := by
  obtain ⟨st', e, h'⟩ := foldlM_range (D2Inv s w pLSB ((w + 1) / 2) (r + 1) L)
    (fun st j =>
      let inf := sp ((r + 1) * sstr + 2 * j)
      decQuad w pLSB (2 * (r + 1)) j inf
        ((sp ((r + 1) * sstr + 2 * j + 1) + decKappa inf (st.vp j) (st.vp (j + 1))) % 2 ^ 32) st)
    ((w + 1) / 2) { st with prev := 0 }
    (d2inv_start h.ms (fun r' hr' k hk => by obtain rfl : r' = r := by omega
                                             exact h.vp k hk) (fun y x hx hy => h.out y x hx (by omega)))
    (fun j st hj h => by have := d2inv_step hs hw hj (hsp j hj) h; simpa using this)
  refine ⟨_, ?_, d2inv_end hs (by omega) (by omega) h'⟩
  unfold dec2Row
  rw [e]
  rfl

/-- Step 2 recovers every sample. -/
theorem decStep2_spec {s : Nat → Nat → Nat} {w h pLSB sstr p : Nat} (hs : SOk s ((w + 1) / 2))
    (hw : ∀ y, s y w = 0) (hw0 : 0 < w) (hh : 0 < h) {sp : Nat → Nat}
    (hsp : ∀ r < (h + 1) / 2, ∀ k < (w + 1) / 2, Has s sstr sp r k) {msBytes : List Nat} {ms : BitRd}
    (e0 : fwdInit 0xFF p msBytes = some ms)
    (hm : Rep fwdDisc 0xFF ms ((List.range ((h + 1) / 2)).flatMap fun r =>
      (List.range ((w + 1) / 2)).flatMap (bitsQ s r))) :
    ∃ out, decStep2 w h pLSB sstr p msBytes sp = some out ∧
      ∀ y < h, ∀ x < w, out y x = sampleVal pLSB (s y x) := by
  obtain ⟨L0, hL0, hL0'⟩ := flatMap_next (f := fun r => (List.range ((w + 1) / 2)).flatMap (bitsQ s r)) (i := 0)
    (n := (h + 1) / 2) (X := _) (by omega) (by simp; rfl)
  have hm' : Rep fwdDisc 0xFF ms ((List.range ((w + 1) / 2)).flatMap (bitsQ s 0) ++ L0) := by
    rw [hL0'] at hm
    simpa using hm
  obtain ⟨st1, f1, d1⟩ := dec2InitRow_spec (pLSB := pLSB) (sstr := sstr) (st := ⟨ms, fun _ => 0, 0, fun _ _ => 0⟩) hs hw hw0
    (hsp 0 (by omega)) hm'
  obtain ⟨st2, f2, L, -, d2⟩ := foldlM_range (fun i st => ∃ L,
      ((List.range ((h + 1) / 2)).flatMap fun r => (List.range ((w + 1) / 2)).flatMap (bitsQ s r)) =
      ((List.range (i + 1)).flatMap fun r => (List.range ((w + 1) / 2)).flatMap (bitsQ s r)) ++ L ∧
      D2Row s w pLSB ((w + 1) / 2) i L st)
    (fun st i => dec2Row w pLSB sstr sp (i + 1) st) ((h + 1) / 2 - 1) st1 ⟨L0, hL0', d1⟩ (by
      rintro i st hi ⟨L, hL, d⟩
      obtain ⟨L', rfl, hL'⟩ := flatMap_next (show i + 1 < (h + 1) / 2 by omega) hL
      obtain ⟨st', e, d'⟩ := dec2Row_spec hs hw hw0 (hsp (i + 1) (by omega)) d
      exact ⟨st', e, L', hL', d'⟩)
  refine ⟨st2.out, ?_, fun y hy x hx => d2.out y x hx (by omega)⟩
  unfold decStep2
  rw [e0]
  simp only [Option.bind_eq_bind, Option.bind_some]
  rw [f1]
  simp only [Option.bind_some]
  rw [f2]
  rfl

/-! ## The MagSgn calls of the encoder, quad by quad -/

theorem overRow_flat {α : Type} (g : Nat → List α) (QW n : Nat) (hn : 2 * n ≤ QW + 1) :
    overRow (fun j two => g j ++ if two then g (j + 1) else []) QW n = (List.range (min (2 * n) QW)).flatMap g := by
  induction n with
  | zero => simp [overRow]
  | succ n ih =>
    rw [overRow_succ, ih (by omega), show min (2 * n) QW = 2 * n by omega]
    by_cases h : 2 * n + 1 < QW
    · rw [show min (2 * (n + 1)) QW = 2 * n + 1 + 1 by omega, List.range_succ, List.range_succ]
      simp [h]
    · rw [show min (2 * (n + 1)) QW = 2 * n + 1 by omega, List.range_succ]
      simp [h]

theorem overBlock_bits (s : Nat → Nat → Nat) (QW QH : Nat) :
    fieldBits ((overBlock (pairMs s) QW QH).map fieldVal) =
      (List.range QH).flatMap fun r => (List.range QW).flatMap (bitsQ s r) := by
  have e : overBlock (pairMs s) QW QH = (List.range QH).flatMap fun r => (List.range QW).flatMap (msE s r) := by
    unfold overBlock
    congr 1
    funext r
    have := overRow_flat (msE s r) QW ((QW + 1) / 2) (by omega)
    rw [show min (2 * ((QW + 1) / 2)) QW = QW by omega] at this
    exact this
  rw [e]
  simp only [fieldBits, List.map_flatMap, List.flatMap_assoc]
  rfl

theorem overBlock_ok {s : Nat → Nat → Nat} {QW : Nat} (hs : SOk s QW) (QH : Nat) :
    ∀ f ∈ overBlock (pairMs s) QW QH, FieldOk f := by
  intro f hf
  simp only [overBlock, overRow, pairMs, List.mem_flatMap, List.mem_append] at hf
  obtain ⟨r, -, i, -, h | h⟩ := hf
  · exact msE_ok hs _ _ f h
  · split_ifs at h
    · exact msE_ok hs _ _ f h
    · simp at h

/-! ## Quantiser and dequantiser -/

theorem quantWord_word (c : Int) (hc : c.natAbs < 2 ^ 30) : quantWord c = 0 ∨ (2 ^ 31 ≤ quantWord c ∧ quantWord c < 2 ^ 32) := by
  unfold quantWord
  split_ifs with h
  · exact Or.inl rfl
  · right
    refine ⟨?_, Nat.mod_lt _ (by positivity)⟩
    rw [Nat.mod_eq_of_lt]
    · exact Nat.right_le_or
    · exact Nat.or_lt_two_pow (by rw [Nat.shiftLeft_eq]; omega) (by decide)
  · right
    refine ⟨?_, Nat.mod_lt _ (by positivity)⟩
    rw [Nat.mod_eq_of_lt]
    · exact Nat.right_le_or
    · exact Nat.or_lt_two_pow (by rw [Nat.shiftLeft_eq]; omega) (by decide)

theorem quantWord_eq {c : Int} (h0 : c ≠ 0) (hc : c.natAbs < 2 ^ 30) :
    quantWord c = 2 ^ 31 + (2 * (c.natAbs - 1) + if c < 0 then 1 else 0) := by
  unfold quantWord
  rw [if_neg h0, Nat.shiftLeft_eq]
  have hlt : (c.natAbs - 1) * 2 ^ 1 + (if c < 0 then 1 else 0) < 2 ^ 31 := by split_ifs <;> omega
  rw [Nat.or_comm, show (2 : Nat) ^ 31 = 2 ^ 31 * 1 from rfl, ← Nat.two_pow_add_eq_or_of_lt hlt, Nat.mod_eq_of_lt (by omega)]
  ring

theorem dequant_sampleVal {c : Int} {mb : Nat} (h1 : 1 ≤ mb) (h2 : mb ≤ 30) (hc : c.natAbs < 2 ^ mb) :
    dequant (31 - mb) (sampleVal (31 - mb) (quantWord c)) = c := by
  have hp : 2 ^ mb ≤ 2 ^ 30 := Nat.pow_le_pow_right (by omega) h2
  by_cases h0 : c = 0
  · subst h0; simp [quantWord, sampleVal, dequant]
  · have hq := quantWord_eq h0 (by omega)
    generalize hsg : (if c < 0 then 1 else 0 : Nat) = sg at hq
    have hsg1 : sg ≤ 1 := by rw [← hsg]; split_ifs <;> omega
    have hv : quantWord c % 2 ^ 31 = 2 * (c.natAbs - 1) + sg := by omega
    have hor : (2 * (c.natAbs - 1) + sg) ||| 1 = 2 * (c.natAbs - 1) + 1 := by
      have ha : 2 * (c.natAbs - 1) ||| 1 = 2 * (c.natAbs - 1) + 1 := by
        have := Nat.two_pow_add_eq_or_of_lt (i := 1) (b := 1) (by decide) (c.natAbs - 1)
        simpa using this.symm
      rcases Nat.lt_or_ge sg 1 with h | h
      · obtain rfl : sg = 0 := by omega
        rw [Nat.add_zero, ha]
      · obtain rfl : sg = 1 := by omega
        rw [← ha, Nat.or_assoc]; rfl
    have hs : sampleVal (31 - mb) (quantWord c) = sg * 2 ^ 31 + (2 * c.natAbs + 1) * 2 ^ (30 - mb) := by
      unfold sampleVal
      rw [if_neg (by omega), hv, hor, show 31 - mb - 1 = 30 - mb by omega, show (2 * (c.natAbs - 1) + sg) % 2 = sg by omega,
        show 2 * (c.natAbs - 1) + 1 + 2 = 2 * c.natAbs + 1 by omega, Nat.mod_eq_of_lt (show 2 * c.natAbs + 1 < 2 ^ 32 by omega),
        Nat.shiftLeft_eq]
      have hlt : (2 * c.natAbs + 1) * 2 ^ (30 - mb) < 2 ^ 31 := by
        calc (2 * c.natAbs + 1) * 2 ^ (30 - mb) < 2 ^ (mb + 1) * 2 ^ (30 - mb) := by
              apply Nat.mul_lt_mul_of_pos_right _ (by positivity)
              rw [pow_succ]; omega
          _ = 2 ^ 31 := by rw [← pow_add]; congr 1; omega
      rw [Nat.mod_eq_of_lt (by omega), Nat.mul_comm sg, ← Nat.two_pow_add_eq_or_of_lt hlt]
    have hlt : (2 * c.natAbs + 1) * 2 ^ (30 - mb) < 2 ^ 31 := by
      calc (2 * c.natAbs + 1) * 2 ^ (30 - mb) < 2 ^ (mb + 1) * 2 ^ (30 - mb) := by
            apply Nat.mul_lt_mul_of_pos_right _ (by positivity)
            rw [pow_succ]; omega
        _ = 2 ^ 31 := by rw [← pow_add]; congr 1; omega
    rw [hs]
    unfold dequant
    have m1 : (sg * 2 ^ 31 + (2 * c.natAbs + 1) * 2 ^ (30 - mb)) &&& 0x7FFFFFFF = (2 * c.natAbs + 1) * 2 ^ (30 - mb) := by
      rw [show (0x7FFFFFFF : Nat) = 2 ^ 31 - 1 from rfl, Nat.and_two_pow_sub_one_eq_mod, Nat.add_comm, Nat.add_mul_mod_self_right,
        Nat.mod_eq_of_lt hlt]
    have m2 : ((2 * c.natAbs + 1) * 2 ^ (30 - mb)) >>> (31 - mb) = c.natAbs := by
      rw [Nat.shiftRight_eq_div_pow, show 31 - mb = (30 - mb) + 1 by omega, pow_succ, ← Nat.div_div_eq_div_mul,
        Nat.mul_div_cancel _ (by positivity)]
      omega
    have m3 : (sg * 2 ^ 31 + (2 * c.natAbs + 1) * 2 ^ (30 - mb)).testBit 31 = decide (sg = 1) := by
      rw [tb_div, Nat.add_comm, Nat.add_mul_div_right _ _ (by positivity), Nat.div_eq_of_lt hlt]
      apply decide_eq_decide.mpr; omega
    simp only [m1, m2, m3]
    rcases lt_or_ge c 0 with hneg | hneg
    · rw [if_pos hneg] at hsg
      rw [if_pos (decide_eq_true hsg.symm)]; omega
    · rw [if_neg (by omega)] at hsg
      rw [if_neg (by rw [← hsg]; decide)]; omega

theorem sampleBuf_ok {w h : Nat} {c : Nat → Nat → Int} (hc : ∀ y < h, ∀ x < w, (c y x).natAbs < 2 ^ 30) :
    SOk (sampleBuf w h c) ((w + 1) / 2) := by
  refine ⟨?_, ?_⟩
  · intro r k
    unfold sampleBuf
    split_ifs with hh
    · exact quantWord_word _ (hc r hh.1 k hh.2)
    · exact Or.inl rfl
  · intro r k hk
    unfold sampleBuf
    rw [if_neg (by omega)]

end Verif.Ht
