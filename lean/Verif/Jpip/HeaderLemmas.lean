import Verif.Jpip.Header
import Verif.Jpip.VbasLemmas
/-
Lemmas about the JPP-stream message header codec.
-/
namespace Verif.Jpip

theorem bitCount_spec (v : Nat) : v < 2 ^ bitCount v ∧ (v ≠ 0 → 2 ^ (bitCount v - 1) ≤ v ∧ 0 < bitCount v) := by
  induction v using Nat.strongRecOn with
  | ind v ih =>
    unfold bitCount
    by_cases h : v = 0
    · simp [h]
    · simp only [h, dite_false]
      have e : v >>> 1 = v / 2 := by rw [Nat.shiftRight_eq_div_pow]
      rw [e]
      obtain ⟨h1, h2⟩ := ih (v / 2) (by omega)
      refine ⟨?_, fun _ => ⟨?_, by omega⟩⟩
      · rw [Nat.pow_add]; omega
      · by_cases hz : v / 2 = 0
        · rw [hz]; simp [bitCount]; omega
        · obtain ⟨h3, h4⟩ := h2 hz
          have : 1 + bitCount (v / 2) - 1 = (bitCount (v/2) - 1) + 1 := by omega
          rw [this, Nat.pow_succ]; omega

theorem bitCount_le (v k : Nat) (h : v < 2 ^ k) : bitCount v ≤ k := by
  by_cases hv : v = 0
  · subst hv; unfold bitCount; simp
  · have := ((bitCount_spec v).2 hv)
    have h2 : 2 ^ (bitCount v - 1) < 2 ^ k := Nat.lt_of_le_of_lt this.1 h
    have := (Nat.pow_lt_pow_iff_right (by omega : 1 < 2)).1 h2
    omega

theorem binIdBytes_spec (v : Nat) (hv : v < 2 ^ 64) :
    1 ≤ binIdBytes v ∧ binIdBytes v ≤ 10 ∧ v < 16 * 128 ^ (binIdBytes v - 1) := by
  unfold binIdBytes
  split
  · simp; omega
  · have hb := bitCount_le v 64 hv
    have h1 := (bitCount_spec v).1
    refine ⟨by omega, by omega, ?_⟩
    have e : 16 * 128 ^ ((bitCount v + 3 + 6) / 7 - 1) = 2 ^ (4 + 7 * ((bitCount v + 3 + 6) / 7 - 1)) := by
      rw [Nat.pow_add, Nat.pow_mul]
    rw [e]
    exact Nat.lt_of_lt_of_le h1 (Nat.pow_le_pow_right (by omega) (by omega))

theorem encodeBinId_tail (v k : Nat) :
    ((List.range (k - 1)).map fun j =>
      let i := j + 1
      let shift := 7 * (k - 1 - i)
      let payload := (v >>> shift) &&& 0x7F
      let cont := if i + 1 < k then 0x80 else 0x00
      UInt8.ofNat (payload ||| cont)) = encN (k - 1) v := by
  unfold encN
  apply List.map_congr_left
  intro i hi
  have hi := List.mem_range.1 hi
  have e1 : 7 * (k - 1 - (i + 1)) = (k - 1 - 1 - i) * 7 := by omega
  have e2 : (i + 1 + 1 < k) = (i + 1 < k - 1) := by apply propext; omega
  simp only [e1, e2]

/-- Every field of the first Bin-ID byte can be read back. -/
theorem firstByte (c : Bool) (bb : Nat) (hb : 1 ≤ bb ∧ bb ≤ 3) (l : Bool) (t : Nat) (ht : t < 16) :
    let n := (if c then 0x80 else 0x00) ||| ((bb &&& 0x3) <<< 5) ||| (if l then 0x10 else 0x00) ||| t
    n < 256 ∧ n ≠ 0 ∧ (n >>> 5) &&& 0x3 = bb ∧ decide (n &&& 0x10 ≠ 0) = l ∧ n &&& 0xF = t ∧
      (n &&& 0x80 ≠ 0 ↔ c = true) := by
  have h : ∀ c : Bool, ∀ b : Fin 4, ∀ l : Bool, ∀ t : Fin 16, 1 ≤ b.val →
    let n := (if c then 0x80 else 0x00) ||| ((b.val &&& 0x3) <<< 5) ||| (if l then 0x10 else 0x00) ||| t.val
    n < 256 ∧ n ≠ 0 ∧ (n >>> 5) &&& 0x3 = b.val ∧ decide (n &&& 0x10 ≠ 0) = l ∧ n &&& 0xF = t.val ∧
      (n &&& 0x80 ≠ 0 ↔ c = true) := by decide +kernel
  exact h c ⟨bb, by omega⟩ l ⟨t, ht⟩ hb.1

theorem and_f (n : Nat) (h : n < 16) : n &&& 0xF = n := by
  have := Nat.and_two_pow_sub_one_eq_mod n 4
  simp at this; rw [this]; omega

theorem decodeBinId_encode (v bb : Nat) (l : Bool) (hv : v < 2 ^ 64) (hb : 1 ≤ bb ∧ bb ≤ 3)
    (rest : List UInt8) :
    decodeBinId (encodeBinId v bb l ++ rest) = some (v, bb, l, (encodeBinId v bb l).length) := by
  obtain ⟨hk1, hk10, hvk⟩ := binIdBytes_spec v hv
  unfold encodeBinId
  simp only [encodeBinId_tail]
  generalize hk : binIdBytes v = k at *
  have ht : v >>> (7 * (k - 1)) < 16 := by
    rw [Nat.shiftRight_eq_div_pow, Nat.pow_mul]
    exact Nat.div_lt_of_lt_mul (by rw [Nat.mul_comm]; exact hvk)
  rw [and_f _ ht]
  have hs : v >>> (7 * (k - 1)) = v / 128 ^ (k - 1) := by
    rw [Nat.shiftRight_eq_div_pow, Nat.pow_mul]
  rw [hs] at ht ⊢
  have hf := firstByte (decide (k > 1)) bb hb l _ ht
  simp only [decide_eq_true_eq] at hf
  generalize hn : ((if k > 1 then 0x80 else 0x00) ||| ((bb &&& 0x3) <<< 5) ||| (if l then 0x10 else 0x00) |||
    v / 128 ^ (k - 1)) = n at hf ⊢
  obtain ⟨h256, -, hbb, hl, htop, hc⟩ := hf
  have htn : (UInt8.ofNat n).toNat = n := by rw [UInt8.toNat_ofNat']; omega
  simp only [List.cons_append, decodeBinId, htn, hbb, hl, htop, List.length_cons, encN_length]
  rw [if_neg (by omega)]
  by_cases hkk : k > 1
  · rw [if_pos (hc.2 hkk)]
    have : vbasDecodeLoop (encN (k - 1) v ++ rest) 1 (v / 128 ^ (k - 1)) = some (v, k) := by
      rw [vbasDecodeLoop_iff _ _ _ _ _ (by omega) (by omega)]
      refine ⟨encN (k - 1) v, rest, rfl, encN_isVbas _ _ (by omega), by rw [encN_length]; omega, hk10, ?_, hv⟩
      rw [groupsVal_encN]
      exact Nat.div_add_mod' v _
    rw [this]
    simp; omega
  · rw [if_neg (fun h => hkk (hc.1 h))]
    have : k = 1 := by omega
    subst this
    simp

theorem encodeBinId_length (v bb : Nat) (l : Bool) (hv : v < 2 ^ 64) :
    1 ≤ (encodeBinId v bb l).length ∧ (encodeBinId v bb l).length ≤ 10 := by
  obtain ⟨hk1, hk10, hvk⟩ := binIdBytes_spec v hv
  unfold encodeBinId
  simp only [List.length_cons, List.length_map, List.length_range]
  omega

theorem encodeBinId_head (v bb : Nat) (l : Bool) (hv : v < 2 ^ 64) (hb : 1 ≤ bb ∧ bb ≤ 3) :
    ∃ b bs, encodeBinId v bb l = b :: bs ∧ b ≠ 0 := by
  obtain ⟨hk1, hk10, hvk⟩ := binIdBytes_spec v hv
  refine ⟨_, _, rfl, ?_⟩
  have ht : (v >>> (7 * (binIdBytes v - 1))) &&& 0xF < 16 := by
    have := Nat.and_two_pow_sub_one_eq_mod (v >>> (7 * (binIdBytes v - 1))) 4
    simp at this; rw [this]; omega
  have hf := firstByte (decide (binIdBytes v > 1)) bb hb l _ ht
  simp only [decide_eq_true_eq] at hf
  intro h0
  have := congrArg UInt8.toNat h0
  rw [UInt8.toNat_ofNat'] at this
  simp only [UInt8.toNat_ofNat, Nat.zero_mod] at this
  obtain ⟨h1, h2, -⟩ := hf
  apply h2
  rwa [Nat.mod_eq_of_lt h1] at this

theorem take_take_append {α} (l more : List α) (n m : Nat) (h : n ≤ m) (hl : n ≤ l.length) :
    (l.take m ++ more).take n = l.take n := by
  rw [List.take_append_of_le_length (by simp; omega), List.take_take]
  congr 1; omega

/-- A successful VBAS decode depends only on the bytes it consumed. -/
theorem vbasDecode_local {bs : List UInt8} {w n : Nat} (h : vbasDecode bs = some (w, n))
    {bs' : List UInt8} (ht : bs'.take n = bs.take n) : vbasDecode bs' = some (w, n) := by
  rw [vbasDecode_iff] at h ⊢
  obtain ⟨pre, rest, rfl, hp, hn, hr⟩ := h
  refine ⟨pre, bs'.drop n, ?_, hp, hn, hr⟩
  have : (pre ++ rest).take n = pre := by rw [← hn]; simp
  rw [this] at ht
  rw [← ht, List.take_append_drop]

theorem vbasDecodeLoop_local {bs : List UInt8} {i v w n : Nat} (hv : v < 2 ^ 64) (h0 : i = 0 → v = 0)
    (h : vbasDecodeLoop bs i v = some (w, n))
    {bs' : List UInt8} (ht : bs'.take (n - i) = bs.take (n - i)) : vbasDecodeLoop bs' i v = some (w, n) := by
  rw [vbasDecodeLoop_iff _ _ _ _ _ hv h0] at h ⊢
  obtain ⟨pre, rest, rfl, hp, hn, hr⟩ := h
  refine ⟨pre, bs'.drop (n - i), ?_, hp, hn, hr⟩
  have hlen : n - i = pre.length := by omega
  have : (pre ++ rest).take (n - i) = pre := by rw [hlen]; simp
  rw [this] at ht
  rw [← ht, List.take_append_drop]

theorem decodeBinId_local {bs : List UInt8} {id bb n : Nat} {l : Bool}
    (h : decodeBinId bs = some (id, bb, l, n)) :
    1 ≤ n ∧ n ≤ 10 ∧ n ≤ bs.length ∧ id < 2 ^ 64 ∧ 1 ≤ bb ∧ bb ≤ 3 ∧
      ∀ bs' : List UInt8, bs'.take n = bs.take n → decodeBinId bs' = some (id, bb, l, n) := by
  cases bs with
  | nil => simp [decodeBinId] at h
  | cons b0 rest =>
    have hb0 := b0.toNat_lt
    have hbb3 : (b0.toNat >>> 5) &&& 0x3 ≤ 3 := by
      have := Nat.and_two_pow_sub_one_eq_mod (b0.toNat >>> 5) 2
      simp at this; rw [this]; omega
    have hv16 : b0.toNat &&& 0xF < 16 := by
      have := Nat.and_two_pow_sub_one_eq_mod b0.toNat 4
      simp at this; rw [this]; omega
    simp only [decodeBinId] at h
    split at h
    · cases h
    · rename_i hbb
      split at h
      · rename_i hc
        cases hd : vbasDecodeLoop rest 1 (b0.toNat &&& 0xF) with
        | none => rw [hd] at h; cases h
        | some r =>
          obtain ⟨v', i⟩ := r
          rw [hd] at h
          simp only [Option.some.injEq, Prod.mk.injEq] at h
          obtain ⟨rfl, rfl, rfl, rfl⟩ := h
          have hd' := hd
          rw [vbasDecodeLoop_iff _ _ _ _ _ (by omega) (by omega)] at hd'
          obtain ⟨pre, rst, rfl, hp, hn, hr, hw, hlt⟩ := hd'
          have : 0 < pre.length := List.length_pos_iff.2 hp.ne_nil
          refine ⟨by omega, by omega, by simp; omega, hlt, by omega, hbb3, ?_⟩
          intro bs' ht
          cases bs' with
          | nil =>
            have : i ≠ 0 := by omega
            simp [this] at ht
          | cons c0 rest' =>
            have e : i = (i - 1) + 1 := by omega
            rw [e, List.take_succ_cons, List.take_succ_cons] at ht
            simp only [List.cons.injEq] at ht
            obtain ⟨rfl, ht⟩ := ht
            have := vbasDecodeLoop_local (by omega) (by omega) hd ht
            simp only [decodeBinId]
            rw [if_neg hbb, if_pos hc, this]
      · rename_i hc
        simp only [Option.some.injEq, Prod.mk.injEq] at h
        obtain ⟨rfl, rfl, rfl, rfl⟩ := h
        refine ⟨by omega, by omega, by simp, by omega, by omega, hbb3, ?_⟩
        intro bs' ht
        cases bs' with
        | nil => simp at ht
        | cons c0 rest' =>
          simp at ht
          subst ht
          simp only [decodeBinId]
          rw [if_neg hbb, if_neg hc]

theorem take_drop_agree {α} {a b : List α} {n p m : Nat} (h : a.take n = b.take n) (hm : p + m ≤ n) :
    (a.drop p).take m = (b.drop p).take m := by
  have h1 : (a.take n).drop p = (b.take n).drop p := by rw [h]
  rw [List.drop_take, List.drop_take] at h1
  have h2 := congrArg (List.take m) h1
  rw [List.take_take, List.take_take] at h2
  have : min m (n - p) = m := by omega
  rwa [this] at h2

theorem take_agree_le {α} {a b : List α} {n m : Nat} (h : a.take n = b.take n) (hm : m ≤ n) :
    a.take m = b.take m := by
  have := take_drop_agree (p := 0) (m := m) h (by omega)
  simpa using this

/-- A field decoder applied at a position. -/
theorem vbasAt {src : List UInt8} {p w s : Nat} (h : vbasDecode (src.drop p) = some (w, s)) (hp : p ≤ src.length) :
    1 ≤ s ∧ s ≤ 10 ∧ p + s ≤ src.length ∧ w < 2 ^ 64 := by
  have := vbasDecode_bounds h
  simp at this; omega

theorem vbasAt_local {src src' : List UInt8} {p w s n : Nat} (h : vbasDecode (src.drop p) = some (w, s))
    (ht : src'.take n = src.take n) (hn : p + s ≤ n) : vbasDecode (src'.drop p) = some (w, s) :=
  vbasDecode_local h (take_drop_agree ht hn)

/-- Relational form of a successful header decode. -/
structure HeaderDecodes (src : List UInt8) (ctx : Ctx) (h : MsgHeader) (n : Nat) : Prop where
  ex : ∃ bb p0 p1 p2 s3 s4,
    decodeBinId src = some (h.inClassId, bb, h.isLast, p0) ∧
    ((bb = 2 ∨ bb = 3) ∧ (∃ s, vbasDecode (src.drop p0) = some (h.classId, s) ∧ h.classId ≤ 0xFF ∧ p1 = p0 + s) ∨
      (¬ (bb = 2 ∨ bb = 3) ∧ h.classId = ctx.lastClass ∧ p1 = p0)) ∧
    (bb = 3 ∧ (∃ s, vbasDecode (src.drop p1) = some (h.csN, s) ∧ h.csN ≤ 0xFFFF ∧ p2 = p1 + s) ∨
      (¬ bb = 3 ∧ h.csN = ctx.lastCs ∧ p2 = p1)) ∧
    vbasDecode (src.drop p2) = some (h.msgOffset, s3) ∧
    vbasDecode (src.drop (p2 + s3)) = some (h.msgLength, s4) ∧
    (hasAux h.classId = true ∧ (∃ s, vbasDecode (src.drop (p2 + s3 + s4)) = some (h.aux, s) ∧ n = p2 + s3 + s4 + s) ∨
      (hasAux h.classId = false ∧ h.aux = 0 ∧ n = p2 + s3 + s4))

theorem decodeHeaderFields_iff (src : List UInt8) (ctx : Ctx) (h : MsgHeader) (n : Nat) :
    decodeHeaderFields src ctx = some (h, n) ↔ HeaderDecodes src ctx h n := by
  constructor
  · intro hd
    unfold decodeHeaderFields at hd
    simp only [Option.bind_eq_bind, Option.bind_eq_some_iff, Prod.exists] at hd
    obtain ⟨id, bb, l, p0, h0, cls, p1, h1, cs, p2, h2, off, s3, h3, len, s4, h4, aux, p5, h5, h6⟩ := hd
    simp only [Option.some.injEq, Prod.mk.injEq] at h6
    obtain ⟨rfl, rfl⟩ := h6
    refine ⟨bb, p0, p1, p2, s3, s4, h0, ?_, ?_, h3, h4, ?_⟩
    · unfold decodeClassField at h1
      split at h1
      · rename_i hbb
        left; refine ⟨hbb, ?_⟩
        split at h1
        · cases h1
        · rename_i v step hv
          split at h1
          · cases h1
          · simp only [Option.some.injEq, Prod.mk.injEq] at h1
            obtain ⟨rfl, rfl⟩ := h1
            exact ⟨step, hv, by simp only; omega, rfl⟩
      · rename_i hbb
        simp only [Option.some.injEq, Prod.mk.injEq] at h1
        obtain ⟨rfl, rfl⟩ := h1
        exact Or.inr ⟨hbb, rfl, rfl⟩
    · unfold decodeCsField at h2
      split at h2
      · rename_i hbb
        left; refine ⟨hbb, ?_⟩
        split at h2
        · cases h2
        · rename_i v step hv
          split at h2
          · cases h2
          · simp only [Option.some.injEq, Prod.mk.injEq] at h2
            obtain ⟨rfl, rfl⟩ := h2
            exact ⟨step, hv, by simp only; omega, rfl⟩
      · rename_i hbb
        simp only [Option.some.injEq, Prod.mk.injEq] at h2
        obtain ⟨rfl, rfl⟩ := h2
        exact Or.inr ⟨hbb, rfl, rfl⟩
    · unfold decodeAuxField at h5
      split at h5
      · rename_i ha
        left; refine ⟨ha, ?_⟩
        split at h5
        · cases h5
        · rename_i v step hv
          simp only [Option.some.injEq, Prod.mk.injEq] at h5
          obtain ⟨rfl, rfl⟩ := h5
          exact ⟨step, hv, rfl⟩
      · rename_i ha
        simp only [Option.some.injEq, Prod.mk.injEq] at h5
        obtain ⟨rfl, rfl⟩ := h5
        exact Or.inr ⟨by simpa using ha, rfl, rfl⟩
  · rintro ⟨bb, p0, p1, p2, s3, s4, h0, h1, h2, h3, h4, h5⟩
    obtain ⟨cls, cs, id, off, len, aux, l⟩ := h
    simp only at h0 h1 h2 h3 h4 h5
    unfold decodeHeaderFields
    simp only [Option.bind_eq_bind, Option.bind_eq_some_iff, Prod.exists]
    refine ⟨id, bb, l, p0, h0, cls, p1, ?_, cs, p2, ?_, off, s3, h3, len, s4, h4, aux, n, ?_, rfl⟩
    · unfold decodeClassField
      rcases h1 with ⟨hbb, s, hv, hle, rfl⟩ | ⟨hbb, rfl, rfl⟩
      · rw [if_pos hbb, hv]
        simp only
        rw [if_neg (by omega)]
      · rw [if_neg hbb]
    · unfold decodeCsField
      rcases h2 with ⟨hbb, s, hv, hle, rfl⟩ | ⟨hbb, rfl, rfl⟩
      · rw [if_pos hbb, hv]
        simp only
        rw [if_neg (by omega)]
      · rw [if_neg hbb]
    · unfold decodeAuxField
      rcases h5 with ⟨ha, s, hv, rfl⟩ | ⟨ha, rfl, rfl⟩
      · rw [if_pos ha, hv]
      · rw [if_neg (by simp [ha])]

/-- Bounds and locality of a successful header decode. -/
theorem HeaderDecodes.bounds {src : List UInt8} {ctx : Ctx} {h : MsgHeader} {n : Nat}
    (hd : HeaderDecodes src ctx h n) :
    1 ≤ n ∧ n ≤ 60 ∧ n ≤ src.length ∧ h.inClassId < 2 ^ 64 ∧ h.msgOffset < 2 ^ 64 ∧ h.msgLength < 2 ^ 64 ∧
      h.aux < 2 ^ 64 ∧ (ctx.lastClass < 2 ^ 8 → h.classId < 2 ^ 8) ∧ (ctx.lastCs < 2 ^ 16 → h.csN < 2 ^ 16) ∧
      ∀ src' : List UInt8, src'.take n = src.take n → HeaderDecodes src' ctx h n := by
  obtain ⟨bb, p0, p1, p2, s3, s4, h0, h1, h2, h3, h4, h5⟩ := hd
  obtain ⟨b1, b2, b3, bid, b4, b5, hl0⟩ := decodeBinId_local h0
  have k1 : p0 ≤ p1 ∧ p1 ≤ p0 + 10 ∧ p1 ≤ src.length := by
    rcases h1 with ⟨-, s, hv, -, rfl⟩ | ⟨-, -, rfl⟩
    · have := vbasAt hv b3; omega
    · omega
  have k2 : p1 ≤ p2 ∧ p2 ≤ p1 + 10 ∧ p2 ≤ src.length := by
    rcases h2 with ⟨-, s, hv, -, rfl⟩ | ⟨-, -, rfl⟩
    · have := vbasAt hv k1.2.2; omega
    · omega
  have k3 := vbasAt h3 k2.2.2
  have k4 := vbasAt h4 k3.2.2.1
  have k5 : p2 + s3 + s4 ≤ n ∧ n ≤ p2 + s3 + s4 + 10 ∧ n ≤ src.length ∧ h.aux < 2 ^ 64 := by
    rcases h5 with ⟨-, s, hv, rfl⟩ | ⟨-, ha, rfl⟩
    · have := vbasAt hv k4.2.2.1; omega
    · rw [ha]; refine ⟨by omega, by omega, by omega, by decide⟩
  refine ⟨by omega, by omega, by omega, bid, k3.2.2.2, k4.2.2.2, k5.2.2.2, ?_, ?_, ?_⟩
  · intro hc
    rcases h1 with ⟨-, s, hv, hle, rfl⟩ | ⟨-, he, rfl⟩ <;> omega
  · intro hc
    rcases h2 with ⟨-, s, hv, hle, rfl⟩ | ⟨-, he, rfl⟩ <;> omega
  · intro src' ht
    refine ⟨bb, p0, p1, p2, s3, s4, hl0 _ (take_agree_le ht (by omega)), ?_, ?_, ?_, ?_, ?_⟩
    · rcases h1 with ⟨hb, s, hv, hle, rfl⟩ | h1
      · exact Or.inl ⟨hb, s, vbasAt_local hv ht (by omega), hle, rfl⟩
      · exact Or.inr h1
    · rcases h2 with ⟨hb, s, hv, hle, rfl⟩ | h2
      · exact Or.inl ⟨hb, s, vbasAt_local hv ht (by omega), hle, rfl⟩
      · exact Or.inr h2
    · exact vbasAt_local h3 ht (by omega)
    · exact vbasAt_local h4 ht (by omega)
    · rcases h5 with ⟨hb, s, hv, rfl⟩ | h5
      · exact Or.inl ⟨hb, s, vbasAt_local hv ht (by omega), rfl⟩
      · exact Or.inr h5

theorem drop_app {α} (a b : List α) (n : Nat) (h : n = a.length) : (a ++ b).drop n = b := by
  subst h; simp

/-- Specification: the header a receiver is expected to recover (the auxiliary value is transmitted
only for odd classes). -/
def MsgHeader.wire (h : MsgHeader) : MsgHeader := if h.classId % 2 = 1 then h else { h with aux := 0 }

theorem hasAux_iff (c : Nat) : hasAux c = true ↔ c % 2 = 1 := by
  unfold hasAux; rw [Nat.and_one_is_mod]; simp

theorem encodeWithIndicator_decodes (h : MsgHeader) (hr : h.InRange) (ec es : Bool) (hes : es = true → ec = true)
    (ctx : Ctx) (hc : ec = false → h.classId = ctx.lastClass) (hs : es = false → h.csN = ctx.lastCs)
    (rest : List UInt8) :
    HeaderDecodes (encodeWithIndicator h ec es ++ rest) ctx h.wire (encodeWithIndicator h ec es).length := by
  obtain ⟨r1, r2, r3, r4, r5, r6⟩ := hr
  have hw : h.wire.classId = h.classId ∧ h.wire.csN = h.csN ∧ h.wire.inClassId = h.inClassId ∧
      h.wire.msgOffset = h.msgOffset ∧ h.wire.msgLength = h.msgLength ∧ h.wire.isLast = h.isLast ∧
      (hasAux h.classId = true → h.wire.aux = h.aux) ∧ (hasAux h.classId = false → h.wire.aux = 0) := by
    unfold MsgHeader.wire
    split <;> rename_i hh
    · simp; exact fun h => absurd ((hasAux_iff _).2 hh) (by simp [h])
    · simp; exact fun h => absurd ((hasAux_iff _).1 h) hh
  obtain ⟨w1, w2, w3, w4, w5, w6, w7, w8⟩ := hw
  unfold encodeWithIndicator
  simp only
  generalize hbb : (if (!ec && !es) = true then 0x1 else if (ec && !es) = true then 0x2 else 0x3) = bb
  have hb13 : 1 ≤ bb ∧ bb ≤ 3 := by subst hbb; split <;> (try split) <;> omega
  have hbec : (bb = 2 ∨ bb = 3) ↔ ec = true := by
    subst hbb; cases ec <;> cases es <;> simp_all
  have hbes : bb = 3 ↔ es = true := by
    subst hbb; cases ec <;> cases es <;> simp_all
  generalize hE0 : encodeBinId h.inClassId bb h.isLast = E0
  generalize hE1 : (if ec = true then vbasEncode h.classId else []) = E1
  generalize hE2 : (if es = true then vbasEncode h.csN else []) = E2
  generalize hE3 : vbasEncode h.msgOffset = E3
  generalize hE4 : vbasEncode h.msgLength = E4
  generalize hE5 : (if hasAux h.classId = true then vbasEncode h.aux else []) = E5
  refine ⟨bb, E0.length, E0.length + E1.length, E0.length + E1.length + E2.length, E3.length, E4.length, ?_, ?_, ?_, ?_, ?_, ?_⟩
  · rw [w3, w6]
    have := decodeBinId_encode h.inClassId bb h.isLast r3 hb13 (E1 ++ E2 ++ E3 ++ E4 ++ E5 ++ rest)
    rw [hE0] at this
    rw [← this]; simp
  · rw [w1]
    by_cases he : ec = true
    · left
      refine ⟨hbec.2 he, E1.length, ?_, by omega, rfl⟩
      rw [if_pos he] at hE1
      have : (E0 ++ E1 ++ E2 ++ E3 ++ E4 ++ E5 ++ rest).drop E0.length = E1 ++ (E2 ++ E3 ++ E4 ++ E5 ++ rest) := by
        simp only [List.append_assoc]; exact drop_app _ _ _ rfl
      rw [this, ← hE1]; exact vbas_roundtrip _ (by omega) _
    · right
      refine ⟨fun hx => he (hbec.1 hx), hc (by simpa using he), ?_⟩
      rw [if_neg he] at hE1; rw [← hE1]; simp
  · rw [w2]
    by_cases he : es = true
    · left
      refine ⟨hbes.2 he, E2.length, ?_, by omega, rfl⟩
      rw [if_pos he] at hE2
      have : (E0 ++ E1 ++ E2 ++ E3 ++ E4 ++ E5 ++ rest).drop (E0.length + E1.length) = E2 ++ (E3 ++ E4 ++ E5 ++ rest) := by
        have : E0 ++ E1 ++ E2 ++ E3 ++ E4 ++ E5 ++ rest = (E0 ++ E1) ++ (E2 ++ (E3 ++ E4 ++ E5 ++ rest)) := by simp
        rw [this]; exact drop_app _ _ _ (by simp)
      rw [this, ← hE2]; exact vbas_roundtrip _ (by omega) _
    · right
      refine ⟨fun hx => he (hbes.1 hx), hs (by simpa using he), ?_⟩
      rw [if_neg he] at hE2; rw [← hE2]; simp
  · rw [w4]
    have : (E0 ++ E1 ++ E2 ++ E3 ++ E4 ++ E5 ++ rest).drop (E0.length + E1.length + E2.length) = E3 ++ (E4 ++ E5 ++ rest) := by
      have : E0 ++ E1 ++ E2 ++ E3 ++ E4 ++ E5 ++ rest = (E0 ++ E1 ++ E2) ++ (E3 ++ (E4 ++ E5 ++ rest)) := by simp
      rw [this]; exact drop_app _ _ _ (by simp; omega)
    rw [this, ← hE3]; exact vbas_roundtrip _ r4 _
  · rw [w5]
    have : (E0 ++ E1 ++ E2 ++ E3 ++ E4 ++ E5 ++ rest).drop (E0.length + E1.length + E2.length + E3.length) = E4 ++ (E5 ++ rest) := by
      have : E0 ++ E1 ++ E2 ++ E3 ++ E4 ++ E5 ++ rest = (E0 ++ E1 ++ E2 ++ E3) ++ (E4 ++ (E5 ++ rest)) := by simp
      rw [this]; exact drop_app _ _ _ (by simp; omega)
    rw [this, ← hE4]; exact vbas_roundtrip _ r5 _
  · rw [w1]
    by_cases he : hasAux h.classId = true
    · left
      refine ⟨he, E5.length, ?_, by simp; omega⟩
      rw [if_pos he] at hE5
      have : (E0 ++ E1 ++ E2 ++ E3 ++ E4 ++ E5 ++ rest).drop (E0.length + E1.length + E2.length + E3.length + E4.length) = E5 ++ rest := by
        have : E0 ++ E1 ++ E2 ++ E3 ++ E4 ++ E5 ++ rest = (E0 ++ E1 ++ E2 ++ E3 ++ E4) ++ (E5 ++ rest) := by simp
        rw [this]; exact drop_app _ _ _ (by simp; omega)
      rw [this, w7 he, ← hE5]; exact vbas_roundtrip _ r6 _
    · right
      have he' : hasAux h.classId = false := by simpa using he
      refine ⟨he', w8 he', ?_⟩
      rw [if_neg he] at hE5; rw [← hE5]; simp; omega

theorem encodeHeader_roundtrip (h : MsgHeader) (hr : h.InRange) (ctx : Ctx) (rest : List UInt8) :
    decodeHeader ((encodeHeader h ctx).1 ++ rest) ctx =
      (some (h.wire, (encodeHeader h ctx).1.length), (encodeHeader h ctx).2) := by
  have hd := (decodeHeaderFields_iff _ _ _ _).2
    (encodeWithIndicator_decodes h hr (decide (h.classId ≠ ctx.lastClass) || decide (h.csN ≠ ctx.lastCs))
      (decide (h.csN ≠ ctx.lastCs)) (by simp +contextual) ctx (by simp +contextual) (by simp) rest)
  unfold decodeHeader
  have hx : (encodeHeader h ctx).1 = encodeWithIndicator h (decide (h.classId ≠ ctx.lastClass) || decide (h.csN ≠ ctx.lastCs))
      (decide (h.csN ≠ ctx.lastCs)) := rfl
  rw [hx, hd]
  simp only [encodeHeader]
  unfold MsgHeader.wire; split <;> rfl

theorem encodeHeader_length (h : MsgHeader) (hr : h.InRange) (ctx : Ctx) :
    1 ≤ (encodeHeader h ctx).1.length ∧ (encodeHeader h ctx).1.length ≤ 60 := by
  have := encodeHeader_roundtrip h hr ctx []
  unfold decodeHeader at this
  split at this
  · simp at this
  · rename_i h' pos hd
    have hb := ((decodeHeaderFields_iff _ _ _ _).1 hd).bounds
    simp only [Prod.mk.injEq, Option.some.injEq] at this
    omega

theorem encodeHeader_head (h : MsgHeader) (hr : h.InRange) (ctx : Ctx) :
    ∃ b bs, (encodeHeader h ctx).1 = b :: bs ∧ b ≠ 0 := by
  unfold encodeHeader encodeWithIndicator
  simp only
  obtain ⟨b, bs, he, hb⟩ := encodeBinId_head h.inClassId
    (if (!(decide (h.classId ≠ ctx.lastClass) || decide (h.csN ≠ ctx.lastCs)) && !(decide (h.csN ≠ ctx.lastCs))) = true then 0x1
      else if ((decide (h.classId ≠ ctx.lastClass) || decide (h.csN ≠ ctx.lastCs)) && !(decide (h.csN ≠ ctx.lastCs))) = true then 0x2 else 0x3)
    h.isLast hr.2.2.1 (by split <;> (try split) <;> omega)
  rw [he]
  exact ⟨b, _, by simp only [List.cons_append]; rfl, hb⟩

end Verif.Jpip
