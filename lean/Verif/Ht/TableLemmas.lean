import Verif.Ht.Cleanup

/-!
# The coding tables of the HT cleanup pass

Checks of the encoder tables against the decoder tables, over every entry, and their lifting to
arbitrary continuations of the bit stream.
-/

namespace Verif.Ht

/-- VLC table of the encoder: for the initial line-pair or for the others. -/
def encVlc (first : Bool) : List (List Nat) := if first then encVlc0 else encVlc1
/-- VLC table of the decoder. -/
def decVlc (first : Bool) : List (List Nat) := if first then decVlc0 else decVlc1
/-- UVLC table of the encoder. -/
def encUvlc (first : Bool) : List (List Nat) := if first then encUvlc0 else encUvlc1
/-- UVLC table of the decoder. -/
def decUvlc (first : Bool) : List (List Nat) := if first then decUvlc0 else decUvlc1

/-- The decoder entry that belongs to an encoder entry `e` used for `rho` and `emb`. -/
def tval (e rho emb : Nat) : Nat :=
  (if emb ≠ 0 then 1 else 0) + 2 * ((e >>> 4) &&& 7) + 16 * rho + 256 * (emb &&& (e &&& 15)) + 4096 * (e &&& 15)

/-- Check of one encoder entry. -/
def vlcEntryOk (first : Bool) (ctx rho emb : Nat) : Bool :=
  let e := tab (encVlc first) (emb + 16 * rho + 256 * ctx)
  let len := (e >>> 4) &&& 7
  let cwd := e >>> 7
  decide (cwd < 2 ^ len) && decide ((e &&& 15) &&& rho = e &&& 15) &&
    decide (emb = 0 → e &&& 15 = 0) &&
    (if ctx = 0 ∧ rho = 0 then decide (e = 0)
     else (List.range (2 ^ (7 - len))).all fun k =>
      decide (tab (decVlc first) (cwd + 2 ^ len * k + 128 * ctx) = tval e rho emb))

/-- Check of a VLC table. -/
def vlcOk (first : Bool) : Bool :=
  (List.range 8).all fun ctx => (List.range 16).all fun rho => (List.range 16).all fun emb =>
    if emb &&& rho = emb then vlcEntryOk first ctx rho emb else true

theorem vlcOk_true : ∀ first, vlcOk first = true := by decide +kernel

theorem vlcEntry (first : Bool) {ctx rho emb : Nat} (hc : ctx < 8) (hr : rho < 16)
    (he : emb &&& rho = emb) : vlcEntryOk first ctx rho emb = true := by
  have hemb : emb < 16 := by
    rw [← he]; exact lt_of_le_of_lt Nat.and_le_right hr
  have h := vlcOk_true first
  simp only [vlcOk, List.all_eq_true, List.mem_range] at h
  have := h ctx hc rho hr emb hemb
  rwa [if_pos he] at this

theorem vlcEntry_facts (first : Bool) {ctx rho emb : Nat} (hc : ctx < 8) (hr : rho < 16)
    (he : emb &&& rho = emb) :
    let e := tab (encVlc first) (emb + 16 * rho + 256 * ctx)
    e >>> 7 < 2 ^ ((e >>> 4) &&& 7) ∧ (e &&& 15) &&& rho = e &&& 15 ∧ (emb = 0 → e &&& 15 = 0) ∧
      (ctx = 0 → rho = 0 → e = 0) := by
  have h := vlcEntry first hc hr he
  simp only [vlcEntryOk, Bool.and_eq_true, decide_eq_true_eq] at h
  obtain ⟨⟨⟨h1, h2⟩, h3⟩, h4⟩ := h
  refine ⟨h1, h2, h3, fun a b => ?_⟩
  rw [if_pos ⟨a, b⟩] at h4
  simpa using h4

theorem tval_fields {e rho emb : Nat} (hr : rho < 16) :
    (tval e rho emb >>> 4) % 16 = rho ∧ tval e rho emb % 2 = (if emb ≠ 0 then 1 else 0) ∧
      (tval e rho emb >>> 1) % 8 = (e >>> 4) &&& 7 ∧ (tval e rho emb >>> 12) = e &&& 15 ∧
      (tval e rho emb >>> 8) % 16 = emb &&& (e &&& 15) := by
  have h1 : (e >>> 4) &&& 7 ≤ 7 := Nat.and_le_right
  have h2 : e &&& 15 ≤ 15 := Nat.and_le_right
  have h3 : emb &&& (e &&& 15) ≤ 15 := le_trans Nat.and_le_right h2
  simp only [tval, Nat.shiftRight_eq_div_pow] at *
  generalize e / 2 ^ 4 &&& 7 = a at *
  generalize emb &&& (e &&& 15) = b at *
  generalize e &&& 15 = c at *
  split_ifs <;> omega

theorem vlcEntry_dec (first : Bool) {ctx rho emb : Nat} (hc : ctx < 8) (hr : rho < 16)
    (he : emb &&& rho = emb) (hne : ctx ≠ 0 ∨ rho ≠ 0) (v : Nat)
    (hv : v % 2 ^ ((tab (encVlc first) (emb + 16 * rho + 256 * ctx) >>> 4) &&& 7) =
      tab (encVlc first) (emb + 16 * rho + 256 * ctx) >>> 7) :
    tab (decVlc first) (v % 128 + 128 * ctx) =
      tval (tab (encVlc first) (emb + 16 * rho + 256 * ctx)) rho emb := by
  have h := vlcEntry first hc hr he
  simp only [vlcEntryOk, Bool.and_eq_true, decide_eq_true_eq] at h
  obtain ⟨_, h4⟩ := h
  rw [if_neg (by tauto), List.all_eq_true] at h4
  generalize tab (encVlc first) (emb + 16 * rho + 256 * ctx) = e at *
  have hlen : (e >>> 4) &&& 7 ≤ 7 := Nat.and_le_right
  generalize (e >>> 4) &&& 7 = len at *
  have hp : (128 : Nat) = 2 ^ len * 2 ^ (7 - len) := by
    rw [← pow_add, show len + (7 - len) = 7 by omega]; rfl
  have h1 : v % 128 = e >>> 7 + 2 ^ len * (v % 128 / 2 ^ len) := by
    have : v % 128 % 2 ^ len = e >>> 7 := by
      rw [← hv, hp]; exact Nat.mod_mul_right_mod v _ _
    rw [← this]; exact (Nat.mod_add_div _ _).symm
  have h2 : v % 128 / 2 ^ len < 2 ^ (7 - len) := by
    apply Nat.div_lt_of_lt_mul; rw [← hp]; omega
  have := h4 _ (List.mem_range.mpr h2)
  rw [decide_eq_true_eq, ← h1] at this
  exact this

/-! ## UVLC -/

/-- Index offset of the decoder's UVLC table. -/
def uvlcOff (first : Bool) (u0 u1 : Nat) : Nat :=
  (if u0 ≠ 0 then 64 else 0) + (if u1 ≠ 0 then 128 else 0) +
    (if first = true ∧ u0 ≠ 0 ∧ u1 ≠ 0 ∧ 2 < min u0 u1 then 64 else 0)

/-- Prefix and suffix lengths in a decoder entry. -/
def uvlcPre (r : Nat) : Nat := r &&& 7
@[inherit_doc uvlcPre]
def uvlcSuf (r : Nat) : Nat := (r >>> 3) &&& 15

/-- Check of one UVLC entry. -/
def uvlcEntryOk (first : Bool) (u0 u1 : Nat) : Bool :=
  let e := tab (encUvlc first) (u0 + 32 * u1)
  let len := (uvlcWord e).2
  let cwd := (uvlcWord e).1
  decide (cwd < 2 ^ len) && decide (len ≤ 16) &&
    (List.range (2 ^ (6 - len))).all fun k =>
      let r := tab (decUvlc first) ((cwd + 2 ^ len * k) % 64 + uvlcOff first u0 u1)
      decide (uvlcPre r + uvlcSuf r = len) &&
        decide (uvlcValues r (cwd / 2 ^ uvlcPre r % 2 ^ uvlcSuf r) = (u0, u1))

/-- Check of a UVLC table. -/
def uvlcOk (first : Bool) : Bool :=
  (List.range 32).all fun u0 => (List.range 32).all fun u1 => uvlcEntryOk first u0 u1

theorem uvlcOk_true : ∀ first, uvlcOk first = true := by decide +kernel

theorem uvlcEntry (first : Bool) {u0 u1 : Nat} (h0 : u0 < 32) (h1 : u1 < 32) :
    uvlcEntryOk first u0 u1 = true := by
  have h := uvlcOk_true first
  simp only [uvlcOk, List.all_eq_true, List.mem_range] at h
  exact h u0 h0 u1 h1

theorem uvlcEntry_facts (first : Bool) {u0 u1 : Nat} (h0 : u0 < 32) (h1 : u1 < 32) :
    let w := uvlcWord (tab (encUvlc first) (u0 + 32 * u1))
    w.1 < 2 ^ w.2 ∧ w.2 ≤ 16 := by
  have h := uvlcEntry first h0 h1
  simp only [uvlcEntryOk, Bool.and_eq_true, decide_eq_true_eq] at h
  exact h.1

theorem uvlcEntry_dec (first : Bool) {u0 u1 : Nat} (h0 : u0 < 32) (h1 : u1 < 32) (v : Nat)
    (hv : v % 2 ^ (uvlcWord (tab (encUvlc first) (u0 + 32 * u1))).2 =
      (uvlcWord (tab (encUvlc first) (u0 + 32 * u1))).1) :
    let r := tab (decUvlc first) (v % 64 + uvlcOff first u0 u1)
    uvlcPre r + uvlcSuf r = (uvlcWord (tab (encUvlc first) (u0 + 32 * u1))).2 ∧
      uvlcValues r (v / 2 ^ uvlcPre r % 2 ^ uvlcSuf r) = (u0, u1) := by
  have h := uvlcEntry first h0 h1
  simp only [uvlcEntryOk, Bool.and_eq_true, decide_eq_true_eq] at h
  obtain ⟨⟨_, _⟩, h4⟩ := h
  rw [List.all_eq_true] at h4
  generalize uvlcWord (tab (encUvlc first) (u0 + 32 * u1)) = w at *
  obtain ⟨cwd, len⟩ := w
  simp only at *
  have h1 : ∃ k, k < 2 ^ (6 - len) ∧ v % 64 = (cwd + 2 ^ len * k) % 64 := by
    rcases Nat.lt_or_ge 6 len with h6 | h6
    · refine ⟨0, by positivity, ?_⟩
      have hp : 2 ^ len = 64 * 2 ^ (len - 6) := by
        rw [show (64 : Nat) = 2 ^ 6 from rfl, ← pow_add]; congr 1; omega
      rw [← hv, hp, Nat.mul_zero, Nat.add_zero, Nat.mod_mul_right_mod]
    · have hp : (64 : Nat) = 2 ^ len * 2 ^ (6 - len) := by
        rw [← pow_add, show len + (6 - len) = 6 by omega]; rfl
      refine ⟨v % 64 / 2 ^ len, ?_, ?_⟩
      · apply Nat.div_lt_of_lt_mul; rw [← hp]; omega
      · have : v % 64 % 2 ^ len = cwd := by
          rw [← hv, hp]; exact Nat.mod_mul_right_mod v _ _
        rw [← this, Nat.mod_add_div, Nat.mod_mod]
  obtain ⟨k, hk, hk2⟩ := h1
  have := h4 k (List.mem_range.mpr hk)
  rw [← hk2] at this
  simp only [Bool.and_eq_true, decide_eq_true_eq] at this
  refine ⟨this.1, ?_⟩
  rw [← this.2]
  congr 1
  rw [← hv]
  obtain ⟨t1, _⟩ := this
  generalize tab (decUvlc first) (v % 64 + uvlcOff first u0 u1) = r at *
  generalize uvlcPre r = a at *
  generalize uvlcSuf r = b at *
  subst t1
  rw [pow_add, Nat.mod_mul_right_div_self, Nat.mod_mod]

end Verif.Ht
