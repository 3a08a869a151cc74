import Verif.Tactics
/-
Model of the packet-header bit writer and bit reader.
Source: /repo/source/core/codestream/codestream.hpp.
Bytes are `Nat` below 256; truncations to `uint8_t` are written out.
-/
namespace Verif.Packet

/-- codestream.hpp:376-382 `packet_header_writer` (`pos` is `buf.length`, see `flush`). -/
structure Writer where
  buf : List Nat := []
  tmp : Nat := 0
  last : Nat := 0
  bits : Nat := 8
  deriving DecidableEq

/-- codestream.hpp:401-412 `put_bit`. -/
def Writer.putBit (w : Writer) (b : Bool) : Writer :=
  let w1 : Writer :=
    if w.bits = 0 then
      { buf := w.buf ++ [w.tmp], tmp := 0, last := w.tmp, bits := if w.tmp = 0xFF then 7 else 8 }
    else w
  { w1 with bits := w1.bits - 1, tmp := (w1.tmp + (b.toNat <<< (w1.bits - 1))) % 256 }

def Writer.putBits (w : Writer) (bs : List Bool) : Writer := bs.foldl Writer.putBit w

/-- codestream.hpp:414-418 `put_Nbits`: most significant of the `n` low bits first. -/
def bitsOf (cwd : Nat) : Nat → List Bool
  | 0 => []
  | n + 1 => (cwd >>> n &&& 1 == 1) :: bitsOf cwd n

/-- codestream.hpp:385-389: the constructor writes one bit (non-empty packet). -/
def Writer.new : Writer := ({} : Writer).putBit true

/-- codestream.hpp:421-423: `for (int i = 0; i < bits; ++i) put_bit(0)` - `bits` itself shrinks during the
loop, so only about half of the padding bits are written explicitly. -/
def flushPad (w : Writer) (i : Nat) : Writer :=
  if i < w.bits then flushPad (w.putBit false) (i + 1) else w
termination_by w.bits - i
decreasing_by
  have : w.bits ≠ 0 := by omega
  simp only [Writer.putBit, this, if_false]
  omega

/-- codestream.hpp:420-437 `flush`: the finished buffer. -/
def Writer.flush (w : Writer) (useEPH : Bool) : List Nat :=
  let w := flushPad w 0
  w.buf ++ [w.tmp] ++ (if w.tmp = 0xFF then [0] else []) ++ (if useEPH then [0xFF, 0x92] else [])

/-- codestream.hpp:203-210: the bit-reading state of `buf_chain`.  `src` is what is left in the chain (the nodes
concatenated; see `Chain` in `Verif/Codestream` for the nodes themselves), `pos` counts the bytes read. -/
structure Reader where
  src : List Nat
  tmp : Nat := 0
  last : Nat := 0
  bits : Nat := 0

/-- codestream.hpp:292-304 `get_byte`: 0 when the source is exhausted. -/
def Reader.getByte (r : Reader) : Nat × Reader :=
  match r.src with
  | [] => (0, r)
  | b :: bs => (b, { r with src := bs })

/-- codestream.hpp:351-363 `get_bit`. -/
def Reader.getBit (r : Reader) : Bool × Reader :=
  let r1 : Reader :=
    if r.bits = 0 then
      let (b, r') := r.getByte
      { r' with tmp := b, bits := if r.last = 255 then 7 else 8, last := b }
    else r
  (r1.tmp >>> (r1.bits - 1) &&& 1 == 1, { r1 with bits := r1.bits - 1 })

/-- codestream.hpp:264-268 `check_last_FF` followed by 263 `flush_bits` (read_packet, coding_units.cpp:5445-5446). -/
def Reader.finish (r : Reader) : Reader :=
  let r := if r.tmp = 0xFF then r.getBit.2 else r
  { r with bits := 0 }

/-- Read `n` bits one at a time. -/
def Reader.getBits (r : Reader) : Nat → List Bool × Reader
  | 0 => ([], r)
  | n + 1 =>
    let (b, r1) := r.getBit
    let (bs, r2) := r1.getBits n
    (b :: bs, r2)

/-! ### Lemmas -/

/-- Value of a bit string placed at the top of a field of `cap` bits. -/
def packVal (cap : Nat) : List Bool → Nat
  | [] => 0
  | b :: bs => b.toNat * 2 ^ (cap - 1) + packVal (cap - 1) bs

/-- The byte-level format: fields of 8 bits, or 7 after 0xFF. -/
def pack (last : Nat) (bits : List Bool) : List Nat :=
  let cap := if last = 0xFF then 7 else 8
  if bits.length ≤ cap then
    packVal cap bits :: (if packVal cap bits = 0xFF then [0] else [])
  else packVal cap (bits.take cap) :: pack (packVal cap (bits.take cap)) (bits.drop cap)
termination_by bits.length
decreasing_by simp; split <;> omega

theorem cap_pos (v : Nat) : 1 ≤ if v = 0xFF then 7 else 8 := by split <;> omega

theorem packVal_lt (cap : Nat) (bs : List Bool) (h : bs.length ≤ cap) : packVal cap bs < 2 ^ cap := by
  induction bs generalizing cap with
  | nil => simp [packVal]
  | cons b bs ih =>
    obtain ⟨c, rfl⟩ : ∃ c, cap = c + 1 := ⟨cap - 1, by simp at h; omega⟩
    have := ih c (by simp at h; omega)
    simp only [packVal, Nat.add_sub_cancel]
    have h2 : 2 ^ (c + 1) = 2 * 2 ^ c := by rw [Nat.pow_succ]; omega
    cases b <;> simp <;> omega

theorem packVal_append (cap : Nat) (bs : List Bool) (b : Bool) (h : bs.length < cap) :
    packVal cap (bs ++ [b]) = packVal cap bs + b.toNat * 2 ^ (cap - bs.length - 1) := by
  induction bs generalizing cap with
  | nil => simp [packVal]
  | cons a bs ih =>
    simp only [List.length_cons] at h
    simp only [List.cons_append, packVal, List.length_cons]
    rw [ih (cap - 1) (by omega)]
    rw [show cap - 1 - bs.length - 1 = cap - (bs.length + 1) - 1 by omega]
    omega

/-- Bits of a packed field, read from the top. -/
theorem packVal_bit (cap : Nat) (bs : List Bool) (h : bs.length ≤ cap) (k : Nat) (hk : k < bs.length) :
    (packVal cap bs >>> (cap - 1 - k) &&& 1 == 1) = bs[k] := by
  rw [Nat.and_one_is_mod, Nat.shiftRight_eq_div_pow]
  induction bs generalizing cap k with
  | nil => simp at hk
  | cons b bs ih =>
    obtain ⟨c, rfl⟩ : ∃ c, cap = c + 1 := ⟨cap - 1, by simp at h; omega⟩
    simp only [List.length_cons] at h hk
    simp only [packVal, Nat.add_sub_cancel]
    have hlt := packVal_lt c bs (by omega)
    cases k with
    | zero =>
      simp only [Nat.sub_zero, List.getElem_cons_zero]
      rw [Nat.mul_comm, Nat.mul_add_div (by positivity), Nat.div_eq_of_lt hlt]
      cases b <;> simp
    | succ k =>
      simp only [List.getElem_cons_succ]
      rw [← ih c (by omega) k (by omega)]
      have e : b.toNat * 2 ^ c = 2 ^ (c - 1 - k) * (2 * (2 ^ k * b.toNat)) := by
        have : c = (c - 1 - k) + (1 + k) := by omega
        conv_lhs => rw [this, Nat.pow_add, Nat.pow_add]
        ring
      rw [show c - (k + 1) = c - 1 - k by omega, e, Nat.mul_add_div (by positivity), Nat.mul_add_mod]

/-! The writer implements `pack`. -/

/-- Writer state reached from a byte boundary with previous byte `last` after the bits `bs`. -/
def writerAt (buf : List Nat) (last : Nat) (bs : List Bool) : Writer :=
  { buf := buf, tmp := packVal (if last = 0xFF then 7 else 8) bs, last := last,
    bits := (if last = 0xFF then 7 else 8) - bs.length }

theorem putBit_room {buf : List Nat} {last : Nat} {bs : List Bool} {b : Bool}
    (h : bs.length < if last = 0xFF then 7 else 8) :
    (writerAt buf last bs).putBit b = writerAt buf last (bs ++ [b]) := by
  generalize hc : (if last = 0xFF then 7 else 8) = cap at h
  have hcap : cap ≤ 8 := by rw [← hc]; split <;> omega
  unfold writerAt Writer.putBit
  simp only [hc]
  have : ¬ cap - bs.length = 0 := by omega
  simp only [this, if_false]
  have hlt := packVal_lt cap (bs ++ [b]) (by simp; omega)
  have h256 : 2 ^ cap ≤ 256 := by
    calc 2 ^ cap ≤ 2 ^ 8 := Nat.pow_le_pow_right (by omega) hcap
      _ = 256 := by norm_num
  congr 1
  · rw [Nat.shiftLeft_eq, ← packVal_append cap bs b h, Nat.mod_eq_of_lt (by omega)]
  · simp; omega

theorem putBits_room {buf : List Nat} {last : Nat} (bs : List Bool) : ∀ (pre : List Bool),
    (pre.length + bs.length ≤ if last = 0xFF then 7 else 8) →
    (writerAt buf last pre).putBits bs = writerAt buf last (pre ++ bs) := by
  induction bs with
  | nil => intro pre _; simp [Writer.putBits]
  | cons b bs ih =>
    intro pre h
    simp only [List.length_cons] at h
    unfold Writer.putBits
    rw [List.foldl_cons, putBit_room (by omega)]
    have := ih (pre ++ [b]) (by simp; omega)
    unfold Writer.putBits at this
    rw [this]; simp

theorem putBit_full {buf : List Nat} {last : Nat} {bs : List Bool} {b : Bool}
    (h : bs.length = if last = 0xFF then 7 else 8) :
    (writerAt buf last bs).putBit b =
      writerAt (buf ++ [packVal (if last = 0xFF then 7 else 8) bs])
        (packVal (if last = 0xFF then 7 else 8) bs) [b] := by
  rw [show writerAt (buf ++ [packVal (if last = 0xFF then 7 else 8) bs])
        (packVal (if last = 0xFF then 7 else 8) bs) [b] =
      (writerAt (buf ++ [packVal (if last = 0xFF then 7 else 8) bs])
        (packVal (if last = 0xFF then 7 else 8) bs) []).putBit b by
    rw [putBit_room (bs := []) (cap_pos _)]; rfl]
  unfold writerAt Writer.putBit
  have h0 : (if last = 0xFF then 7 else 8) - bs.length = 0 := by omega
  simp only [h0, if_true, packVal, List.length_nil, Nat.sub_zero]
  generalize packVal (if last = 0xFF then 7 else 8) bs = v
  by_cases hv : v = 0xFF <;> simp [hv]

theorem flushPad_eq (buf : List Nat) (last : Nat) (bs : List Bool) (i : Nat) :
    (bs.length ≤ if last = 0xFF then 7 else 8) →
    (flushPad (writerAt buf last bs) i).buf = buf ∧
    (flushPad (writerAt buf last bs) i).tmp = packVal (if last = 0xFF then 7 else 8) bs := by
  generalize hm : (if last = 0xFF then 7 else 8) - bs.length = m
  induction m using Nat.strongRecOn generalizing bs i with
  | ind m ih =>
    intro hle
    rw [flushPad]
    by_cases hi : i < (writerAt buf last bs).bits
    · rw [if_pos hi]
      have hi' : i < (if last = 0xFF then 7 else 8) - bs.length := hi
      rw [putBit_room (by omega)]
      obtain ⟨h1, h2⟩ := ih (m - 1) (by omega) (bs ++ [false]) (i + 1) (by simp; omega) (by simp; omega)
      refine ⟨h1, ?_⟩
      rw [h2, packVal_append _ _ _ (by omega)]
      simp
    · rw [if_neg hi]; exact ⟨rfl, rfl⟩

theorem flush_writerAt (bs : List Bool) : ∀ (buf : List Nat) (last : Nat) (pre : List Bool),
    (pre.length ≤ if last = 0xFF then 7 else 8) → (pre ≠ [] ∨ bs = []) →
    ((writerAt buf last pre).putBits bs).flush false = buf ++ pack last (pre ++ bs) := by
  induction bs with
  | nil =>
    intro buf last pre h _
    unfold Writer.putBits Writer.flush
    obtain ⟨h1, h2⟩ := flushPad_eq buf last pre 0 h
    simp only [List.foldl_nil, h1, h2, List.append_nil]
    rw [pack]
    simp only [if_pos h]
    simp
  | cons b bs ih =>
    intro buf last pre h _
    unfold Writer.putBits
    rw [List.foldl_cons]
    by_cases hl : pre.length = if last = 0xFF then 7 else 8
    · rw [putBit_full hl]
      have := ih (buf ++ [packVal (if last = 0xFF then 7 else 8) pre])
        (packVal (if last = 0xFF then 7 else 8) pre) [b] (cap_pos _) (Or.inl (by simp))
      unfold Writer.putBits at this
      rw [this]
      conv_rhs => rw [pack]
      have hgt : ¬ (pre ++ b :: bs).length ≤ if last = 0xFF then 7 else 8 := by
        rw [← hl]; simp
      rw [if_neg hgt, List.take_left' hl, List.drop_left' hl]
      simp
    · rw [putBit_room (by omega)]
      have := ih buf last (pre ++ [b]) (by simp; omega) (Or.inl (by simp))
      unfold Writer.putBits at this
      rw [this]; simp

/-- The finished header is the packed form of the bits, the constructor's leading 1 included. -/
theorem writer_flush (bs : List Bool) : (Writer.new.putBits bs).flush false = pack 0 (true :: bs) := by
  have h := flush_writerAt bs [] 0 [true] (by simp) (Or.inl (by simp))
  have : Writer.new = writerAt [] 0 [true] := by decide
  rw [this, h]; simp

theorem flush_eph (w : Writer) : w.flush true = w.flush false ++ [0xFF, 0x92] := by
  unfold Writer.flush; simp

/-! The reader inverts `pack`. -/

theorem getBits_in_byte (cap : Nat) (bs : List Bool) (src : List Nat) (last : Nat) (hcap : bs.length ≤ cap)
    (n : Nat) : ∀ k, k + n ≤ bs.length →
    (Reader.getBits ⟨src, packVal cap bs, last, cap - k⟩ n) =
      ((bs.drop k).take n, ⟨src, packVal cap bs, last, cap - k - n⟩) := by
  induction n with
  | zero => intro k _; simp [Reader.getBits]
  | succ n ih =>
    intro k hk
    have hb : ¬ cap - k = 0 := by omega
    simp only [Reader.getBits, Reader.getBit, hb, if_false]
    have := ih (k + 1) (by omega)
    rw [show cap - (k + 1) = cap - k - 1 by omega] at this
    rw [this]
    rw [show cap - k - 1 = cap - 1 - k by omega, packVal_bit cap bs hcap k (by omega)]
    rw [show (bs.drop k).take (n + 1) = bs[k] :: (bs.drop (k + 1)).take n by
      rw [List.drop_eq_getElem_cons (by omega : k < bs.length)]; rfl]
    simp only [Prod.mk.injEq, true_and]
    congr 1
    omega

theorem getBits_add (r : Reader) (m n : Nat) :
    r.getBits (m + n) = ((r.getBits m).1 ++ ((r.getBits m).2.getBits n).1, ((r.getBits m).2.getBits n).2) := by
  induction m generalizing r with
  | zero => simp [Reader.getBits]
  | succ m ih =>
    rw [show m + 1 + n = (m + n) + 1 by omega]
    simp only [Reader.getBits]
    rw [ih]
    simp

/-- First bits of a field read from a byte boundary. -/
theorem getBits_boundary (b : Nat) (src : List Nat) (tmp last : Nat) (bs : List Bool) (n : Nat) (hn : 1 ≤ n)
    (hle : n ≤ bs.length) (hcap : bs.length ≤ if last = 255 then 7 else 8)
    (hb : b = packVal (if last = 255 then 7 else 8) bs) :
    Reader.getBits ⟨b :: src, tmp, last, 0⟩ n =
      (bs.take n, ⟨src, b, b, (if last = 255 then 7 else 8) - n⟩) := by
  obtain ⟨m, rfl⟩ : ∃ m, n = m + 1 := ⟨n - 1, by omega⟩
  have h := getBits_in_byte _ bs src b hcap (m + 1) 0 (by omega)
  rw [Nat.sub_zero, ← hb] at h
  have hne : ¬ (if last = 255 then 7 else 8) = 0 := by split <;> omega
  rw [← List.drop_zero (l := bs), ← h]
  simp only [Reader.getBits, Reader.getBit, Reader.getByte, if_true]
  simp [hne]

theorem pack_read (last : Nat) (bs : List Bool) (hne : bs ≠ []) (tail : List Nat) (tmp : Nat) :
    (Reader.getBits ⟨pack last bs ++ tail, tmp, last, 0⟩ bs.length).1 = bs ∧
    (Reader.getBits ⟨pack last bs ++ tail, tmp, last, 0⟩ bs.length).2.finish.src = tail ∧
    (Reader.getBits ⟨pack last bs ++ tail, tmp, last, 0⟩ bs.length).2.finish.last ≠ 255 ∧
    (Reader.getBits ⟨pack last bs ++ tail, tmp, last, 0⟩ bs.length).2.finish.bits = 0 := by
  generalize hl : bs.length = L
  induction L using Nat.strongRecOn generalizing bs last tmp with
  | ind L ih =>
    rw [pack]
    by_cases hle : bs.length ≤ if last = 0xFF then 7 else 8
    · rw [if_pos hle, List.cons_append, ← hl]
      have hpos : 1 ≤ bs.length := by
        have := List.length_pos_iff.2 hne; omega
      have h := getBits_boundary _ ((if packVal (if last = 255 then 7 else 8) bs = 0xFF then [0] else []) ++ tail)
        tmp last bs bs.length hpos le_rfl hle rfl
      rw [h]
      refine ⟨by simp, ?_⟩
      generalize hv : packVal (if last = 255 then 7 else 8) bs = v
      by_cases hff : v = 0xFF
      · -- all bits of an 8-bit field used
        have hcap8 : bs.length = if last = 255 then 7 else 8 := by
          by_contra hne'
          have hlt : bs.length < if last = 255 then 7 else 8 := by omega
          have h1 := packVal_append _ bs true hlt
          have h2 := packVal_lt (if last = 255 then 7 else 8) (bs ++ [true]) (by simp; omega)
          have h3 : 2 ^ (if last = 255 then 7 else 8) ≤ 256 := by split <;> norm_num
          have h4 : 1 ≤ 2 ^ ((if last = 255 then 7 else 8) - bs.length - 1) := Nat.one_le_two_pow
          simp only [Bool.toNat_true, one_mul] at h1
          omega
        simp [Reader.finish, hff, Reader.getBit, Reader.getByte, hcap8]
      · simp [Reader.finish, hff]
    · rw [if_neg hle]
      generalize hcap : (if last = 0xFF then 7 else 8) = cap at hle
      have hcap' : cap = 7 ∨ cap = 8 := by rw [← hcap]; split <;> simp
      have htl : (bs.take cap).length = cap := by simp; omega
      rw [List.cons_append, show L = cap + (L - cap) by omega, getBits_add]
      have h := getBits_boundary (packVal cap (bs.take cap))
        (pack (packVal cap (bs.take cap)) (bs.drop cap) ++ tail) tmp last (bs.take cap) cap (by omega) (by omega)
        (by rw [hcap]; omega) (by rw [hcap])
      rw [h]
      rw [hcap, Nat.sub_self]
      have := ih (L - cap) (by omega) (packVal cap (bs.take cap)) (bs.drop cap)
        (by intro h0; have := congrArg List.length h0; simp at this; omega) (packVal cap (bs.take cap))
        (by simp; omega)
      refine ⟨?_, this.2⟩
      rw [this.1]
      simp only [List.take_take, Nat.min_self, List.take_append_drop]

end Verif.Packet
