import Verif.Ebcot.MqRound
/-
C53, C54: the MQ arithmetic decoder.

`buf` is the memory the decoder may read, a list of bytes; reading anywhere else is the outcome `.oob`, a value that does not fit
the `int32_t` registers is `.overflow`, an index outside of the tables `.index`, a negative register or shift count `.negative`.
Context states are valid (`CtxOk`) if they are rows of the state table and the more probable symbols are bits: that is what
`init_states_for_all_contexts` sets and what every call of `decode` leaves.
-/
namespace Verif.Ebcot

/-- What `init_states_for_all_contexts` sets is valid. -/
theorem initStates_ok (s : Mq) : CtxOk (initStates s).sigma (initStates s).mps := by
  intro k
  simp only [initStates]
  refine ⟨?_, by omega⟩
  split_ifs <;> omega

/-- C53, any bytes. Whatever the bytes of the segment and whatever the (legal) labels asked for, `init` followed by any number of
calls of `decode` gives a bit for each call, with the registers where they should be — the interval register normalised, the reading
position in the segment, the context states valid —, or ends with an overflow of the registers. No read leaves the buffer, no index the tables,
no shift count is negative, the renormalisation loop ends. -/
theorem C53_mq_any_bytes (buf : List Nat) (s : Mq) (pos len : Nat) (ks : List Nat) (hlen : pos + len ≤ buf.length) (hby : ∀ b ∈ buf, b < 256)
    (hs : CtxOk s.sigma s.mps) (hk : ∀ k ∈ ks, k < 19) :
    (mqInit buf s pos len false).bind (fun s0 => decodeAll buf s0 ks) = .error .overflow ∨
    ∃ bits s', (mqInit buf s pos len false).bind (fun s0 => decodeAll buf s0 ks) = .ok (bits, s') ∧
      bits.length = ks.length ∧ (∀ b ∈ bits, b ≤ 1) ∧ (pos ≤ s'.L ∧ s'.L ≤ pos + len) ∧ (2 ^ 23 ≤ s'.A ∧ s'.A < 2 ^ 24) ∧
      CtxOk s'.sigma s'.mps := by
  rcases (mqInit_safe hlen hby hs).bind (fun s0 h0 => decodeAll_safe hlen hby ks h0 hk) with ⟨h, -⟩ | ⟨⟨bits, s'⟩, h, h1, h2, h3⟩
  · exact Or.inl h
  · exact Or.inr ⟨bits, s', h, h1, h2, ⟨h3.inside.lo, h3.inside.hi⟩, ⟨h3.alo, h3.ahi⟩, h3.ctx⟩

/-- C53, no overflow. If no byte of the segment between 0x80 and 0x8F follows a 0xFF, the registers do not overflow either. -/
theorem C53_mq_no_overflow (buf : List Nat) (s : Mq) (pos len : Nat) (ks : List Nat) (hlen : pos + len ≤ buf.length) (hby : ∀ b ∈ buf, b < 256)
    (hs : CtxOk s.sigma s.mps) (hk : ∀ k ∈ ks, k < 19)
    (hc : ∀ i b, pos ≤ i → i + 1 < pos + len → buf[i]? = some 0xFF → buf[i + 1]? = some b → b < 0x80 ∨ 0x8F < b) :
    ∃ bits s', (mqInit buf s pos len false).bind (fun s0 => decodeAll buf s0 ks) = .ok (bits, s') ∧
      bits.length = ks.length ∧ (∀ b ∈ bits, b ≤ 1) ∧ s'.C < s'.A := by
  rcases (mqInit_safe hlen hby hs).bind (fun s0 h0 => decodeAll_safe hlen hby ks h0 hk) with ⟨-, h⟩ | ⟨⟨bits, s'⟩, h, h1, h2, h3⟩
  · exact absurd hc h
  · exact ⟨bits, s', h, h1, h2, (h3.below hc).1⟩

/-- C53, only the segment. The bytes outside of the segment have no influence at all. -/
theorem C53_mq_only_segment (buf buf' : List Nat) (s : Mq) (pos len : Nat) (ks : List Nat)
    (h : ∀ i, pos ≤ i → i < pos + len → buf[i]? = buf'[i]?) :
    (mqInit buf s pos len false).bind (fun s0 => decodeAll buf s0 ks) =
      (mqInit buf' s pos len false).bind (fun s0 => decodeAll buf' s0 ks) :=
  ((mqInit_agree h s).bind fun s0 h0 => decodeAll_agree h ks h0).1

/-- C53, raw segments: `init` with `is_bypass`, then any number of calls of `get_raw_symbol`. -/
def rawAll (buf : List Nat) : Nat → Mq → Except MqErr (List Nat × Mq)
  | 0, s => .ok ([], s)
  | n + 1, s => (rawSymbol buf s).bind fun r => (rawAll buf n r.2).map fun q => (r.1 :: q.1, q.2)

theorem C53_raw_any_bytes (buf : List Nat) (s : Mq) (pos len n : Nat) (hlen : pos + len ≤ buf.length) :
    ∃ bits s', (mqInit buf s pos len true).bind (rawAll buf n) = .ok (bits, s') ∧ bits.length = n ∧ (∀ b ∈ bits, b ≤ 1) ∧
      (pos ≤ s'.L ∧ s'.L ≤ pos + len) ∧ s'.sigma = s.sigma ∧ s'.mps = s.mps := by
  obtain ⟨s0, e0, r0, -, -, -, i0, m0⟩ := raw_init buf pos len s
  rw [e0]
  simp only [Except.bind]
  rw [← i0, ← m0]
  clear e0 i0 m0
  induction n generalizing s0 with
  | zero => exact ⟨[], s0, rfl, rfl, by simp, ⟨r0.lo, r0.hi⟩, rfl, rfl⟩
  | succ n ih =>
    obtain ⟨b, s1, e1, hb, r1, i1, m1⟩ := rawSymbol_safe hlen r0
    obtain ⟨bits, s2, e2, l2, b2, h2, i2, m2⟩ := ih s1 r1
    refine ⟨b :: bits, s2, ?_, by simp [l2], ?_, h2, i2.trans i1, m2.trans m1⟩
    · simp only [rawAll, e1, Except.bind, e2, Except.map]
    · intro x hx
      rcases List.mem_cons.1 hx with rfl | hx
      · exact hb
      · exact b2 x hx

/-- Two bytes that end the decoder: behind the 0xFF the 0x8F is not a marker, and carries. -/
def carryBytes : List Nat := [0xFF, 0x8F]

/-- C53 fails without the condition on carries: from the initial states, asking 20 times for label 18 drives `C` out of `int32_t`. -/
theorem C53_carry_overflows :
    (mqInit carryBytes (initStates mqNew) 0 2 false).bind (fun s0 => (decodeAll carryBytes s0 (List.replicate 20 18)).map Prod.fst) =
      .error .overflow := by
  decide +kernel

/-- The hypotheses of `C53_mq_no_overflow` on a segment with a marker behind a 0xFF. -/
example : ∃ bits s', (mqInit [7, 0x12, 0xFF, 0x7F, 0xFF, 0x90, 1] (initStates mqNew) 1 5 false).bind
    (fun s0 => decodeAll [7, 0x12, 0xFF, 0x7F, 0xFF, 0x90, 1] s0 [0, 17, 18, 18, 9, 9, 9]) = .ok (bits, s') ∧
      bits.length = 7 ∧ (∀ b ∈ bits, b ≤ 1) ∧ s'.C < s'.A := by
  refine C53_mq_no_overflow _ _ 1 5 _ (by decide) (by decide) (initStates_ok _) (by decide) ?_
  intro i b h1 h2 h3 h4
  have : i = 1 ∨ i = 2 ∨ i = 3 ∨ i = 4 := by omega
  rcases this with rfl | rfl | rfl | rfl <;> simp at h3 h4 <;> omega

/-- C54. The decoder inverts the MQ encoder of the standard. `xs` is any sequence of decisions, each a context label and a bit; the
standard's encoder, started from any valid context states, codes it into a codeword segment (`Std.segment`). Wherever the segment is in the
buffer and whatever surrounds it, `init` on the segment followed by `decode` with the same labels gives the same bits, and leaves the
context states that the encoder ends with (from which the next segment of the code-block is coded). -/
theorem C54_mq_roundtrip (pre post : List Nat) (s : Mq) (xs : List (Nat × Nat)) (hs : CtxOk s.sigma s.mps)
    (hx : ∀ x ∈ xs, x.1 < 19 ∧ x.2 ≤ 1) :
    ∃ s0 s1, mqInit (pre ++ Std.segment s.sigma s.mps xs ++ post) s pre.length (Std.segment s.sigma s.mps xs).length false = .ok s0 ∧
      decodeAll (pre ++ Std.segment s.sigma s.mps xs ++ post) s0 (xs.map Prod.fst) = .ok (xs.map Prod.snd, s1) ∧
      s1.sigma = (Std.encodeAll (Std.initEnc s.sigma s.mps) xs).I ∧ s1.mps = (Std.encodeAll (Std.initEnc s.sigma s.mps) xs).MPS ∧
      CtxOk s1.sigma s1.mps := by
  obtain ⟨s0, e0, h0⟩ := Reads.init pre post s hs xs hx
  obtain ⟨s1, e1, h1⟩ := Reads.all (ys := []) (by rwa [List.append_nil])
  obtain ⟨i, m, c⟩ := h1.done
  exact ⟨s0, s1, e0, e1, i, m, by rw [i, m]; exact c⟩

/-- C54, labels that depend on what was decoded before: the decoder asks `next` for the label of the next decision, given the bits so far.
If the decisions were made with the same `next`, the bits come back. -/
def decodeWith (buf : List Nat) (next : List Nat → Nat) : Nat → List Nat → Mq → Except MqErr (List Nat × Mq)
  | 0, acc, s => .ok (acc, s)
  | n + 1, acc, s => (decode buf s (next acc)).bind fun r => decodeWith buf next n (acc ++ [r.1]) r.2

/-- The decisions that an encoder with the context rule `next` makes for the bits `bs`. -/
def decisions (next : List Nat → Nat) : List Nat → List Nat → List (Nat × Nat)
  | _, [] => []
  | acc, b :: bs => (next acc, b) :: decisions next (acc ++ [b]) bs

theorem C54_mq_adaptive_labels (pre post : List Nat) (s : Mq) (next : List Nat → Nat) (bs : List Nat) (hs : CtxOk s.sigma s.mps)
    (hn : ∀ l, next l < 19) (hx : ∀ b ∈ bs, b ≤ 1) :
    let cod := Std.segment s.sigma s.mps (decisions next [] bs)
    ∃ s1, (mqInit (pre ++ cod ++ post) s pre.length cod.length false).bind (decodeWith (pre ++ cod ++ post) next bs.length []) =
      .ok (bs, s1) := by
  have hd : ∀ bs acc, (∀ b ∈ bs, b ≤ 1) → ∀ x ∈ decisions next acc bs, x.1 < 19 ∧ x.2 ≤ 1 := by
    intro bs
    induction bs with
    | nil => intro acc _ x hx; simp [decisions] at hx
    | cons b bs ih =>
      intro acc hb x hx
      rcases List.mem_cons.1 hx with rfl | hx
      · exact ⟨hn _, hb b (List.mem_cons_self ..)⟩
      · exact ih _ (fun b h => hb b (List.mem_cons_of_mem _ h)) x hx
  obtain ⟨s0, e0, h0⟩ := Reads.init pre post s hs _ (hd bs [] hx)
  simp only
  rw [e0]
  simp only [Except.bind]
  have go : ∀ bs acc d fin buf, Reads buf d (decisions next acc bs) fin → ∃ s1, decodeWith buf next bs.length acc d = .ok (acc ++ bs, s1) := by
    intro bs
    induction bs with
    | nil => intro acc d fin buf _; exact ⟨d, by rw [List.append_nil]; rfl⟩
    | cons b bs ih =>
      intro acc d fin buf h
      obtain ⟨d1, e1, h1⟩ := Reads.step h
      obtain ⟨s1, e2⟩ := ih _ _ _ _ h1
      refine ⟨s1, ?_⟩
      simp only [List.length_cons, decodeWith, e1, Except.bind, e2, List.append_assoc, List.singleton_append]
  obtain ⟨s1, h1⟩ := go bs [] s0 _ _ h0
  exact ⟨s1, by rw [h1, List.nil_append]⟩

/-- The bits of a raw segment, most significant first; the first bit of a byte behind 0xFF (`prev`) is left out. -/
def rawBits (prev : Nat) : List Nat → List Nat
  | [] => []
  | b :: l => (List.range (if prev = 0xFF then 7 else 8)).map (fun i => b / 2 ^ ((if prev = 0xFF then 7 else 8) - 1 - i) % 2) ++ rawBits b l

theorem rawAll_reads {buf : List Nat} {pos len : Nat} (hlen : pos + len ≤ buf.length) : ∀ (n : Nat) (s : Mq), RawInv buf pos len s → ∃ s',
    rawAll buf n s = .ok ((List.range n).map (fun k =>
      ((List.range s.t).map (fun i => s.T / 2 ^ (s.t - 1 - i) % 2) ++ rawBits s.T ((buf.drop s.L).take (pos + len - s.L))).getD k 1), s')
  | 0, s, _ => ⟨s, rfl⟩
  | n + 1, s, h => by
    obtain ⟨b, s1, e1, -, r1, -, -⟩ := rawSymbol_safe hlen h
    obtain ⟨s2, e2⟩ := rawAll_reads hlen n s1 r1
    refine ⟨s2, ?_⟩
    simp only [rawAll, e1, Except.bind, e2, Except.map]
    congr 2
    rw [List.range_succ_eq_map, List.map_cons, List.map_map]
    have hcons : ∀ (T t : Nat), 0 < t → (List.range t).map (fun i => T / 2 ^ (t - 1 - i) % 2) =
        (T / 2 ^ (t - 1) % 2) :: (List.range (t - 1)).map (fun i => T / 2 ^ (t - 1 - 1 - i) % 2) := by
      intro T t ht
      obtain ⟨t, rfl⟩ : ∃ u, t = u + 1 := ⟨t - 1, by omega⟩
      rw [List.range_succ_eq_map, List.map_cons, List.map_map]
      congr 1
      refine List.map_congr_left fun i _ => ?_
      simp only [Function.comp_apply]
      congr 3; omega
    have hl1 := h.hi
    unfold rawSymbol at e1
    by_cases c : s.t = 0
    · rw [if_pos c] at e1
      by_cases c2 : s.L = s.Lmax
      · rw [if_pos c2] at e1
        obtain ⟨rfl, rfl⟩ := Prod.mk.inj (Except.ok.inj e1)
        have : pos + len - s.L = 0 := by rw [c2, h.lmax]; omega
        dsimp only
        rw [c, this, List.take_zero]
        refine List.cons_eq_cons.mpr ⟨by simp [rawBits], List.map_congr_left fun k _ => ?_⟩
        simp only [rawBits, List.append_nil, List.range_zero, List.map_nil, List.getD_eq_getElem?_getD, List.getElem?_nil, Option.getD_none,
          Function.comp_apply]
        rcases Nat.lt_or_ge k 7 with hk | hk
        · rw [List.getElem?_map, List.getElem?_range hk]
          have : ∀ k < 7, 255 / 2 ^ (8 - 1 - 1 - k) % 2 = 1 := by decide
          exact this k hk
        · rw [List.getElem?_eq_none (by simpa using hk)]; rfl
      · rw [if_neg c2] at e1
        have hlt : s.L < buf.length := by rw [h.lmax] at c2; omega
        have hrd : rdByte buf s.L = .ok buf[s.L] := by simp only [rdByte, List.getElem?_eq_getElem hlt]
        rw [hrd] at e1
        obtain ⟨rfl, rfl⟩ := Prod.mk.inj (Except.ok.inj e1)
        dsimp only
        have hd : (buf.drop s.L).take (pos + len - s.L) = buf[s.L] :: (buf.drop (s.L + 1)).take (pos + len - (s.L + 1)) := by
          rw [List.drop_eq_getElem_cons hlt, show pos + len - s.L = pos + len - (s.L + 1) + 1 by rw [h.lmax] at c2; omega, List.take_succ_cons]
        rw [c, hd, rawBits, List.range_zero, List.map_nil, List.nil_append, hcons buf[s.L] (if s.T = 0xFF then 7 else 8) (by split_ifs <;> omega)]
        exact List.cons_eq_cons.mpr ⟨rfl, List.map_congr_left fun k _ => rfl⟩
    · rw [if_neg c] at e1
      obtain ⟨rfl, rfl⟩ := Prod.mk.inj (Except.ok.inj e1)
      dsimp only
      rw [hcons s.T s.t (by omega)]
      exact List.cons_eq_cons.mpr ⟨rfl, List.map_congr_left fun k _ => rfl⟩

/-- C53, raw segments, exactly: `get_raw_symbol` delivers the bits of the segment without the stuffed ones, and ones behind its end. -/
theorem C53_raw_symbols (buf : List Nat) (s : Mq) (pos len n : Nat) (hlen : pos + len ≤ buf.length) :
    ∃ s', (mqInit buf s pos len true).bind (rawAll buf n) =
      .ok ((List.range n).map fun k => (rawBits 0 ((buf.drop pos).take len)).getD k 1, s') := by
  obtain ⟨s0, e0, r0, h1, h2, h3, -⟩ := raw_init buf pos len s
  obtain ⟨s', e⟩ := rawAll_reads hlen n s0 r0
  rw [h1, h2, h3, Nat.add_sub_cancel_left] at e
  rw [e0]
  exact ⟨s', by simpa [Except.bind] using e⟩

/-- C54, raw segments: the decoder inverts the packing of raw bits with bit stuffing. -/
theorem C54_raw_roundtrip (pre post : List Nat) (s : Mq) (bits : List Nat) (h : ∀ b ∈ bits, b ≤ 1) :
    ∃ s1, (mqInit (pre ++ Std.rawPack false bits ++ post) s pre.length (Std.rawPack false bits).length true).bind
      (rawAll (pre ++ Std.rawPack false bits ++ post) bits.length) = .ok (bits, s1) := by
  obtain ⟨s0, e0, r0, -, -⟩ := RawReads.init pre post s bits h
  rw [e0]
  simp only [Except.bind]
  clear e0 h
  generalize pre ++ Std.rawPack false bits ++ post = buf at r0
  induction bits generalizing s0 with
  | nil => exact ⟨s0, rfl⟩
  | cons b bits ih =>
    obtain ⟨s1, e1, r1, -, -⟩ := r0.step
    obtain ⟨s2, e2⟩ := ih s1 r1
    exact ⟨s2, by simp only [List.length_cons, rawAll, e1, Except.bind, e2, Except.map]⟩

/-- Seven decisions in four contexts. -/
def sampleDecisions : List (Nat × Nat) := [(0, 0), (17, 1), (18, 0), (18, 1), (9, 1), (0, 1), (5, 0)]

/-- C54 on a small sequence; what the standard's encoder makes of it. -/
example : Std.segment (initStates mqNew).sigma (initStates mqNew).mps sampleDecisions = [0x0F, 0xA3] := by
  decide +kernel

example : ∃ s0 s1, mqInit ([1, 2] ++ Std.segment (initStates mqNew).sigma (initStates mqNew).mps sampleDecisions ++ [9]) (initStates mqNew) 2
      (Std.segment (initStates mqNew).sigma (initStates mqNew).mps sampleDecisions).length false = .ok s0 ∧
    decodeAll ([1, 2] ++ Std.segment (initStates mqNew).sigma (initStates mqNew).mps sampleDecisions ++ [9]) s0 [0, 17, 18, 18, 9, 0, 5] =
      .ok ([0, 1, 0, 1, 1, 1, 0], s1) := by
  obtain ⟨s0, s1, h0, h1, -⟩ := C54_mq_roundtrip [1, 2] [9] (initStates mqNew) sampleDecisions (initStates_ok _) (by decide)
  exact ⟨s0, s1, h0, h1⟩

/-- A raw segment with a stuffed bit: nine ones take two bytes. -/
example : Std.rawPack false [1, 1, 1, 1, 1, 1, 1, 1, 1] = [0xFF, 0x40] := by decide +kernel

/-- Seven bits of the byte behind 0xFF, then ones. -/
example : (List.range 17).map (fun k => (rawBits 0 [0xFF, 0x25]).getD k 1) = [1, 1, 1, 1, 1, 1, 1, 1, 0, 1, 0, 0, 1, 0, 1, 1, 1] := by decide +kernel

end Verif.Ebcot
