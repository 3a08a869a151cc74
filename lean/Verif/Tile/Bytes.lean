import Verif.Tile.PropsFits
import Verif.Ht.PropsBlock

/-!
Everything the tile encoder writes is a byte, whatever the parameters and samples.
-/

namespace Verif.Ht

theorem MsEnc.emitByte_bytes {s : MsEnc} (h : ∀ b ∈ s.buf, b < 256) : ∀ b ∈ s.emitByte.buf, b < 256 := by
  have h1 : s.creg &&& 0x7F < 256 := lt_of_le_of_lt Nat.and_le_right (by decide)
  have h2 : s.creg &&& 0xFF < 256 := lt_of_le_of_lt Nat.and_le_right (by decide)
  unfold MsEnc.emitByte
  split <;> intro b hb <;> rcases List.mem_append.1 hb with hb | hb
  · exact h b hb
  · rw [List.mem_singleton.1 hb]; exact h1
  · exact h b hb
  · rw [List.mem_singleton.1 hb]; exact h2

theorem MsEnc.emitDword_bytes {s : MsEnc} (h : ∀ b ∈ s.buf, b < 256) : ∀ b ∈ s.emitDword.buf, b < 256 := by
  have h2 : ∀ x, x &&& 0xFF < 256 := fun x => lt_of_le_of_lt Nat.and_le_right (by decide)
  unfold MsEnc.emitDword
  split
  · intro b hb
    rcases List.mem_append.1 hb with hb | hb
    · exact h b hb
    · simp only [List.mem_cons, List.not_mem_nil, or_false] at hb
      rcases hb with rfl | rfl | rfl | rfl <;> exact h2 _
  · exact emitByte_bytes (emitByte_bytes (emitByte_bytes (emitByte_bytes h)))

theorem MsEnc.drain_bytes (n : Nat) : ∀ {s : MsEnc}, (∀ b ∈ s.buf, b < 256) → ∀ b ∈ (MsEnc.drain n s).buf, b < 256 := by
  induction n with
  | zero => intro s h; exact h
  | succ n ih =>
    intro s h
    unfold MsEnc.drain
    split
    · exact ih (emitDword_bytes h)
    · exact h

theorem MsEnc.flush_bytes (n : Nat) : ∀ {s : MsEnc}, (∀ b ∈ s.buf, b < 256) → ∀ b ∈ (MsEnc.flushBytes n s).buf, b < 256 := by
  induction n with
  | zero => intro s h; exact h
  | succ n ih =>
    intro s h
    unfold MsEnc.flushBytes
    split_ifs <;> first | exact h | exact ih (emitByte_bytes h)

theorem msEncode_bytes (fs : List (Nat × Nat × Nat)) : ∀ b ∈ msEncode fs, b < 256 := by
  unfold msEncode MsEnc.term
  have h1 : ∀ (fs : List (Nat × Nat × Nat)) (s : MsEnc), (∀ b ∈ s.buf, b < 256) →
      ∀ b ∈ (fs.foldl (fun s f => s.emit f.1 f.2.1 f.2.2) s).buf, b < 256 := by
    intro fs
    induction fs with
    | nil => intro s h; exact h
    | cons f fs ih =>
      intro s h
      refine ih _ ?_
      unfold MsEnc.emit
      exact MsEnc.drain_bytes _ h
  have h2 := MsEnc.flush_bytes (fs.foldl (fun s f => s.emit f.1 f.2.1 f.2.2) MsEnc.init).ctreg
    (h1 fs MsEnc.init (by intro b hb; simp [MsEnc.init] at hb))
  generalize MsEnc.flushBytes _ _ = s at h2
  unfold MsEnc.finish
  simp only
  have h3 : ∀ x, ∀ b ∈ s.buf ++ [x % 256], b < 256 := by
    intro x b hb
    rcases List.mem_append.1 hb with hb | hb
    · exact h2 b hb
    · rw [List.mem_singleton.1 hb]; exact Nat.mod_lt _ (by decide)
  split_ifs <;> first | exact h2 | exact h3 _ | exact fun b hb => h2 b (List.mem_of_mem_dropLast hb)

theorem assembleCup_bytes {ms seg d : List Nat} (h1 : ∀ b ∈ ms, b < 256) (h2 : ∀ b ∈ seg, b < 256)
    (h : assembleCup ms seg = some d) : ∀ b ∈ d, b < 256 := by
  unfold assembleCup at h
  simp only at h
  split_ifs at h
  obtain rfl := Option.some.inj h
  have h3 : ∀ b ∈ ms ++ seg, b < 256 := fun b hb => (List.mem_append.1 hb).elim (h1 b) (h2 b)
  have h4 : ∀ b ∈ (ms ++ seg).set ((ms ++ seg).length - 1) (seg.length >>> 4 % 256), b < 256 := by
    intro b hb
    rcases List.mem_or_eq_of_mem_set hb with hb | rfl
    · exact h3 b hb
    · exact Nat.mod_lt _ (by decide)
  intro b hb
  rcases List.mem_or_eq_of_mem_set hb with hb | rfl
  · exact h4 b hb
  · exact Nat.or_lt_two_pow (n := 8) (lt_of_le_of_lt Nat.and_le_right (by decide)) (lt_of_le_of_lt Nat.and_le_right (by decide))

/-- A cleanup segment consists of bytes. -/
theorem encodeBlock_bytes {w h : Nat} {c : Nat → Nat → Int} {d : List Nat} (he : encodeBlock w h c = some d) :
    ∀ b ∈ d, b < 256 := by
  unfold encodeBlock at he
  split_ifs at he
  · unfold Enc.finish at he
    generalize encBlock _ _ _ = st at he
    obtain ⟨vlc, bs, e1, i1⟩ := VlcInv.init.emitAll st.vlc
    rw [e1] at he
    simp only [Option.bind_eq_bind, Option.bind_some] at he
    obtain ⟨seg, e2, e3⟩ := Option.bind_eq_some_iff.mp he
    exact assembleCup_bytes (msEncode_bytes _) (termMelVlc_spec (melEncode_inv st.mel) i1 e2).1.bytes e3
  · obtain rfl := Option.some.inj he
    intro b hb; simp at hb

end Verif.Ht

namespace Verif.Packet

theorem encPacket_bytes (e : Bool) (bands : List EncBand) : ∀ b ∈ encPacket e bands, b < 256 := by
  unfold encPacket
  cases e with
  | false => exact (C21_no_marker _).1
  | true =>
    intro b hb
    rw [flush_eph] at hb
    rcases List.mem_append.1 hb with hb | hb
    · exact (C21_no_marker _).1 b hb
    · simp only [List.mem_cons, List.not_mem_nil, or_false] at hb
      rcases hb with rfl | rfl <;> decide

theorem writePackets_bytes {sop eph : Bool} : ∀ (ps : List (List CodedBand)) (seq : Nat),
    (∀ p ∈ ps, ∀ B ∈ p, ∀ k ∈ B.blocks, ∀ b ∈ k.data, b < 256) → ∀ b ∈ writePackets sop eph seq ps, b < 256 := by
  intro ps
  induction ps with
  | nil => intro seq _ b hb; simp [writePackets] at hb
  | cons p ps ih =>
    intro seq h b hb
    rw [writePackets] at hb
    rcases List.mem_append.1 hb with hb | hb
    · unfold writePacket at hb
      rcases List.mem_append.1 hb with hb | hb
      · rcases List.mem_append.1 hb with hb | hb
        · unfold sopOf at hb
          split at hb
          · simp only [List.mem_cons, List.not_mem_nil, or_false] at hb
            rcases hb with rfl | rfl | rfl | rfl | rfl | rfl <;> omega
          · simp at hb
        · exact encPacket_bytes _ _ b hb
      · unfold bodyOf at hb
        obtain ⟨B, hB, hb⟩ := List.mem_flatMap.1 hb
        obtain ⟨k, hk, hb⟩ := List.mem_flatMap.1 hb
        split at hb
        · exact h p List.mem_cons_self B hB k hk b (List.mem_of_mem_take hb)
        · simp at hb
    · exact ih _ (fun q hq => h q (List.mem_cons_of_mem _ hq)) b hb

end Verif.Packet

namespace Verif.Tile.Pipe

open Verif.Packet (CodedBlock CodedBand)

/-- A tile-part consists of bytes. -/
theorem encodeTile_bytes {C : Coding} {img : Nat → List (List Int)} {bytes : List Nat} (h : encodeTile C img = some bytes) :
    ∀ b ∈ bytes, b < 256 := by
  unfold encodeTile at h
  obtain ⟨pkts, -, h⟩ := Option.bind_eq_some_iff.1 h
  obtain ⟨coded, hc, h⟩ := Option.bind_eq_some_iff.1 h
  obtain rfl := Option.some.inj h
  refine Packet.writePackets_bytes _ _ fun p hp B hB k hk => ?_
  obtain ⟨q, -, hq⟩ := mapM_mem hc hp
  obtain ⟨b, -, hb⟩ := mapM_mem hq hB
  unfold codedBand at hb
  obtain ⟨rows, -, hb⟩ := Option.bind_eq_some_iff.1 hb
  obtain ⟨mb, -, hb⟩ := Option.bind_eq_some_iff.1 hb
  obtain ⟨blocks, hbl, hb⟩ := Option.bind_eq_some_iff.1 hb
  obtain rfl := Option.some.inj hb
  obtain ⟨i, -, hi⟩ := mapM_mem hbl hk
  unfold codedBlock at hi
  obtain ⟨d, hd, rfl⟩ := Option.map_eq_some_iff.1 hi
  exact Ht.encodeBlock_bytes hd

theorem encodePicture_bytes {P : Picture} {img : Nat → List Int} {bodies : List (List Nat)}
    (h : encodePicture P img = some bodies) : bodies.length = P.tiles ∧ ∀ l ∈ bodies, ∀ b ∈ l, b < 256 := by
  unfold encodePicture at h
  split_ifs at h
  refine ⟨by rw [mapM_length h, List.length_range], fun l hl => ?_⟩
  obtain ⟨t, -, ht⟩ := mapM_mem h hl
  obtain ⟨s, -, hs⟩ := Option.bind_eq_some_iff.1 ht
  exact encodeTile_bytes hs

end Verif.Tile.Pipe
