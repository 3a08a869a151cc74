import Verif.Rtp.Parser
import Verif.Rtp.FrameSpec

/-!
# RTP packet parsing (C17)

The layouts of RFC 3550 and RFC 9828 are written down as encoders, independent of the parsers: most significant field
first.
-/

namespace Verif.Rtp

/-- Two bytes, most significant first. -/
def be16 (n : Nat) : List Nat := [n / 256, n % 256]

/-- Four bytes, most significant first. -/
def be32 (n : Nat) : List Nat := [n / 2 ^ 24, n / 2 ^ 16 % 256, n / 2 ^ 8 % 256, n % 256]

/-- All elements are bytes. -/
def Bytes (d : List Nat) : Prop := ∀ b ∈ d, b < 256

/-- The header extension of RFC 3550 section 5.3.1: two profile bytes, the length in words, the words. -/
structure Extension where
  profile : Nat × Nat
  body : List Nat

/-- The length of the extension is a number of words that fits 16 bits. -/
def Extension.Ok (e : Extension) : Prop := e.body.length % 4 = 0 ∧ e.body.length / 4 < 65536

def Extension.bytes (e : Extension) : List Nat := [e.profile.1, e.profile.2] ++ be16 (e.body.length / 4) ++ e.body

/-- The fixed header of RFC 3550 section 5.1: V(2) P(1) X(1) CC(4) M(1) PT(7), sequence number, timestamp, SSRC; then the
CSRC list, the extension if any, and the payload. -/
def rtpBytes (h : RtpHeader) (csrc : List Nat) (ext : Option Extension) (payload : List Nat) : List Nat :=
  [h.version * 64 + h.padding.toNat * 32 + h.extension.toNat * 16 + h.csrcCount, h.marker.toNat * 128 + h.payloadType] ++
    be16 h.sequence ++ be32 h.timestamp ++ be32 h.ssrc ++ csrc ++ ((ext.map Extension.bytes).getD []) ++ payload

/-- `d` is an RTP packet with header `h` and the given payload. -/
structure IsRtp (d : List Nat) (h : RtpHeader) (payload : List Nat) : Prop where
  version : h.version = 2
  count : h.csrcCount < 16
  type : h.payloadType < 128
  sequence : h.sequence < 65536
  timestamp : h.timestamp < 2 ^ 32
  ssrc : h.ssrc < 2 ^ 32
  layout : ∃ csrc ext, csrc.length = 4 * h.csrcCount ∧ h.extension = ext.isSome ∧ (∀ e ∈ ext, e.Ok) ∧
    d = rtpBytes h csrc ext payload
  offset : h.payloadOffset + payload.length = d.length

theorem rd16_eq {d : List Nat} {i : Nat} {a b : Nat} (ha : d[i]? = some a) (hb : d[i + 1]? = some b) (h : b < 256) :
    rd16 d i = some (a * 256 + b) := by
  simp only [rd16, ha, hb, Option.bind_eq_bind, Option.bind_some, Option.pure_def, Option.some.injEq]
  rw [← Nat.shiftLeft_add_eq_or_of_lt (by omega), Nat.shiftLeft_eq]

theorem or32 {a b c e : Nat} (hb : b < 256) (hc : c < 256) (he : e < 256) :
    (a <<< 24) ||| (b <<< 16) ||| (c <<< 8) ||| e = a * 2 ^ 24 + b * 2 ^ 16 + c * 2 ^ 8 + e := by
  have h1 : (c <<< 8) ||| e = c * 2 ^ 8 + e := by
    rw [← Nat.shiftLeft_add_eq_or_of_lt (by omega), Nat.shiftLeft_eq]
  have h2 : (b <<< 16) ||| (c * 2 ^ 8 + e) = b * 2 ^ 16 + (c * 2 ^ 8 + e) := by
    rw [← Nat.shiftLeft_add_eq_or_of_lt (by omega), Nat.shiftLeft_eq]
  have h3 : (a <<< 24) ||| (b * 2 ^ 16 + (c * 2 ^ 8 + e)) = a * 2 ^ 24 + (b * 2 ^ 16 + (c * 2 ^ 8 + e)) := by
    rw [← Nat.shiftLeft_add_eq_or_of_lt (by omega), Nat.shiftLeft_eq]
  rw [Nat.or_assoc, Nat.or_assoc, h1, h2, h3]
  omega

theorem byte0 : ∀ b < 256, b >>> 6 < 4 ∧ b &&& 0x0F < 16 ∧
    (b >>> 6) * 64 + ((b &&& 0x20) != 0).toNat * 32 + ((b &&& 0x10) != 0).toNat * 16 + (b &&& 0x0F) = b := by decide +kernel

theorem byte1 : ∀ b < 256, b &&& 0x7F < 128 ∧ ((b &&& 0x80) != 0).toNat * 128 + (b &&& 0x7F) = b := by decide +kernel

theorem byte0_enc : ∀ v < 4, ∀ p x : Bool, ∀ c < 16,
    let b := v * 64 + p.toNat * 32 + x.toNat * 16 + c
    b < 256 ∧ b >>> 6 = v ∧ ((b &&& 0x20) != 0) = p ∧ ((b &&& 0x10) != 0) = x ∧ b &&& 0x0F = c := by decide +kernel

theorem byte1_enc : ∀ m : Bool, ∀ t < 128,
    let b := m.toNat * 128 + t
    b < 256 ∧ ((b &&& 0x80) != 0) = m ∧ b &&& 0x7F = t := by decide +kernel

theorem split12 {d : List Nat} (h : 12 ≤ d.length) : ∃ b0 b1 b2 b3 b4 b5 b6 b7 b8 b9 b10 b11 rest,
    d = b0 :: b1 :: b2 :: b3 :: b4 :: b5 :: b6 :: b7 :: b8 :: b9 :: b10 :: b11 :: rest := by
  match d, h with
  | b0 :: b1 :: b2 :: b3 :: b4 :: b5 :: b6 :: b7 :: b8 :: b9 :: b10 :: b11 :: rest, _ =>
    exact ⟨b0, b1, b2, b3, b4, b5, b6, b7, b8, b9, b10, b11, rest, rfl⟩

/-- The RTP parser on a packet with at least the fixed header. -/
theorem parseRtp_cons {b0 b1 b2 b3 b4 b5 b6 b7 b8 b9 b10 b11 : Nat} {rest : List Nat}
    (hb : Bytes (b0 :: b1 :: b2 :: b3 :: b4 :: b5 :: b6 :: b7 :: b8 :: b9 :: b10 :: b11 :: rest)) :
    parseRtp (b0 :: b1 :: b2 :: b3 :: b4 :: b5 :: b6 :: b7 :: b8 :: b9 :: b10 :: b11 :: rest) =
      let h : RtpHeader := ⟨b0 >>> 6, (b0 &&& 0x20) != 0, (b0 &&& 0x10) != 0, b0 &&& 0x0F, (b1 &&& 0x80) != 0, b1 &&& 0x7F,
        b2 * 256 + b3, b4 * 2 ^ 24 + b5 * 2 ^ 16 + b6 * 2 ^ 8 + b7, b8 * 2 ^ 24 + b9 * 2 ^ 16 + b10 * 2 ^ 8 + b11, 0⟩
      if b0 >>> 6 ≠ 2 then some none
      else if rest.length < (b0 &&& 0x0F) * 4 then some none
      else if ((b0 &&& 0x10) != 0) = true then
        match rest.drop ((b0 &&& 0x0F) * 4) with
        | _ :: _ :: w0 :: w1 :: r =>
          if r.length < (w0 * 256 + w1) * 4 then some none
          else some (some { h with payloadOffset := 12 + (b0 &&& 0x0F) * 4 + (4 + (w0 * 256 + w1) * 4) })
        | _ => some none
      else some (some { h with payloadOffset := 12 + (b0 &&& 0x0F) * 4 }) := by
  have q : ∀ b ∈ [b0, b1, b2, b3, b4, b5, b6, b7, b8, b9, b10, b11], b < 256 := fun b hm => hb b (by
    simp only [List.mem_cons, List.not_mem_nil, or_false] at hm ⊢; tauto)
  have hrest : ∀ b ∈ rest, b < 256 := fun b hm => hb b (by simp [hm])
  simp only [List.mem_cons, List.not_mem_nil, or_false, forall_eq_or_imp, forall_eq] at q
  obtain ⟨q0, q1, q2, q3, q4, q5, q6, q7, q8, q9, q10, q11⟩ := q
  generalize hd : b0 :: b1 :: b2 :: b3 :: b4 :: b5 :: b6 :: b7 :: b8 :: b9 :: b10 :: b11 :: rest = d
  have hl : d.length = 12 + rest.length := by rw [← hd]; simp; omega
  have g0 : d[0]? = some b0 := by rw [← hd]; rfl
  have g1 : d[1]? = some b1 := by rw [← hd]; rfl
  have g2 : rd16 d 2 = some (b2 * 256 + b3) := rd16_eq (by rw [← hd]; rfl) (by rw [← hd]; rfl) q3
  have g3 : rd32 d 4 = some (b4 * 2 ^ 24 + b5 * 2 ^ 16 + b6 * 2 ^ 8 + b7) := by
    rw [← or32 q5 q6 q7, ← hd]; rfl
  have g4 : rd32 d 8 = some (b8 * 2 ^ 24 + b9 * 2 ^ 16 + b10 * 2 ^ 8 + b11) := by
    rw [← or32 q9 q10 q11, ← hd]; rfl
  unfold parseRtp
  rw [if_neg (by omega)]
  simp only [g0, g1, g2, g3, g4, Option.bind_eq_bind, Option.bind_some, hl]
  by_cases hv : b0 >>> 6 ≠ 2
  · rw [if_pos hv, if_pos hv]
  rw [if_neg hv, if_neg hv]
  by_cases hc : rest.length < (b0 &&& 0x0F) * 4
  · rw [if_pos hc, if_pos (by omega)]
  rw [if_neg hc, if_neg (show ¬12 + rest.length < 12 + (b0 &&& 0x0F) * 4 by omega)]
  by_cases hx : ((b0 &&& 0x10) != 0) = true
  · rw [if_pos hx, if_pos hx]
    have hdrop : rest.drop ((b0 &&& 0x0F) * 4) = d.drop (12 + (b0 &&& 0x0F) * 4) := by
      rw [← hd, Nat.add_comm 12]; rfl
    have hget : ∀ k, (rest.drop ((b0 &&& 0x0F) * 4))[k]? = d[12 + (b0 &&& 0x0F) * 4 + k]? := by
      intro k; rw [hdrop, List.getElem?_drop]
    have hlen : (rest.drop ((b0 &&& 0x0F) * 4)).length = rest.length - (b0 &&& 0x0F) * 4 := by simp
    have hmem : ∀ b ∈ rest.drop ((b0 &&& 0x0F) * 4), b < 256 := fun b hm => hrest b (List.mem_of_mem_drop hm)
    generalize rest.drop ((b0 &&& 0x0F) * 4) = t at hget hlen hmem ⊢
    match t, hget, hlen, hmem with
    | [], _, hlen, _ => simp only [List.length_nil] at hlen; rw [if_pos (by omega)]
    | [_], _, hlen, _ => simp only [List.length_cons, List.length_nil] at hlen; rw [if_pos (by omega)]
    | [_, _], _, hlen, _ => simp only [List.length_cons, List.length_nil] at hlen; rw [if_pos (by omega)]
    | [_, _, _], _, hlen, _ => simp only [List.length_cons, List.length_nil] at hlen; rw [if_pos (by omega)]
    | _ :: _ :: w0 :: w1 :: r, hget, hlen, hmem =>
      simp only [List.length_cons] at hlen
      rw [if_neg (by omega), rd16_eq (a := w0) (b := w1) (by rw [← hget 2]; rfl)
        (by rw [show 12 + (b0 &&& 0x0F) * 4 + 2 + 1 = 12 + (b0 &&& 0x0F) * 4 + 3 from rfl, ← hget 3]; rfl)
        (hmem w1 (by simp))]
      simp only [Option.bind_some]
      by_cases hr : r.length < (w0 * 256 + w1) * 4
      · rw [if_pos hr, if_pos (by omega)]
      · rw [if_neg hr, if_neg (by omega)]
  · rw [if_neg hx, if_neg hx]

theorem be16_eq {a b : Nat} (hb : b < 256) : be16 (a * 256 + b) = [a, b] := by
  unfold be16
  rw [show (a * 256 + b) / 256 = a by omega, show (a * 256 + b) % 256 = b by omega]

theorem be32_eq {a b c e : Nat} (hb : b < 256) (hc : c < 256) (he : e < 256) :
    be32 (a * 2 ^ 24 + b * 2 ^ 16 + c * 2 ^ 8 + e) = [a, b, c, e] := by
  unfold be32
  rw [show (a * 2 ^ 24 + b * 2 ^ 16 + c * 2 ^ 8 + e) / 2 ^ 24 = a by omega,
    show (a * 2 ^ 24 + b * 2 ^ 16 + c * 2 ^ 8 + e) / 2 ^ 16 % 256 = b by omega,
    show (a * 2 ^ 24 + b * 2 ^ 16 + c * 2 ^ 8 + e) / 2 ^ 8 % 256 = c by omega,
    show (a * 2 ^ 24 + b * 2 ^ 16 + c * 2 ^ 8 + e) % 256 = e by omega]

theorem join32 {a b c e n : Nat} (ha : a = n / 2 ^ 24) (hb : b = n / 2 ^ 16 % 256) (hc : c = n / 2 ^ 8 % 256)
    (he : e = n % 256) : a * 2 ^ 24 + b * 2 ^ 16 + c * 2 ^ 8 + e = n := by omega

/-- C17, RTP: the parser never reads outside the packet; it accepts exactly the byte strings that are RTP packets, and
reports the fields they were made from and where the payload begins. -/
theorem C17_rtp_header (d : List Nat) (hb : Bytes d) :
    (∃ r, parseRtp d = some r) ∧
    ∀ h, parseRtp d = some (some h) ↔ ∃ payload, IsRtp d h payload := by
  by_cases hl : d.length < 12
  · refine ⟨⟨none, by unfold parseRtp; rw [if_pos hl]⟩, fun h => ⟨fun hh => ?_, fun ⟨payload, i⟩ => ?_⟩⟩
    · unfold parseRtp at hh; rw [if_pos hl] at hh; simp at hh
    · obtain ⟨csrc, ext, -, -, -, e⟩ := i.layout
      have := congrArg List.length e
      simp only [rtpBytes, be16, be32, List.length_append, List.length_cons, List.length_nil] at this
      omega
  obtain ⟨b0, b1, b2, b3, b4, b5, b6, b7, b8, b9, b10, b11, rest, rfl⟩ := split12 (Nat.le_of_not_lt hl)
  have q : ∀ b ∈ [b0, b1, b2, b3, b4, b5, b6, b7, b8, b9, b10, b11], b < 256 := fun b hm => hb b (by
    simp only [List.mem_cons, List.not_mem_nil, or_false] at hm ⊢; tauto)
  have hrest : ∀ b ∈ rest, b < 256 := fun b hm => hb b (by simp [hm])
  simp only [List.mem_cons, List.not_mem_nil, or_false, forall_eq_or_imp, forall_eq] at q
  obtain ⟨q0, q1, q2, q3, q4, q5, q6, q7, q8, q9, q10, q11⟩ := q
  rw [parseRtp_cons hb]
  obtain ⟨c0, c1, c2⟩ := byte0 b0 q0
  obtain ⟨c3, c4⟩ := byte1 b1 q1
  generalize hd : b0 :: b1 :: b2 :: b3 :: b4 :: b5 :: b6 :: b7 :: b8 :: b9 :: b10 :: b11 :: rest = d
  have hdl : d.length = 12 + rest.length := by rw [← hd]; simp; omega
  refine ⟨?_, fun h => ⟨fun hh => ?_, ?_⟩⟩
  · dsimp only
    split_ifs
    · exact ⟨_, rfl⟩
    · exact ⟨_, rfl⟩
    · split
      · split_ifs <;> exact ⟨_, rfl⟩
      · exact ⟨_, rfl⟩
    · exact ⟨_, rfl⟩
  · dsimp only at hh
    by_cases hv : b0 >>> 6 ≠ 2
    · rw [if_pos hv] at hh; simp at hh
    rw [if_neg hv] at hh
    by_cases hc : rest.length < (b0 &&& 0x0F) * 4
    · rw [if_pos hc] at hh; simp at hh
    rw [if_neg hc] at hh
    have hsplit : rest = rest.take ((b0 &&& 0x0F) * 4) ++ rest.drop ((b0 &&& 0x0F) * 4) := (List.take_append_drop _ _).symm
    have hcl : (rest.take ((b0 &&& 0x0F) * 4)).length = 4 * (b0 &&& 0x0F) := by simp; omega
    by_cases hx : ((b0 &&& 0x10) != 0) = true
    · rw [if_pos hx] at hh
      have hmem : ∀ b ∈ rest.drop ((b0 &&& 0x0F) * 4), b < 256 := fun b hm => hrest b (List.mem_of_mem_drop hm)
      have hlen : (rest.drop ((b0 &&& 0x0F) * 4)).length = rest.length - (b0 &&& 0x0F) * 4 := by simp
      generalize rest.drop ((b0 &&& 0x0F) * 4) = t at hh hsplit hmem hlen
      match t, hh, hsplit, hmem, hlen with
      | p0 :: p1 :: w0 :: w1 :: r, hh, hsplit, hmem, hlen =>
        simp only at hh
        by_cases hr : r.length < (w0 * 256 + w1) * 4
        · rw [if_pos hr] at hh; simp at hh
        rw [if_neg hr] at hh
        simp only [Option.some.injEq] at hh
        subst hh
        have w0b := hmem w0 (by simp)
        have w1b := hmem w1 (by simp)
        simp only [List.length_cons] at hlen
        have hbody : (r.take ((w0 * 256 + w1) * 4)).length = (w0 * 256 + w1) * 4 := by simp; omega
        refine ⟨r.drop ((w0 * 256 + w1) * 4), by simpa using hv, c1, c3, by dsimp only; omega, by dsimp only; omega,
          by dsimp only; omega, ⟨rest.take ((b0 &&& 0x0F) * 4), some ⟨(p0, p1), r.take ((w0 * 256 + w1) * 4)⟩, hcl, hx, ?_, ?_⟩, ?_⟩
        · rintro e ⟨⟩
          unfold Extension.Ok
          dsimp only
          rw [hbody]
          omega
        · simp only [rtpBytes, Option.map_some, Option.getD_some, Extension.bytes, hbody, Nat.mul_div_cancel _ (show 0 < 4 by omega)]
          rw [be16_eq q3, be32_eq q5 q6 q7, be32_eq q9 q10 q11, be16_eq w1b, c2, c4, ← hd]
          simp only [List.cons_append, List.nil_append, List.append_assoc, List.take_append_drop]
          rw [← hsplit]
        · simp only [List.length_drop, hdl]
          omega
    · rw [if_neg hx] at hh
      simp only [Option.some.injEq] at hh
      subst hh
      refine ⟨rest.drop ((b0 &&& 0x0F) * 4), by simpa using hv, c1, c3, by dsimp only; omega, by dsimp only; omega,
          by dsimp only; omega, ⟨rest.take ((b0 &&& 0x0F) * 4), none, hcl, by simpa using hx, by simp, ?_⟩, ?_⟩
      · simp only [rtpBytes, Option.map_none, Option.getD_none]
        rw [be16_eq q3, be32_eq q5 q6 q7, be32_eq q9 q10 q11, c2, c4, ← hd]
        simp
      · simp only [List.length_drop, hdl]
        omega
  · rintro ⟨payload, i⟩
    obtain ⟨csrc, ext, hc, hx, hext, e⟩ := i.layout
    obtain ⟨hv, h1, h2, h3, h4, h5, -, hoff⟩ := i
    obtain ⟨v, pad, x, cc, m, pt, sq, ts, ssrc, off⟩ := h
    simp only at hv h1 h2 h3 h4 h5 hoff hc hx
    subst hv
    obtain ⟨-, d1, d2, d3, d4⟩ := byte0_enc 2 (by omega) pad x cc h1
    obtain ⟨-, d5, d6⟩ := byte1_enc m pt h2
    rw [← hd] at e
    simp only [rtpBytes, be16, be32, List.cons_append, List.nil_append, List.append_assoc, List.cons.injEq] at e
    obtain ⟨e0, e1, e2, e3, e4, e5, e6, e7, e8, e9, e10, e11, er⟩ := e
    rw [← e0] at d1 d2 d3 d4
    rw [← e1] at d5 d6
    simp only [d1, d2, d3, d4, d5, d6]
    have s1 : b2 * 256 + b3 = sq := by omega
    have s2 : b4 * 2 ^ 24 + b5 * 2 ^ 16 + b6 * 2 ^ 8 + b7 = ts := join32 e4 e5 e6 e7
    have s3 : b8 * 2 ^ 24 + b9 * 2 ^ 16 + b10 * 2 ^ 8 + b11 = ssrc := join32 e8 e9 e10 e11
    have hrl := congrArg List.length er
    simp only [List.length_append] at hrl
    have hdrop : rest.drop (cc * 4) = (ext.map Extension.bytes).getD [] ++ payload := by
      rw [er, List.drop_left' (by omega)]
    rw [if_neg (by omega), if_neg (by omega), s1, s2, s3, hdrop]
    cases ext with
    | none =>
      subst hx
      simp only [Option.map_none, Option.getD_none, List.length_nil] at hrl
      simp only [Option.isSome_none, Bool.false_eq_true, if_false, Option.some.injEq, RtpHeader.mk.injEq, true_and]
      omega
    | some ex =>
      subst hx
      obtain ⟨k1, k2⟩ := hext ex rfl
      simp only [Option.map_some, Option.getD_some, Extension.bytes, be16, List.length_append, List.length_cons,
        List.length_nil] at hrl
      have hw : ex.body.length / 4 / 256 * 256 + ex.body.length / 4 % 256 = ex.body.length / 4 := Nat.div_add_mod' _ _
      simp only [Option.isSome_some, if_true, Option.map_some, Option.getD_some, Extension.bytes, be16, List.cons_append,
        List.nil_append, hw, List.length_append]
      rw [if_neg (by omega)]
      simp only [Option.some.injEq, RtpHeader.mk.injEq, true_and]
      omega

/-- The eight bytes of a Main Packet header, RFC 9828 section 5.1: MH(2) TP(3) ORDH(3), P(1) XTRAC(3) PTSTAMP(12),
ESEQ(8), R(1) S(1) C(1) RSVD(4) RANGE(1), PRIMS(8), TRANS(8), MAT(8), with XTRAC and RSVD zero. -/
def mainBytes (h : MainHeader) : List Nat :=
  [h.mh * 64 + h.info.tp * 8 + h.info.ordh, h.p.toNat * 128 + h.ptstamp / 256, h.ptstamp % 256, h.eseq,
    h.info.r.toNat * 128 + h.info.s.toNat * 64 + h.info.c.toNat * 32 + h.info.range.toNat, h.info.prims, h.info.trans, h.info.mat]

/-- Ranges of the fields and the rules that tie them: a Main Packet has MH ≠ 0; without S the colour fields are zero;
C requires R. -/
structure MainHeader.Ok (h : MainHeader) : Prop where
  mh : 0 < h.mh ∧ h.mh < 4
  tp : h.info.tp < 8
  ordh : h.info.ordh < 8
  xtrac : h.xtrac = 0
  ptstamp : h.ptstamp < 4096
  colour : h.info.s = false → h.info.prims = 0 ∧ h.info.trans = 0 ∧ h.info.mat = 0 ∧ h.info.range = false
  reuse : h.info.c = true → h.info.r = true
  offset : h.offset = 8

theorem m0 : ∀ b < 256, (b >>> 6) &&& 3 < 4 ∧ (b >>> 3) &&& 7 < 8 ∧ b &&& 7 < 8 ∧
    ((b >>> 6) &&& 3) * 64 + ((b >>> 3) &&& 7) * 8 + (b &&& 7) = b := by decide +kernel

theorem m0_enc : ∀ m < 4, ∀ t < 8, ∀ o < 8,
    let b := m * 64 + t * 8 + o
    (b >>> 6) &&& 3 = m ∧ (b >>> 3) &&& 7 = t ∧ b &&& 7 = o := by decide +kernel

theorem m1 : ∀ b < 256, (b >>> 4) &&& 7 < 8 ∧ b &&& 15 < 16 ∧
    ((b &&& 0x80) != 0).toNat * 128 + ((b >>> 4) &&& 7) * 16 + (b &&& 15) = b := by decide +kernel

theorem m1_enc : ∀ p : Bool, ∀ x < 8, ∀ t < 16,
    let b := p.toNat * 128 + x * 16 + t
    ((b &&& 0x80) != 0) = p ∧ (b >>> 4) &&& 7 = x ∧ b &&& 15 = t := by decide +kernel

theorem m4 : ∀ b < 256, (b >>> 1) &&& 15 = 0 →
    ((b &&& 0x80) != 0).toNat * 128 + ((b &&& 0x40) != 0).toNat * 64 + ((b &&& 0x20) != 0).toNat * 32 +
      ((b &&& 1) != 0).toNat = b := by decide +kernel

theorem m4_enc : ∀ r s c g : Bool,
    let b := r.toNat * 128 + s.toNat * 64 + c.toNat * 32 + g.toNat
    ((b &&& 0x80) != 0) = r ∧ ((b &&& 0x40) != 0) = s ∧ ((b &&& 0x20) != 0) = c ∧ ((b &&& 1) != 0) = g ∧
      (b >>> 1) &&& 15 = 0 := by decide +kernel

theorem split8 {d : List Nat} (h : 8 ≤ d.length) : ∃ b0 b1 b2 b3 b4 b5 b6 b7 rest,
    d = b0 :: b1 :: b2 :: b3 :: b4 :: b5 :: b6 :: b7 :: rest := by
  match d, h with
  | b0 :: b1 :: b2 :: b3 :: b4 :: b5 :: b6 :: b7 :: rest, _ => exact ⟨b0, b1, b2, b3, b4, b5, b6, b7, rest, rfl⟩

theorem or12 {a b : Nat} (hb : b < 256) : (a <<< 8) ||| b = a * 256 + b := by
  rw [← Nat.shiftLeft_add_eq_or_of_lt (by omega), Nat.shiftLeft_eq]

theorem or_nib {a b : Nat} (hb : b < 16) : (a <<< 4) ||| b = a * 16 + b := by
  rw [← Nat.shiftLeft_add_eq_or_of_lt (by omega), Nat.shiftLeft_eq]

theorem or20 {a b c : Nat} (hb : b < 256) (hc : c < 256) : (a <<< 16) ||| (b <<< 8) ||| c = a * 65536 + b * 256 + c := by
  have h1 : (b <<< 8) ||| c = b * 256 + c := or12 hc
  rw [Nat.or_assoc, h1, ← Nat.shiftLeft_add_eq_or_of_lt (by omega), Nat.shiftLeft_eq]
  omega

/-- C17, Main Packets: no read outside the payload; accepted are exactly the payloads that begin with a well-formed
header, and its fields are reported. -/
theorem C17_main_header (d : List Nat) (hb : Bytes d) :
    (∃ r, parseMain d = some r) ∧
    ∀ h, parseMain d = some (some h) ↔ h.Ok ∧ ∃ rest, d = mainBytes h ++ rest := by
  by_cases hl : d.length < 8
  · have e0 : parseMain d = some none := by unfold parseMain; rw [if_pos hl]
    refine ⟨⟨none, e0⟩, fun h => ⟨fun hh => by rw [e0] at hh; simp at hh, fun ⟨_, rest, e⟩ => ?_⟩⟩
    have := congrArg List.length e
    simp only [mainBytes, List.length_append, List.length_cons, List.length_nil] at this
    omega
  obtain ⟨b0, b1, b2, b3, b4, b5, b6, b7, rest, rfl⟩ := split8 (Nat.le_of_not_lt hl)
  have q : ∀ b ∈ [b0, b1, b2, b3, b4, b5, b6, b7], b < 256 := fun b hm => hb b (by
    simp only [List.mem_cons, List.not_mem_nil, or_false] at hm ⊢; tauto)
  simp only [List.mem_cons, List.not_mem_nil, or_false, forall_eq_or_imp, forall_eq] at q
  obtain ⟨q0, q1, q2, q3, q4, q5, q6, q7⟩ := q
  obtain ⟨c1, c2, c3, c4⟩ := m0 b0 q0
  obtain ⟨c5, c6, c7⟩ := m1 b1 q1
  have key : parseMain (b0 :: b1 :: b2 :: b3 :: b4 :: b5 :: b6 :: b7 :: rest) =
      some (if (b0 >>> 6) &&& 3 = 0 ∨ (b1 >>> 4) &&& 7 ≠ 0 ∨ (b4 >>> 1) &&& 15 ≠ 0 ∨
          (!((b4 &&& 0x40) != 0) && (b5 != 0 || b6 != 0 || b7 != 0 || ((b4 &&& 1) != 0))) = true ∨
          (((b4 &&& 0x20) != 0) && !((b4 &&& 0x80) != 0)) = true then none
        else some ⟨(b0 >>> 6) &&& 3, (b1 &&& 0x80) != 0, (b1 >>> 4) &&& 7, (b1 &&& 15) * 256 + b2, b3,
          ⟨(b0 >>> 3) &&& 7, b0 &&& 7, (b4 &&& 0x80) != 0, (b4 &&& 0x40) != 0, (b4 &&& 0x20) != 0, (b4 &&& 1) != 0, b5, b6, b7⟩, 8⟩) := by
    unfold parseMain
    rw [if_neg hl, ← or12 q2]
    simp only [List.getElem?_cons_zero, List.getElem?_cons_succ, Option.bind_eq_bind, Option.bind_some]
    by_cases k1 : (b0 >>> 6) &&& 3 = 0
    · rw [if_pos k1, if_pos (Or.inl k1)]
    rw [if_neg k1]
    by_cases k2 : (b1 >>> 4) &&& 7 ≠ 0
    · rw [if_pos k2, if_pos (Or.inr (Or.inl k2))]
    rw [if_neg k2]
    by_cases k3 : (b4 >>> 1) &&& 15 ≠ 0
    · rw [if_pos k3, if_pos (Or.inr (Or.inr (Or.inl k3)))]
    rw [if_neg k3]
    by_cases k4 : (!((b4 &&& 0x40) != 0) && (b5 != 0 || b6 != 0 || b7 != 0 || ((b4 &&& 1) != 0))) = true
    · rw [if_pos k4, if_pos (Or.inr (Or.inr (Or.inr (Or.inl k4))))]
    rw [if_neg k4]
    by_cases k5 : (((b4 &&& 0x20) != 0) && !((b4 &&& 0x80) != 0)) = true
    · rw [if_pos k5, if_pos (Or.inr (Or.inr (Or.inr (Or.inr k5))))]
    rw [if_neg k5, if_neg (by tauto)]
  rw [key]
  refine ⟨⟨_, rfl⟩, fun h => ⟨fun hh => ?_, ?_⟩⟩
  · rw [Option.some.injEq] at hh
    split_ifs at hh with hk
    simp only [not_or, ne_eq, not_not] at hk
    obtain ⟨k1, k2, k3, k4, k5⟩ := hk
    rw [Option.some.injEq] at hh
    subst hh
    refine ⟨⟨⟨by dsimp only; omega, c1⟩, c2, c3, k2, by dsimp only; omega, ?_, ?_, rfl⟩, rest, ?_⟩
    · dsimp only
      intro hs
      rw [hs] at k4
      simpa [and_assoc] using k4
    · dsimp only
      intro hc
      rw [hc] at k5
      simpa using k5
    · have := m4 b4 q4 k3
      simp only [mainBytes]
      rw [this, c4, show ((b1 &&& 15) * 256 + b2) / 256 = b1 &&& 15 by omega, show ((b1 &&& 15) * 256 + b2) % 256 = b2 by omega]
      rw [k2] at c7
      rw [show ((b1 &&& 0x80) != 0).toNat * 128 + (b1 &&& 15) = b1 by omega]
      rfl
  · rintro ⟨ok, rest', e⟩
    obtain ⟨mh, p, x, pt, es, ⟨tp, od, r, s, c, g, pr, tr, mt⟩, off⟩ := h
    obtain ⟨⟨o1, o1'⟩, o2, o3, o4, o5, o6, o7, o8⟩ := ok
    simp only at o1 o1' o2 o3 o4 o5 o6 o7 o8
    subst o4
    subst o8
    simp only [mainBytes, List.cons_append, List.nil_append, List.cons.injEq] at e
    obtain ⟨e0, e1, e2, e3, e4, e5, e6, e7, -⟩ := e
    obtain ⟨d1, d2, d3⟩ := m0_enc mh o1' tp o2 od o3
    obtain ⟨d4, d5, d6⟩ := m1_enc p 0 (by omega) (pt / 256) (by omega)
    obtain ⟨d7, d8, d9, d10, d11⟩ := m4_enc r s c g
    simp only [Nat.zero_mul, Nat.add_zero] at d4 d5 d6
    rw [← e0] at d1 d2 d3
    rw [← e1] at d4 d5 d6
    rw [← e4] at d7 d8 d9 d10 d11
    rw [d1, d2, d3, d4, d5, d6, d7, d8, d9, d10, d11, e5, e6, e7, e3, e2]
    rw [if_neg, Nat.div_add_mod']
    simp only [not_or, ne_eq, not_not]
    refine ⟨by omega, trivial, trivial, ?_, ?_⟩
    · cases s
      · obtain ⟨w1, w2, w3, w4⟩ := o6 rfl
        simp [w1, w2, w3, w4]
      · simp
    · cases c
      · simp
      · simp [o7 rfl]

/-- The eight bytes of a Body Packet header, RFC 9828 section 5.2: MH(2)=0 TP(3) RES(3), ORDB(1) QUAL(3) PTSTAMP(12),
ESEQ(8), POS(12), PID(20). -/
def bodyBytes (h : BodyHeader) : List Nat :=
  [h.tp * 8 + h.res, h.ordb.toNat * 128 + h.qual * 16 + h.ptstamp / 256, h.ptstamp % 256, h.eseq,
    h.pos / 16, h.pos % 16 * 16 + h.pid / 65536, h.pid / 256 % 256, h.pid % 256]

structure BodyHeader.Ok (h : BodyHeader) : Prop where
  mh : h.mh = 0
  tp : h.tp < 8
  res : h.res < 8
  qual : h.qual < 8
  ptstamp : h.ptstamp < 4096
  pos : h.pos < 4096
  pid : h.pid < 2 ^ 20
  resync : h.ordb = false → h.pos = 0 ∧ h.pid = 0
  offset : h.offset = 8

theorem m5 : ∀ b < 256, b >>> 4 < 16 ∧ b &&& 15 < 16 ∧ (b >>> 4) * 16 + (b &&& 15) = b := by decide +kernel

theorem m5_enc : ∀ a < 16, ∀ c < 16,
    let b := a * 16 + c
    b >>> 4 = a ∧ b &&& 15 = c := by decide +kernel

/-- C17, Body Packets: the same. -/
theorem C17_body_header (d : List Nat) (hb : Bytes d) :
    (∃ r, parseBody d = some r) ∧
    ∀ h, parseBody d = some (some h) ↔ h.Ok ∧ ∃ rest, d = bodyBytes h ++ rest := by
  by_cases hl : d.length < 8
  · have e0 : parseBody d = some none := by unfold parseBody; rw [if_pos hl]
    refine ⟨⟨none, e0⟩, fun h => ⟨fun hh => by rw [e0] at hh; simp at hh, fun ⟨_, rest, e⟩ => ?_⟩⟩
    have := congrArg List.length e
    simp only [bodyBytes, List.length_append, List.length_cons, List.length_nil] at this
    omega
  obtain ⟨b0, b1, b2, b3, b4, b5, b6, b7, rest, rfl⟩ := split8 (Nat.le_of_not_lt hl)
  have q : ∀ b ∈ [b0, b1, b2, b3, b4, b5, b6, b7], b < 256 := fun b hm => hb b (by
    simp only [List.mem_cons, List.not_mem_nil, or_false] at hm ⊢; tauto)
  simp only [List.mem_cons, List.not_mem_nil, or_false, forall_eq_or_imp, forall_eq] at q
  obtain ⟨q0, q1, q2, q3, q4, q5, q6, q7⟩ := q
  obtain ⟨c1, c2, c3, c4⟩ := m0 b0 q0
  obtain ⟨c5, c6, c7⟩ := m1 b1 q1
  obtain ⟨c8, c9, c10⟩ := m5 b5 q5
  have key : parseBody (b0 :: b1 :: b2 :: b3 :: b4 :: b5 :: b6 :: b7 :: rest) =
      some (if (b0 >>> 6) &&& 3 ≠ 0 ∨ (!((b1 &&& 0x80) != 0) && (b4 * 16 + b5 >>> 4 != 0 ||
          (b5 &&& 15) * 65536 + b6 * 256 + b7 != 0)) = true then none
        else some ⟨(b0 >>> 6) &&& 3, (b0 >>> 3) &&& 7, b0 &&& 7, (b1 &&& 0x80) != 0, (b1 >>> 4) &&& 7, (b1 &&& 15) * 256 + b2, b3,
          b4 * 16 + b5 >>> 4, (b5 &&& 15) * 65536 + b6 * 256 + b7, 8⟩) := by
    unfold parseBody
    rw [if_neg hl, ← or12 q2, ← or_nib c8, ← or20 q6 q7]
    simp only [List.getElem?_cons_zero, List.getElem?_cons_succ, Option.bind_eq_bind, Option.bind_some]
    by_cases k1 : (b0 >>> 6) &&& 3 ≠ 0
    · rw [if_pos k1, if_pos (Or.inl k1)]
    rw [if_neg k1]
    by_cases k4 : (!((b1 &&& 0x80) != 0) && ((b4 <<< 4 ||| b5 >>> 4) != 0 ||
          ((b5 &&& 15) <<< 16 ||| b6 <<< 8 ||| b7) != 0)) = true
    · rw [if_pos k4, if_pos (Or.inr k4)]
    rw [if_neg k4, if_neg (by tauto)]
  rw [key]
  refine ⟨⟨_, rfl⟩, fun h => ⟨fun hh => ?_, ?_⟩⟩
  · rw [Option.some.injEq] at hh
    split_ifs at hh with hk
    simp only [not_or, ne_eq, not_not] at hk
    obtain ⟨k1, k4⟩ := hk
    rw [Option.some.injEq] at hh
    subst hh
    refine ⟨⟨k1, c2, c3, c5, by dsimp only; omega, by dsimp only; omega, by dsimp only; omega, ?_, rfl⟩, rest, ?_⟩
    · dsimp only
      intro hs
      rw [hs] at k4
      simp only [Bool.not_false, Bool.true_and, Bool.or_eq_true, bne_iff_ne, ne_eq, not_or, not_not] at k4
      exact k4
    · simp only [bodyBytes]
      rw [k1] at c4
      rw [show ((b1 &&& 15) * 256 + b2) / 256 = b1 &&& 15 by omega, show ((b1 &&& 15) * 256 + b2) % 256 = b2 by omega, c7,
        show ((b0 >>> 3) &&& 7) * 8 + (b0 &&& 7) = b0 by omega, show (b4 * 16 + b5 >>> 4) / 16 = b4 by omega,
        show (b4 * 16 + b5 >>> 4) % 16 = b5 >>> 4 by omega, show ((b5 &&& 15) * 65536 + b6 * 256 + b7) / 65536 = b5 &&& 15 by omega,
        show ((b5 &&& 15) * 65536 + b6 * 256 + b7) / 256 % 256 = b6 by omega,
        show ((b5 &&& 15) * 65536 + b6 * 256 + b7) % 256 = b7 by omega, c10]
      rfl
  · rintro ⟨ok, rest', e⟩
    obtain ⟨mh, tp, res, ob, ql, pt, es, pos, pid, off⟩ := h
    obtain ⟨o1, o2, o3, o4, o5, o6, o7, o8, o9⟩ := ok
    simp only at o1 o2 o3 o4 o5 o6 o7 o8 o9
    subst o1
    subst o9
    simp only [bodyBytes, List.cons_append, List.nil_append, List.cons.injEq] at e
    obtain ⟨e0, e1, e2, e3, e4, e5, e6, e7, -⟩ := e
    obtain ⟨d1, d2, d3⟩ := m0_enc 0 (by omega) tp o2 res o3
    obtain ⟨d4, d5, d6⟩ := m1_enc ob ql o4 (pt / 256) (by omega)
    obtain ⟨d7, d8⟩ := m5_enc (pos % 16) (by omega) (pid / 65536) (by omega)
    simp only [Nat.zero_mul, Nat.zero_add] at d1 d2 d3
    rw [← e0] at d1 d2 d3
    rw [← e1] at d4 d5 d6
    rw [← e5] at d7 d8
    rw [d1, d2, d3, d4, d5, d6, d7, d8, e3, e2, e4, e6, e7, Nat.div_add_mod', Nat.div_add_mod',
      show pid / 65536 * 65536 + pid / 256 % 256 * 256 + pid % 256 = pid by omega]
    rw [if_neg]
    simp only [not_or, ne_eq, not_not]
    refine ⟨trivial, ?_⟩
    cases ob
    · obtain ⟨w1, w2⟩ := o8 rfl
      simp [w1, w2]
    · simp

/-- C17: whatever datagram arrives, the receive loop reads only inside it; when it passes a packet on, the datagram is an
RTP packet whose payload is a well-formed Main or Body header followed by exactly the bytes passed on, and the numbers
passed on are in range (so the frame handler's theorems apply). -/
theorem C17_receive (d : List Nat) (hb : Bytes d) :
    ∃ r, receive d = some r ∧ ∀ p, r = some p → p.Ok ∧ ∃ rtp payload, IsRtp d rtp payload ∧
      p.seq = rtp.sequence ∧ p.ts = rtp.timestamp ∧ p.marker = rtp.marker ∧
      ((∃ h : MainHeader, h.Ok ∧ p.main = some h.info ∧ p.eseq = h.eseq ∧ payload = mainBytes h ++ p.bytes) ∨
       (∃ h : BodyHeader, h.Ok ∧ p.main = none ∧ p.eseq = h.eseq ∧ payload = bodyBytes h ++ p.bytes)) := by
  unfold receive
  by_cases hl : d.length < 12
  · rw [if_pos hl]; exact ⟨none, rfl, by simp⟩
  rw [if_neg hl]
  obtain ⟨⟨r, hr⟩, hiff⟩ := C17_rtp_header d hb
  simp only [hr, Option.bind_eq_bind, Option.bind_some]
  cases r with
  | none => exact ⟨none, rfl, by simp⟩
  | some rtp =>
    obtain ⟨payload, i⟩ := (hiff rtp).1 hr
    simp only
    by_cases h1 : d.length ≤ rtp.payloadOffset
    · rw [if_pos h1]; exact ⟨none, rfl, by simp⟩
    rw [if_neg h1]
    have hpay : d.drop rtp.payloadOffset = payload := by
      obtain ⟨csrc, ext, -, -, -, e⟩ := i.layout
      have ho := i.offset
      unfold rtpBytes at e
      have : d.take rtp.payloadOffset ++ d.drop rtp.payloadOffset = _ := (List.take_append_drop _ _).trans e
      refine (List.append_inj' this ?_).2
      rw [List.length_drop]
      omega
    have hpb : Bytes payload := fun b hm => hb b (by rw [← hpay] at hm; exact List.mem_of_mem_drop hm)
    rw [hpay]
    by_cases h2 : payload.length < 8
    · rw [if_pos h2]; exact ⟨none, rfl, by simp⟩
    rw [if_neg h2]
    obtain ⟨b0, t, ht⟩ : ∃ b0 t, payload = b0 :: t := by
      cases payload with
      | nil => simp at h2
      | cons a l => exact ⟨a, l, rfl⟩
    have hg : payload[0]? = some b0 := by rw [ht]; rfl
    simp only [hg, Option.bind_some]
    by_cases hk : b0 >>> 6 = 0
    · rw [if_pos hk]
      obtain ⟨⟨r', hr'⟩, hiff'⟩ := C17_body_header payload hpb
      simp only [hr', Option.bind_some]
      cases r' with
      | none => exact ⟨none, rfl, by simp⟩
      | some h =>
        obtain ⟨ok, rest, e⟩ := (hiff' h).1 hr'
        simp only
        rw [ok.offset, if_neg h2]
        refine ⟨_, rfl, ?_⟩
        intro p hp
        rw [Option.some.injEq] at hp
        subst hp
        have hdr : payload.drop 8 = rest := by rw [e]; rfl
        exact ⟨⟨hpb h.eseq (by rw [e]; simp [bodyBytes]), i.sequence⟩, rtp, payload, i, rfl, rfl, rfl,
          Or.inr ⟨h, ok, rfl, rfl, by rw [hdr]; exact e⟩⟩
    · rw [if_neg hk]
      obtain ⟨⟨r', hr'⟩, hiff'⟩ := C17_main_header payload hpb
      simp only [hr', Option.bind_some]
      cases r' with
      | none => exact ⟨none, rfl, by simp⟩
      | some h =>
        obtain ⟨ok, rest, e⟩ := (hiff' h).1 hr'
        simp only
        rw [ok.offset, if_neg h2]
        refine ⟨_, rfl, ?_⟩
        intro p hp
        rw [Option.some.injEq] at hp
        subst hp
        have hdr : payload.drop 8 = rest := by rw [e]; rfl
        exact ⟨⟨hpb h.eseq (by rw [e]; simp [mainBytes]), i.sequence⟩, rtp, payload, i, rfl, rfl, rfl,
          Or.inl ⟨h, ok, rfl, rfl, by rw [hdr]; exact e⟩⟩

/-- A Main Packet with a CSRC entry and a one-word extension. -/
def sampleDatagram : List Nat :=
  [0x91, 0xE0, 0x12, 0x34, 0, 0, 0, 9, 1, 2, 3, 4, 5, 6, 7, 8, 0xBE, 0xDE, 0, 1, 9, 9, 9, 9] ++
  [0xC1, 0, 0, 7, 0xC1, 9, 16, 9] ++ [0xFF, 0x4F]

example : Bytes sampleDatagram ∧ receive sampleDatagram =
    some (some ⟨some ⟨0, 1, true, true, false, true, 9, 16, 9⟩, 7, 0x1234, 9, true, [0xFF, 0x4F]⟩) := by
  refine ⟨?_, by decide⟩
  unfold Bytes
  decide

example : (receive (sampleDatagram.take 30)) = some none ∧ receive [] = some none := by decide

/-- Padding is not removed although the comment in the parser says that later stages ignore it: with the padding bit set
and four bytes of padding, the padding is passed on as codestream bytes. -/
theorem C17_padding_is_kept :
    receive ([0xA0, 0x60, 0, 0, 0, 0, 0, 9, 1, 2, 3, 4] ++ [0, 0, 0, 7, 0, 0, 0, 0] ++ [0xAB] ++ [0, 0, 0, 4]) =
      some (some ⟨none, 7, 0, 9, false, [0xAB, 0, 0, 0, 4]⟩) := by decide

end Verif.Rtp
