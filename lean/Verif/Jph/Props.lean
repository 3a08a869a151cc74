import Verif.Jph.Boxes
import Verif.Jpip.PropsWalker
/-
C39: box scanning is safe on any input, and finds what the writer wrote.
C47: the header boxes describe the components.
-/
namespace Verif.Jph
open Verif.Jpip (u32At u32At_some u32At_be be16 be32 be16_length be32_length slice slice_mid)

/-! ### Specification -/

/-- What is reported lies inside the buffer, after the signature's first eight bytes. -/
def Info.Inside (o : Info) (n : Nat) : Prop := ∀ off size, o.cs = some (off, size) → 8 ≤ off ∧ off + size ≤ n

/-- A box as the standard frames it: length (counting the header), type, contents. -/
structure Box where
  type : Nat
  body : List UInt8

def Box.bytes (b : Box) : List UInt8 := be32 (b.body.length + 8) ++ be32 b.type ++ b.body

/-- The length fits in the 32-bit field. -/
def Box.Ok (b : Box) : Prop := b.type < 2 ^ 32 ∧ b.body.length + 8 < 2 ^ 32

/-! ### Safety -/

theorem rd32_some (d : List UInt8) (i : Nat) (h : i + 4 ≤ d.length) : ∃ m, rd32 d i = some m := u32At_some d i h

theorem rd64_some (d : List UInt8) (i : Nat) (h : i + 8 ≤ d.length) : ∃ m, rd64 d i = some m := by
  obtain ⟨a, ha⟩ := rd32_some d i (by omega)
  obtain ⟨b, hb⟩ := rd32_some d (i + 4) (by omega)
  exact ⟨_, by simp [rd64, ha, hb]; rfl⟩

/-- A box header that can be read gives a box that starts after its header and ends in range. -/
theorem boxAt_some (d : List UInt8) (p e : Nat) (hp : p + 8 ≤ e) (he : e ≤ d.length) :
    ∃ r, boxAt d p e = some r ∧ ∀ t a b, r = some (t, a, b) → p + 8 ≤ a ∧ a ≤ b ∧ b ≤ e := by
  obtain ⟨l, hl⟩ := rd32_some d p (by omega)
  obtain ⟨t, ht⟩ := rd32_some d (p + 4) (by omega)
  unfold boxAt
  simp only [hl, ht, Option.bind_eq_bind, Option.bind_some]
  by_cases h1 : l = 1
  · rw [if_pos h1]
    by_cases h2 : e < p + 16
    · rw [if_pos h2]
      exact ⟨none, rfl, by simp⟩
    · obtain ⟨x, hx⟩ := rd64_some d (p + 8) (by omega)
      rw [if_neg h2, hx]
      simp only [Option.bind_some]
      by_cases h3 : x < 16 ∨ e - p < x
      · rw [if_pos h3]
        exact ⟨none, rfl, by simp⟩
      · rw [if_neg h3]
        refine ⟨_, rfl, ?_⟩
        intro t' a b h
        simp only [Option.some.injEq, Prod.mk.injEq] at h
        omega
  · rw [if_neg h1]
    by_cases h2 : l = 0
    · rw [if_pos h2]
      refine ⟨_, rfl, ?_⟩
      intro t' a b h
      simp only [Option.some.injEq, Prod.mk.injEq] at h
      omega
    · rw [if_neg h2]
      by_cases h3 : l < 8
      · rw [if_pos h3]
        exact ⟨none, rfl, by simp⟩
      · rw [if_neg h3]
        refine ⟨_, rfl, ?_⟩
        intro t' a b h
        simp only [Option.some.injEq, Prod.mk.injEq] at h
        obtain ⟨-, h1, h2⟩ := h
        split_ifs at h2 <;> omega

theorem colrBox_some (d : List UInt8) (a b : Nat) (o : Info) (hb : b ≤ d.length) (ho : o.Inside d.length) :
    ∃ r, colrBox d a b o = some r ∧ r.Inside d.length := by
  unfold colrBox
  by_cases h : a + 7 ≤ b
  · rw [if_pos h]
    have h1 : d[a]? = some (d[a]'(by omega)) := List.getElem?_eq_getElem _
    obtain ⟨v, hv⟩ := rd32_some d (a + 3) (by omega)
    simp only [h1, hv, Option.bind_eq_bind, Option.bind_some]
    split_ifs
    · exact ⟨_, rfl, ho⟩
    · exact ⟨_, rfl, ho⟩
  · rw [if_neg h]
    exact ⟨_, rfl, ho⟩

theorem boxLoop_some (d : List UInt8) (sub : Nat → Nat → Info → Option Info)
    (hsub : ∀ a b o, 8 ≤ a → a ≤ b → b ≤ d.length → o.Inside d.length → ∃ r, sub a b o = some r ∧ r.Inside d.length) :
    ∀ (f p e : Nat) (o : Info), p ≤ e → e ≤ d.length → (e - p) / 8 < f → o.Inside d.length →
      ∃ r, boxLoop d sub f p e o = some r ∧ r.Inside d.length
  | 0, p, e, o, _, _, hf, _ => by omega
  | f + 1, p, e, o, hp, he, hf, ho => by
    rw [boxLoop]
    by_cases h : p + 8 ≤ e
    · rw [if_pos h]
      obtain ⟨r, hr, hr2⟩ := boxAt_some d p e h he
      rw [hr]
      cases r with
      | none => exact ⟨o, rfl, ho⟩
      | some x =>
        obtain ⟨t, a, b⟩ := x
        obtain ⟨h1, h2, h3⟩ := hr2 t a b rfl
        simp only [Option.bind_eq_bind, Option.bind_some]
        have key : ∃ o', boxEffect d sub t a b o = some o' ∧ o'.Inside d.length := by
          unfold boxEffect
          split_ifs
          · exact hsub a b o (by omega) h2 (by omega) ho
          · exact colrBox_some d a b o (by omega) ho
          · refine ⟨_, rfl, ?_⟩
            intro off size hs
            simp only [Option.some.injEq, Prod.mk.injEq] at hs
            omega
          · exact ⟨o, rfl, ho⟩
        obtain ⟨o', ho1, ho2⟩ := key
        rw [ho1]
        simp only [Option.bind_some]
        exact boxLoop_some d sub hsub f b e o' h3 he (by omega) ho2
    · rw [if_neg h]
      exact ⟨o, rfl, ho⟩

theorem scanBoxes_some (d : List UInt8) (k : Nat) : ∀ (p e : Nat) (o : Info), p ≤ e → e ≤ d.length → o.Inside d.length →
    ∃ r, scanBoxes d k p e o = some r ∧ r.Inside d.length := by
  induction k with
  | zero => intro p e o _ _ ho; exact ⟨o, rfl, ho⟩
  | succ k ih =>
    intro p e o hp he ho
    rw [scanBoxes]
    exact boxLoop_some d _ (fun a b o _ h2 h3 h4 => ih a b o h2 h3 h4) _ p e o hp he (by omega) ho

/-- C39: on any byte string parsing ends without reading outside the buffer, each level of nesting takes at most one turn
per eight bytes, and the codestream it reports is inside the buffer. -/
theorem C39_scan_safe (d : List UInt8) :
    ∃ ok o, parseBuffer d = some (ok, o) ∧ o.Inside d.length ∧ (ok = true → ∃ off size, o.cs = some (off, size) ∧ 0 < size) := by
  unfold parseBuffer isSignature
  by_cases h : d.length < 12
  · rw [if_pos h]
    exact ⟨false, {}, rfl, by simp [Info.Inside], by simp⟩
  · rw [if_neg h]
    obtain ⟨a, ha⟩ := rd32_some d 0 (by omega)
    obtain ⟨b, hb⟩ := rd32_some d 4 (by omega)
    obtain ⟨c, hc⟩ := rd32_some d 8 (by omega)
    obtain ⟨o, ho, hi⟩ := scanBoxes_some d 17 0 d.length {} (by omega) le_rfl (by simp [Info.Inside])
    simp only [ha, hb, hc, Option.bind_eq_bind, Option.bind_some, Option.pure_def]
    split_ifs with hs
    · rw [ho]
      refine ⟨_, o, rfl, hi, ?_⟩
      cases hcs : o.cs with
      | none => simp
      | some x => intro hx; exact ⟨x.1, x.2, rfl, by simpa using hx⟩
    · exact ⟨false, {}, rfl, by simp [Info.Inside], by simp⟩

/-! ### Well-formed boxes -/

theorem putWord_eq (v : Nat) : putWord v = be16 v := by
  rw [putWord, be16, Nat.shiftRight_eq_div_pow, show (0xFF : Nat) = 2 ^ 8 - 1 from rfl, Nat.and_two_pow_sub_one_eq_mod]

theorem putDword_eq (v : Nat) : putDword v = be32 v := by
  rw [putDword, be32, putWord_eq, putWord_eq, Nat.shiftRight_eq_div_pow, show (0xFFFF : Nat) = 2 ^ 16 - 1 from rfl,
    Nat.and_two_pow_sub_one_eq_mod]

theorem Box.length_bytes (b : Box) : b.bytes.length = b.body.length + 8 := by
  simp [Box.bytes, be32_length]; omega

theorem boxLoop_box (d : List UInt8) (sub : Nat → Nat → Info → Option Info) (f p e : Nat) (o : Info) (b : Box) (hb : b.Ok)
    (pre post : List UInt8) (hd : d = pre ++ (b.bytes ++ post)) (hp : p = pre.length) (he : p + b.bytes.length ≤ e) :
    boxLoop d sub (f + 1) p e o = (boxEffect d sub b.type (p + 8) (p + b.bytes.length) o).bind (boxLoop d sub f (p + b.bytes.length) e) := by
  have hl := b.length_bytes
  have h1 : rd32 d p = some (b.body.length + 8) :=
    u32At_be d pre (be32 b.type ++ (b.body ++ post)) _ p (by rw [hd, Box.bytes]; simp) hp hb.2
  have h2 : rd32 d (p + 4) = some b.type :=
    u32At_be d (pre ++ be32 (b.body.length + 8)) (b.body ++ post) _ _ (by rw [hd, Box.bytes]; simp)
      (by rw [List.length_append, be32_length, hp]) hb.1
  have h3 : boxAt d p e = some (some (b.type, p + 8, p + b.bytes.length)) := by
    unfold boxAt
    simp only [h1, h2, Option.bind_eq_bind, Option.bind_some]
    rw [if_neg (by omega), if_neg (by omega), if_neg (by omega), if_pos (by omega), hl]
  rw [boxLoop, if_pos (by omega), h3]
  rfl

/-- Boxes of other types do not change the result. -/
theorem effect_other (d : List UInt8) (sub : Nat → Nat → Info → Option Info) (t a b : Nat) (o : Info)
    (h : t ≠ tJp2h ∧ t ≠ tColr ∧ t ≠ tJp2c) : boxEffect d sub t a b o = some o := by
  rw [boxEffect, if_neg h.1, if_neg h.2.1, if_neg h.2.2]

theorem boxLoop_others (d : List UInt8) (sub : Nat → Nat → Info → Option Info) (e : Nat) (o : Info) : ∀ (bs : List Box)
    (f p : Nat) (pre post : List UInt8), (∀ b ∈ bs, b.Ok ∧ b.type ≠ tJp2h ∧ b.type ≠ tColr ∧ b.type ≠ tJp2c) →
    d = pre ++ (bs.flatMap Box.bytes ++ post) → p = pre.length → p + (bs.flatMap Box.bytes).length ≤ e →
    boxLoop d sub (f + bs.length) p e o = boxLoop d sub f (p + (bs.flatMap Box.bytes).length) e o
  | [], f, p, pre, post, _, _, _, _ => by simp
  | b :: bs, f, p, pre, post, hb, hd, hp, he => by
    rw [List.flatMap_cons, List.length_append] at he ⊢
    rw [List.flatMap_cons, List.append_assoc] at hd
    rw [List.length_cons, ← Nat.add_assoc, boxLoop_box d sub _ p e o b (hb b (by simp)).1 pre _ hd hp (by omega),
      effect_other _ _ _ _ _ _ (hb b (by simp)).2]
    simp only [Option.bind_some]
    rw [boxLoop_others d sub e o bs f (p + b.bytes.length) (pre ++ b.bytes) post (fun x hx => hb x (List.mem_cons_of_mem _ hx))
      (by rw [hd]; simp) (by rw [List.length_append, hp]) (by omega)]
    congr 1; omega

/-- C39: a file made of boxes of other types, a header superbox, and a codestream box is read back: the codestream is the
contents of the codestream box and the colour space is that of the colour box in the header. -/
theorem C39_wellformed_file (pre1 mid : List Box) (inner1 inner2 : List Box) (prec approx : UInt8) (cs : Nat) (code : List UInt8)
    (hp1 : ∀ b ∈ pre1 ++ mid ++ inner1 ++ inner2, b.Ok ∧ b.type ≠ tJp2h ∧ b.type ≠ tColr ∧ b.type ≠ tJp2c)
    (hcs : cs < 2 ^ 32) (hne : code ≠ []) (hc : code.length + 8 < 2 ^ 32)
    (hin : ((inner1 ++ (⟨tColr, [1, prec, approx] ++ be32 cs⟩ : Box) :: inner2).flatMap Box.bytes).length + 8 < 2 ^ 32) :
    let d := ((⟨0x6A502020, be32 0x0D0A870A⟩ : Box) :: pre1 ++
      [(⟨tJp2h, (inner1 ++ (⟨tColr, [1, prec, approx] ++ be32 cs⟩ : Box) :: inner2).flatMap Box.bytes⟩ : Box)] ++ mid ++
      [(⟨tJp2c, code⟩ : Box)]).flatMap Box.bytes
    ∃ off, parseBuffer d = some (true, ⟨some (off, code.length), cs⟩) ∧ slice d off (off + code.length) = code := by
  intro d
  set pre0 : List Box := (⟨0x6A502020, be32 0x0D0A870A⟩ : Box) :: pre1 with h0
  have hp : ∀ b ∈ pre0 ++ mid ++ inner1 ++ inner2, b.Ok ∧ b.type ≠ tJp2h ∧ b.type ≠ tColr ∧ b.type ≠ tJp2c := by
    intro b hb
    simp only [h0, List.cons_append, List.mem_cons] at hb
    rcases hb with rfl | hb
    · exact ⟨⟨by norm_num, by simp [be32_length]⟩, by simp [tJp2h], by simp [tColr], by simp [tJp2c]⟩
    · exact hp1 b hb
  set colr : Box := ⟨tColr, [1, prec, approx] ++ be32 cs⟩ with hcolr
  set inn := inner1 ++ colr :: inner2 with hinn
  set hb : Box := ⟨tJp2h, inn.flatMap Box.bytes⟩ with hhb
  set cb : Box := ⟨tJp2c, code⟩ with hcb
  have hdd : d = pre0.flatMap Box.bytes ++ (hb.bytes ++ (mid.flatMap Box.bytes ++ (cb.bytes ++ []))) := by
    show (pre0 ++ [hb] ++ mid ++ [cb]).flatMap Box.bytes = _
    simp only [List.flatMap_append, List.flatMap_singleton, List.append_assoc, List.append_nil]
  have hhbok : hb.Ok := ⟨by simp [hhb, tJp2h], hin⟩
  have hcbok : cb.Ok := ⟨by simp [hcb, tJp2c], hc⟩
  have hlenpre : 12 ≤ (pre0.flatMap Box.bytes).length := by
    rw [h0, List.flatMap_cons, List.length_append, Box.length_bytes, be32_length]; omega
  have hdl : d.length = (pre0.flatMap Box.bytes).length + hb.bytes.length + (mid.flatMap Box.bytes).length + cb.bytes.length := by
    rw [hdd]; simp only [List.length_append, List.length_nil]; omega
  -- signature
  have hsig : isSignature d = some true := by
    have e0 : d = [] ++ (be32 12 ++ (be32 0x6A502020 ++ (be32 0x0D0A870A ++ (pre1.flatMap Box.bytes ++
        (hb.bytes ++ (mid.flatMap Box.bytes ++ (cb.bytes ++ []))))))) := by
      rw [hdd]
      conv => lhs; rw [h0]
      simp [Box.bytes, be32_length]
    unfold isSignature
    rw [if_neg (by omega)]
    have a0 : rd32 d 0 = some 12 := u32At_be d [] _ _ 0 e0 rfl (by norm_num)
    have a1 : rd32 d 4 = some 0x6A502020 := u32At_be d (be32 12) _ _ 4 (by simpa using e0) rfl (by norm_num)
    have a2 : rd32 d 8 = some 0x0D0A870A := u32At_be d (be32 12 ++ be32 0x6A502020) _ _ 8 (by simpa using e0) rfl (by norm_num)
    simp [a0, a1, a2]
  have len8 : ∀ bs : List Box, bs.length ≤ (bs.flatMap Box.bytes).length / 8 := by
    intro bs
    induction bs with
    | nil => simp
    | cons b bs ih => rw [List.flatMap_cons, List.length_append, Box.length_bytes, List.length_cons]; omega
  have fuel : ∀ n m : Nat, n ≤ m → ∃ k, m = k + n := fun n m h => ⟨m - n, by omega⟩
  -- the header superbox
  have hsub : ∀ k (o : Info), scanBoxes d (k + 1) ((pre0.flatMap Box.bytes).length + 8)
      ((pre0.flatMap Box.bytes).length + hb.bytes.length) o = some { o with enumCs := cs } := by
    intro k o
    have hbb : hb.bytes = be32 (hb.body.length + 8) ++ be32 tJp2h ++ (inner1.flatMap Box.bytes ++ (colr.bytes ++ inner2.flatMap Box.bytes)) := by
      rw [Box.bytes, hhb]; simp [hinn]
    have hbl := hb.length_bytes
    have hbody : hb.body.length = (inner1.flatMap Box.bytes).length + colr.bytes.length + (inner2.flatMap Box.bytes).length := by
      rw [hhb]; simp only [hinn, List.flatMap_append, List.flatMap_cons, List.length_append]; omega
    have hcl := colr.length_bytes
    have l1 := len8 inner1
    have l2 := len8 inner2
    rw [scanBoxes]
    obtain ⟨f, hf⟩ := fuel (1 + inner2.length + 1 + inner1.length)
      (((pre0.flatMap Box.bytes).length + hb.bytes.length - ((pre0.flatMap Box.bytes).length + 8)) / 8 + 1) (by omega)
    rw [hf, show f + (1 + inner2.length + 1 + inner1.length) = (f + 1 + inner2.length + 1) + inner1.length by omega]
    rw [boxLoop_others d _ _ o inner1 _ _ (pre0.flatMap Box.bytes ++ (be32 (hb.body.length + 8) ++ be32 tJp2h))
      (colr.bytes ++ (inner2.flatMap Box.bytes ++ (mid.flatMap Box.bytes ++ (cb.bytes ++ []))))
      (fun b hb => hp b (by simp [hb])) (by rw [hdd, hbb]; simp) (by simp [be32_length]) (by omega)]
    rw [boxLoop_box d _ _ _ _ o colr ⟨by simp [hcolr, tColr], by simp [hcolr, be32_length]⟩
      (pre0.flatMap Box.bytes ++ (be32 (hb.body.length + 8) ++ be32 tJp2h) ++ inner1.flatMap Box.bytes)
      (inner2.flatMap Box.bytes ++ (mid.flatMap Box.bytes ++ (cb.bytes ++ [])))
      (by rw [hdd, hbb]; simp) (by simp [be32_length]; omega) (by omega)]
    have hv : ∀ sub, boxEffect d sub colr.type ((pre0.flatMap Box.bytes).length + 8 + (inner1.flatMap Box.bytes).length + 8)
        ((pre0.flatMap Box.bytes).length + 8 + (inner1.flatMap Box.bytes).length + colr.bytes.length) o =
        some { o with enumCs := cs } := by
      intro sub
      rw [boxEffect, if_neg (by simp [hcolr, tColr, tJp2h]), if_pos rfl, colrBox]
      have hcl7 : colr.bytes.length = 15 := by rw [hcl, hcolr]; simp [be32_length]
      rw [if_pos (by omega)]
      have e1 : d = (pre0.flatMap Box.bytes ++ (be32 (hb.body.length + 8) ++ be32 tJp2h) ++ inner1.flatMap Box.bytes ++
          (be32 15 ++ be32 tColr)) ++ (1 :: prec :: approx :: (be32 cs ++ (inner2.flatMap Box.bytes ++ (mid.flatMap Box.bytes ++
          (cb.bytes ++ []))))) := by
        have hcb2 : colr.bytes = be32 15 ++ be32 tColr ++ 1 :: prec :: approx :: be32 cs := by
          rw [hcolr, Box.bytes]
          simp [be32_length]
        rw [hdd, hbb, hcb2]
        simp only [List.append_assoc, List.cons_append]
      have i1 : d[(pre0.flatMap Box.bytes).length + 8 + (inner1.flatMap Box.bytes).length + 8]? = some 1 := by
        rw [e1, List.getElem?_append_right (by simp [be32_length]; omega)]
        simp only [List.length_append, be32_length]
        rw [show (pre0.flatMap Box.bytes).length + 8 + (inner1.flatMap Box.bytes).length + 8 -
          ((pre0.flatMap Box.bytes).length + (4 + 4) + (inner1.flatMap Box.bytes).length + (4 + 4)) = 0 by omega]
        rfl
      have i2 : rd32 d ((pre0.flatMap Box.bytes).length + 8 + (inner1.flatMap Box.bytes).length + 8 + 3) = some cs :=
        u32At_be d (pre0.flatMap Box.bytes ++ (be32 (hb.body.length + 8) ++ be32 tJp2h) ++ inner1.flatMap Box.bytes ++
          (be32 15 ++ be32 tColr) ++ [1, prec, approx]) (inner2.flatMap Box.bytes ++ (mid.flatMap Box.bytes ++ (cb.bytes ++ []))) cs _
          (by rw [e1]; simp) (by simp [be32_length]; omega) hcs
      rw [i1, i2]
      rfl
    rw [hv]
    simp only [Option.bind_some]
    rw [boxLoop_others d _ _ _ inner2 _ _ (pre0.flatMap Box.bytes ++ (be32 (hb.body.length + 8) ++ be32 tJp2h) ++
      inner1.flatMap Box.bytes ++ colr.bytes) (mid.flatMap Box.bytes ++ (cb.bytes ++ []))
      (fun b hb => hp b (by simp [hb])) (by rw [hdd, hbb]; simp) (by simp [be32_length]; omega) (by omega)]
    rw [boxLoop, if_neg (by omega)]
  -- the file
  have hcl := cb.length_bytes
  have hcbb : cb.body.length = code.length := rfl
  have hhl := hb.length_bytes
  refine ⟨(pre0.flatMap Box.bytes).length + hb.bytes.length + (mid.flatMap Box.bytes).length + 8, ?_, ?_⟩
  · have hscan : scanBoxes d 17 0 d.length {} =
        some ⟨some ((pre0.flatMap Box.bytes).length + hb.bytes.length + (mid.flatMap Box.bytes).length + 8, code.length), cs⟩ := by
      have l1 := len8 pre0
      have l2 := len8 mid
      rw [scanBoxes]
      obtain ⟨f, hf⟩ := fuel (1 + 1 + mid.length + 1 + pre0.length) ((d.length - 0) / 8 + 1) (by omega)
      rw [hf, show f + (1 + 1 + mid.length + 1 + pre0.length) = (f + 1 + 1 + mid.length + 1) + pre0.length by omega]
      rw [boxLoop_others d _ _ _ pre0 _ 0 [] _ (fun b hb => hp b (by simp [hb])) hdd rfl (by omega)]
      rw [Nat.zero_add]
      rw [boxLoop_box d _ _ _ _ _ hb hhbok (pre0.flatMap Box.bytes) _ hdd rfl (by omega)]
      rw [boxEffect, if_pos rfl, hsub 15]
      simp only [Option.bind_some]
      rw [boxLoop_others d _ _ _ mid _ _ (pre0.flatMap Box.bytes ++ hb.bytes) (cb.bytes ++ []) (fun b hb => hp b (by simp [hb]))
        (by rw [hdd]; simp) (by rw [List.length_append]) (by omega)]
      rw [boxLoop_box d _ _ _ _ _ cb hcbok (pre0.flatMap Box.bytes ++ hb.bytes ++ mid.flatMap Box.bytes) []
        (by rw [hdd]; simp) (by simp only [List.length_append]) (by omega)]
      rw [boxEffect, if_neg (by simp [hcb, tJp2c, tJp2h]), if_neg (by simp [hcb, tJp2c, tColr]), if_pos rfl]
      simp only [Option.bind_some]
      rw [boxLoop, if_neg (by omega)]
      rw [show (pre0.flatMap Box.bytes).length + hb.bytes.length + (mid.flatMap Box.bytes).length + cb.bytes.length -
        ((pre0.flatMap Box.bytes).length + hb.bytes.length + (mid.flatMap Box.bytes).length + 8) = code.length by omega]
    have hpos : 0 < code.length := List.length_pos_iff.2 hne
    unfold parseBuffer
    rw [hsig, hscan]
    simp [hpos]
  · rw [hdd]
    rw [show cb.bytes = be32 (code.length + 8) ++ be32 tJp2c ++ code from rfl]
    rw [show pre0.flatMap Box.bytes ++ (hb.bytes ++ (mid.flatMap Box.bytes ++ ((be32 (code.length + 8) ++ be32 tJp2c ++ code) ++ []))) =
      (pre0.flatMap Box.bytes ++ hb.bytes ++ mid.flatMap Box.bytes ++ (be32 (code.length + 8) ++ be32 tJp2c)) ++ (code ++ []) by
        simp only [List.append_assoc]]
    exact slice_mid _ _ _ _ _ (by simp [be32_length]; omega) rfl

/-! ### The writer -/

/-- C39: the file the encoder writes for a codestream is read back as that codestream with the colour space of the
encoder, and its length is the length the encoder reports.  Codestreams up to 4 GiB less 9 bytes. -/
theorem C39_writer_roundtrip (h : ImageHdr) (srgb : Bool) (code file : List UInt8) (n : Nat) (hne : code ≠ [])
    (hc : code.length + 8 < 2 ^ 32) (hw : encodeFile h srgb code = some (file, n)) :
    n = file.length ∧ ∃ off, parseBuffer file = some (true, ⟨some (off, code.length),
        if h.ssiz.length = 1 then 17 else if srgb then 16 else 18⟩) ∧ slice file off (off + code.length) = code := by
  unfold encodeFile writeBoxes at hw
  simp only [Option.bind_eq_bind, Option.pure_def, Option.map_eq_some_iff, Option.bind_eq_some_iff, Option.some.injEq] at hw
  obtain ⟨⟨hd, n'⟩, ⟨cs, hcs, hx⟩, hy⟩ := hw
  simp only [Prod.mk.injEq] at hx hy
  obtain ⟨hx1, hx2⟩ := hx
  obtain ⟨hy1, hy2⟩ := hy
  have hnc : h.ssiz.length ≤ 3 ∧ cs = (if h.ssiz.length = 1 then 17 else if srgb then 16 else 18) := by
    unfold enumCsOf at hcs
    split_ifs at hcs with a b c <;> simp only [Option.some.injEq] at hcs
    · exact ⟨by omega, by rw [if_neg (by omega)]; simp [b, hcs]⟩
    · exact ⟨by omega, by rw [if_neg (by omega)]; simp [b, hcs]⟩
    · exact ⟨by omega, by rw [if_pos c, hcs]⟩
  obtain ⟨hn3, hcs2⟩ := hnc
  have hcslt : cs < 2 ^ 32 := by rw [hcs2]; split_ifs <;> norm_num
  set ih : Box := ⟨0x69686472, be32 (h.ysiz - h.yosiz) ++ be32 (h.xsiz - h.xosiz) ++ be16 h.ssiz.length ++
    [UInt8.ofNat (bpcField h), 7, 0, 0]⟩ with hih
  set bp : Box := ⟨0x62706363, h.ssiz.map fun s => UInt8.ofNat (depthM1 s ||| signBit s)⟩ with hbp
  set ft : Box := ⟨0x66747970, be32 0x6A706820 ++ be32 0 ++ be32 0x6A706820⟩ with hft
  have eih : ihdrBox h = ih.bytes := by
    simp [ihdrBox, Box.bytes, hih, putDword_eq, putWord_eq, be32_length, be16_length]
  have ebp : bpccBox h = bp.bytes := by
    simp [bpccBox, Box.bytes, hbp, putDword_eq, Nat.add_comm]
  have eco : colrOut cs = (⟨tColr, [1, 0, 0] ++ be32 cs⟩ : Box).bytes := by
    simp [colrOut, Box.bytes, putDword_eq, be32_length, tColr]
  have lih : ih.bytes.length = 22 := by rw [Box.length_bytes, hih]; simp [be32_length, be16_length]
  have lbp : bp.bytes.length = 8 + h.ssiz.length := by rw [Box.length_bytes, hbp]; simp; omega
  have lco : (⟨tColr, [1, 0, 0] ++ be32 cs⟩ : Box).bytes.length = 15 := by rw [Box.length_bytes]; simp [be32_length]
  set inner1 : List Box := if needBpcc h then [ih, bp] else [ih] with hinner
  have einn : (inner1 ++ [(⟨tColr, [1, 0, 0] ++ be32 cs⟩ : Box)]).flatMap Box.bytes =
      ihdrBox h ++ (if needBpcc h then bpccBox h else []) ++ colrOut cs := by
    rw [hinner, eih, ebp, eco]
    split_ifs <;> simp
  have linn : ((inner1 ++ [(⟨tColr, [1, 0, 0] ++ be32 cs⟩ : Box)]).flatMap Box.bytes).length + 8 = jp2hLen h := by
    rw [einn, eih, ebp, eco, jp2hLen]
    split_ifs <;> simp only [List.length_append, lih, lbp, lco, List.length_nil] <;> omega
  have hj : jp2hLen h < 2 ^ 32 := by unfold jp2hLen; split_ifs <;> omega
  have key := C39_wellformed_file [ft] [] inner1 [] 0 0 cs code (by
      intro b hb
      have : b = ft ∨ b = ih ∨ b = bp := by
        rw [hinner] at hb
        split_ifs at hb <;> simp at hb <;> tauto
      rcases this with rfl | rfl | rfl
      · exact ⟨⟨by rw [hft]; norm_num, by rw [hft]; simp [be32_length]⟩, by simp [hft, tJp2h], by simp [hft, tColr], by simp [hft, tJp2c]⟩
      · exact ⟨⟨by rw [hih]; norm_num, by rw [Box.length_bytes] at lih; omega⟩, by simp [hih, tJp2h], by simp [hih, tColr], by simp [hih, tJp2c]⟩
      · exact ⟨⟨by rw [hbp]; norm_num, by rw [Box.length_bytes] at lbp; omega⟩, by simp [hbp, tJp2h], by simp [hbp, tColr], by simp [hbp, tJp2c]⟩)
    hcslt hne hc (by rw [linn]; exact hj)
  have hjc : jp2cLen code.length = code.length + 8 := by
    unfold jp2cLen; rw [Nat.mod_eq_of_lt (by omega), Nat.mod_eq_of_lt (by omega)]
  have hfile : file = ((⟨0x6A502020, be32 0x0D0A870A⟩ : Box) :: [ft] ++
      [(⟨tJp2h, (inner1 ++ [(⟨tColr, [1, 0, 0] ++ be32 cs⟩ : Box)]).flatMap Box.bytes⟩ : Box)] ++ [] ++
      [(⟨tJp2c, code⟩ : Box)]).flatMap Box.bytes := by
    rw [← hy1, ← hx1, hjc]
    have e1 : jp2hBox h cs = (⟨tJp2h, (inner1 ++ [(⟨tColr, [1, 0, 0] ++ be32 cs⟩ : Box)]).flatMap Box.bytes⟩ : Box).bytes := by
      rw [Box.bytes]
      simp only
      rw [linn, einn, jp2hBox, putDword_eq, putDword_eq]
      simp [tJp2h]
    rw [e1]
    simp only [List.flatMap_append, List.flatMap_cons, List.flatMap_nil, List.append_nil, putDword_eq, hft, List.append_assoc]
    simp [Box.bytes, be32_length, tJp2c]
  simp only [] at key
  refine ⟨?_, ?_⟩
  · rw [hfile, ← hy2, ← hx2, hjc]
    simp only [List.flatMap_append, List.flatMap_cons, List.flatMap_nil, List.append_nil, List.length_append, Box.length_bytes,
      be32_length, hft] at linn ⊢
    omega
  · obtain ⟨off, k1, k2⟩ := key
    rw [← hfile] at k1 k2
    exact ⟨off, by rw [← hcs2]; exact k1, k2⟩

/-- The hypotheses are met by a colour image with components of different depth (so that a bpcc box is written). -/
example : ∃ file, encodeFile ⟨40, 30, 4, 2, [7, 7, 0x89]⟩ false [0xFF, 0x4F, 0xFF, 0xD9] = some (file, 100) ∧
    parseBuffer file = some (true, ⟨some (96, 4), 18⟩) :=
  ⟨_, rfl, by decide +kernel⟩

/-- A codestream of 4 GiB less 7 bytes gets the length field 1, which announces an extended length that is not there. -/
theorem C39_length_wraps : jp2cLen (2 ^ 32 - 7) = 1 := by decide

/-! ### C47: what the header boxes say about the components -/

/-- How a reader learns the depth and sign of component `c`: from BPC, or from the bpcc box if BPC is 255. -/
def describedAs (bpc : Nat) (bpcc : List UInt8) (c : Nat) : Option UInt8 := if bpc = 255 then bpcc[c]? else some (UInt8.ofNat bpc)

theorem depth_sign (s : Nat) (h : s < 256) : depthM1 s ||| signBit s = s := by
  have key : ∀ s : Fin 256, depthM1 s ||| signBit s = s := by decide +kernel
  exact key ⟨s, h⟩

theorem bpcField_cons (h : ImageHdr) (s0 : Nat) (rest : List Nat) (hl : h.ssiz = s0 :: rest) :
    bpcField h = (if rest.any (fun s => depthM1 s0 != depthM1 s) then 0xFF else depthM1 s0) ||| signBit s0 := by
  cases h
  subst hl
  rfl

/-- C47, partial: when all components have the same sign, the image header box and the bits-per-component box give every
component its depth and sign.  The full statement has no condition on the signs; it is false, see below. -/
theorem C47_component_depths_partial (h : ImageHdr) (hs : ∀ s ∈ h.ssiz, s < 256)
    (hsign : ∀ s ∈ h.ssiz, ∀ s' ∈ h.ssiz, (s < 128 ↔ s' < 128)) (c x : Nat) (hx : h.ssiz[c]? = some x) :
    describedAs (bpcField h) (h.ssiz.map fun s => UInt8.ofNat (depthM1 s ||| signBit s)) c = some (UInt8.ofNat x) := by
  have hcm : x ∈ h.ssiz := List.mem_of_getElem? hx
  obtain ⟨s0, rest, hl⟩ : ∃ s0 rest, h.ssiz = s0 :: rest := by
    cases hx : h.ssiz with
    | nil => rw [hx] at hcm; simp at hcm
    | cons a l => exact ⟨a, l, rfl⟩
  have h0m : s0 ∈ h.ssiz := by rw [hl]; simp
  unfold describedAs
  by_cases hb : bpcField h = 255
  · rw [if_pos hb, List.getElem?_map, hx, Option.map_some, depth_sign _ (hs _ hcm)]
  · rw [if_neg hb]
    rw [bpcField_cons h s0 rest hl] at hb ⊢
    rw [hl] at hcm
    have hany : rest.any (fun s => depthM1 s0 != depthM1 s) = false := by
      by_contra hx
      rw [Bool.not_eq_false] at hx
      rw [if_pos hx] at hb
      refine hb ?_
      unfold signBit
      split_ifs <;> rfl
    rw [if_neg (by rw [hany]; simp), depth_sign s0 (hs s0 h0m)]
    have hd : depthM1 s0 = depthM1 x := by
      rcases List.mem_cons.1 hcm with e | e
      · rw [e]
      · rw [List.any_eq_false] at hany
        have := hany _ e
        simpa using this
    rw [← hl] at hcm
    have hsg := hsign s0 h0m _ hcm
    have key : ∀ a b : Fin 256, depthM1 a = depthM1 b → ((a : Nat) < 128 ↔ (b : Nat) < 128) → (a : Nat) = b := by decide +kernel
    have := key ⟨s0, hs s0 h0m⟩ ⟨x, hs _ hcm⟩ hd hsg
    simp only at this
    rw [this]

/-- Three signed components of different depth. -/
example : (∀ s ∈ [0x87, 0x8B, 0x87], s < 256) ∧ (∀ s ∈ [0x87, 0x8B, 0x87], ∀ s' ∈ [0x87, 0x8B, 0x87], (s < 128 ↔ s' < 128)) ∧
    bpcField ⟨40, 30, 4, 2, [0x87, 0x8B, 0x87]⟩ = 255 := by decide

/-- Components of the same depth but different sign: the boxes say that all have the sign of the first. -/
theorem C47_mixed_signs_misdescribed :
    describedAs (bpcField ⟨8, 8, 0, 0, [7, 0x87, 0x87]⟩) ([7, 0x87, 0x87].map fun s => UInt8.ofNat (depthM1 s ||| signBit s)) 1 =
      some 7 := by decide

end Verif.Jph
