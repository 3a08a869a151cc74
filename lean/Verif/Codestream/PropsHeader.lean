import Verif.Codestream.PropsMarkers2
/-
C36, the whole main header: what `flush` writes, `read` gives back.
-/
namespace Verif.Cs
open Verif.Jph (putWord putDword putWord_eq putDword_eq)
open Verif.Jpip (be16 be32 be16_length be32_length be16_val)

/-- `n` rounds of the loop read the segments `w` and take the header from `h` to `h'`. -/
def Steps (h : Hdr) (w : List UInt8) (n : Nat) (h' : Hdr) : Prop :=
  ∀ pre post pad : List UInt8, (pre ++ w ++ post).length < 2 ^ 32 → ∀ fuel,
    Hdr.loop pad (fuel + n) h ⟨pre ++ w ++ post, pre.length⟩ = Hdr.loop pad fuel h' ⟨pre ++ w ++ post, pre.length + w.length⟩

theorem Steps.nil (h : Hdr) : Steps h [] 0 h := by
  intro pre post pad _ fuel
  rfl

theorem Steps.append {h h1 h2 : Hdr} {w1 w2 : List UInt8} {n1 n2 : Nat} (a : Steps h w1 n1 h1) (b : Steps h1 w2 n2 h2) :
    Steps h (w1 ++ w2) (n1 + n2) h2 := by
  intro pre post pad hl fuel
  have e1 : pre ++ (w1 ++ w2) ++ post = pre ++ w1 ++ (w2 ++ post) := by simp
  have e2 : pre ++ (w1 ++ w2) ++ post = (pre ++ w1) ++ w2 ++ post := by simp
  have ha := a pre (w2 ++ post) pad (by rw [← e1]; exact hl) (fuel + n2)
  have hb := b (pre ++ w1) post pad (by rw [← e2]; exact hl) fuel
  rw [← e1] at ha
  rw [← e2] at hb
  rw [show fuel + (n1 + n2) = fuel + n2 + n1 by omega, ha, List.length_append, ← Nat.add_assoc]
  rw [List.length_append] at hb
  exact hb

theorem Steps.one {α : Type} {h : Hdr} {code : Nat} {w : List UInt8} {rd : List UInt8 → Src → Out (α × Src)} {v : α}
    {upd : α → Hdr} (hr : RoundTrip code w rd v) (hc : code ≠ 0xFF90) (hlt : code < 2 ^ 16)
    (hstep : ∀ pad s, h.step pad code s = (rd pad s).bind fun r => .ok (upd r.1, r.2)) : Steps h w 1 (upd v) := by
  intro pre post pad hl fuel
  have hw : w = be16 code ++ w.drop 2 := by
    rw [← hr.code, List.take_append_drop]
  have hg : Src.getWord ⟨pre ++ w ++ post, pre.length⟩ = .ok (code, ⟨pre ++ w ++ post, pre.length + 2⟩) :=
    getWord_at (pre := pre) (post := w.drop 2 ++ post)
      (by rw [← List.append_assoc (be16 code), ← hw, List.append_assoc]) rfl hl hlt
  rw [Hdr.loop, hg]
  simp only
  rw [if_neg hc, hstep, hr.read pre post pad hl]
  rfl

/-- Each segment of the header survives the round trip by itself; the decoder does not learn `reversible` from a quantisation
segment. -/
structure Written (h h' : Hdr) : Prop where
  siz : ∃ z, h.siz = some z ∧ h'.siz = some z ∧ RoundTrip 0xFF51 z.write (fun pad => segment pad readSiz) z ∧
    (∀ q ∈ h.qcc, RoundTrip 0xFF5D q.write (fun pad => segment pad (readQcc z.csiz)) { q with reversible := false })
  cap : h'.cap = h.cap ∧ ∀ c, h.cap = some c → RoundTrip 0xFF50 c.write (fun pad => segment pad readCap) c
  cod : ∃ c, h.cod = some c ∧ h'.cod = some c ∧ RoundTrip 0xFF52 c.write (fun pad => segment pad readCod) c
  qcd : ∃ q, h.qcd = some q ∧ h'.qcd = some { q with reversible := false } ∧
    RoundTrip 0xFF5C q.write (fun pad => segment pad readQcd) { q with reversible := false }
  qcc : h'.qcc = h.qcc.map fun q => { q with reversible := false }
  tlm : h'.tlm = h.tlm ∧ ∀ t ∈ h.tlm, ∃ w, t.write = .ok w ∧ RoundTrip 0xFF55 w (fun pad => segment pad readTlm) t
  com : h'.com = h.com ∧ ∀ c ∈ h.com, RoundTrip 0xFF64 c.write (fun pad => segment pad readCom) c
  others : h' = { siz := h'.siz, cap := h'.cap, cod := h'.cod, qcd := h'.qcd, qcc := h'.qcc, tlm := h'.tlm, com := h'.com }

theorem steps_qcc (qs : List Qcc) (h : Hdr) (z : Siz) (hz : h.siz = some z)
    (hq : ∀ q ∈ qs, RoundTrip 0xFF5D q.write (fun pad => segment pad (readQcc z.csiz)) { q with reversible := false }) :
    Steps h (qs.flatMap Qcc.write) qs.length { h with qcc := h.qcc ++ qs.map fun q => { q with reversible := false } } := by
  induction qs generalizing h with
  | nil =>
    have : ({ h with qcc := h.qcc ++ ([] : List Qcc).map fun q => { q with reversible := false } } : Hdr) = h := by
      rw [List.map_nil, List.append_nil]
    rw [this]
    exact Steps.nil h
  | cons q qs ih =>
    have h1 : Steps h q.write 1 { h with qcc := h.qcc ++ [{ q with reversible := false }] } :=
      Steps.one (upd := fun r => { h with qcc := h.qcc ++ [r] }) (hq q (List.mem_cons_self ..)) (by decide) (by decide)
        (fun pad s => by
          simp [Hdr.step, needSiz, hz])
    have h2 := ih { h with qcc := h.qcc ++ [{ q with reversible := false }] } hz (fun q' hq' => hq q' (List.mem_cons_of_mem _ hq'))
    have h3 := h1.append h2
    rw [Nat.add_comm] at h3
    rw [List.flatMap_cons, List.length_cons, List.map_cons]
    simp only [List.append_assoc, List.singleton_append] at h3
    exact h3

theorem steps_com (cs : List Com) (h : Hdr)
    (hq : ∀ c ∈ cs, RoundTrip 0xFF64 c.write (fun pad => segment pad readCom) c) :
    Steps h (cs.flatMap Com.write) cs.length { h with com := h.com ++ cs } := by
  induction cs generalizing h with
  | nil =>
    have : ({ h with com := h.com ++ [] } : Hdr) = h := by rw [List.append_nil]
    rw [this]
    exact Steps.nil h
  | cons c cs ih =>
    have h1 : Steps h c.write 1 { h with com := h.com ++ [c] } :=
      Steps.one (upd := fun r => { h with com := h.com ++ [r] }) (hq c (List.mem_cons_self ..)) (by decide) (by decide)
        (fun pad s => rfl)
    have h2 := ih { h with com := h.com ++ [c] } (fun q' hq' => hq q' (List.mem_cons_of_mem _ hq'))
    have h3 := h1.append h2
    rw [Nat.add_comm] at h3
    rw [List.flatMap_cons, List.length_cons]
    simp only [List.append_assoc, List.singleton_append] at h3
    exact h3

theorem steps_tlm (ts : List Tlm) (h : Hdr)
    (hq : ∀ t ∈ ts, ∃ w, t.write = .ok w ∧ RoundTrip 0xFF55 w (fun pad => segment pad readTlm) t) :
    ∃ w, Hdr.flush.writeAll ts = .ok w ∧ Steps h w ts.length { h with tlm := h.tlm ++ ts } := by
  induction ts generalizing h with
  | nil =>
    have : ({ h with tlm := h.tlm ++ [] } : Hdr) = h := by rw [List.append_nil]
    rw [this]
    exact ⟨[], rfl, Steps.nil h⟩
  | cons t ts ih =>
    obtain ⟨w, hw, hr⟩ := hq t (List.mem_cons_self ..)
    have h1 : Steps h w 1 { h with tlm := h.tlm ++ [t] } :=
      Steps.one (upd := fun r => { h with tlm := h.tlm ++ [r] }) hr (by decide) (by decide) (fun pad s => rfl)
    obtain ⟨w2, hw2, h2⟩ := ih { h with tlm := h.tlm ++ [t] } (fun q' hq' => hq q' (List.mem_cons_of_mem _ hq'))
    have h3 := h1.append h2
    rw [Nat.add_comm] at h3
    simp only [List.append_assoc, List.singleton_append] at h3
    refine ⟨w ++ w2, ?_, h3⟩
    rw [Hdr.flush.writeAll, hw, Out.bind, hw2]
    rfl

/-- The round trip of the whole header from those of its segments. -/
theorem header_roundTrip {h h' : Hdr} (hw : Written h h') :
    ∃ bytes n, h.flush = .ok bytes ∧ ∀ post pad fuel, (be16 0xFF4F ++ bytes ++ be16 0xFF90 ++ post).length < 2 ^ 32 → n < fuel →
      Hdr.read pad fuel {} ⟨be16 0xFF4F ++ bytes ++ be16 0xFF90 ++ post, 0⟩ =
        some (.ok (h', ⟨be16 0xFF4F ++ bytes ++ be16 0xFF90 ++ post, bytes.length + 4⟩)) := by
  obtain ⟨z, hz, hz', hzr, hqccr⟩ := hw.siz
  obtain ⟨c, hc, hc', hcr⟩ := hw.cod
  obtain ⟨q, hq, hq', hqr⟩ := hw.qcd
  have s1 : Steps {} z.write 1 { siz := some z } :=
    Steps.one (upd := fun r => { siz := some r }) hzr (by decide) (by decide) (fun pad s => rfl)
  have s2 : ∃ n, Steps { siz := some z } (match h.cap with | some c => c.write | none => []) n { siz := some z, cap := h.cap } := by
    cases hcap : h.cap with
    | none => exact ⟨0, Steps.nil _⟩
    | some cp =>
      exact ⟨1, Steps.one (upd := fun r => { siz := some z, cap := some r }) (hw.cap.2 cp hcap) (by decide) (by decide) (fun pad s => rfl)⟩
  obtain ⟨n2, s2⟩ := s2
  have s3 : Steps { siz := some z, cap := h.cap } c.write 1 { siz := some z, cap := h.cap, cod := some c } :=
    Steps.one (upd := fun r => { siz := some z, cap := h.cap, cod := some r }) hcr (by decide) (by decide) (fun pad s => rfl)
  have s4 : Steps { siz := some z, cap := h.cap, cod := some c } q.write 1
      { siz := some z, cap := h.cap, cod := some c, qcd := some { q with reversible := false } } :=
    Steps.one (upd := fun r => { siz := some z, cap := h.cap, cod := some c, qcd := some r }) hqr (by decide) (by decide)
      (fun pad s => rfl)
  have s5 := steps_qcc h.qcc { siz := some z, cap := h.cap, cod := some c, qcd := some { q with reversible := false } } z rfl hqccr
  obtain ⟨tw, htw, s6⟩ := steps_tlm h.tlm
    { siz := some z, cap := h.cap, cod := some c, qcd := some { q with reversible := false },
      qcc := [] ++ h.qcc.map fun q => { q with reversible := false } } hw.tlm.2
  have s7 := steps_com h.com
    { siz := some z, cap := h.cap, cod := some c, qcd := some { q with reversible := false },
      qcc := [] ++ h.qcc.map (fun q => { q with reversible := false }), tlm := [] ++ h.tlm } hw.com.2
  have S := (((((s1.append s2).append s3).append s4).append s5).append s6).append s7
  have hfin : (
    { siz := some z, cap := h.cap, cod := some c, qcd := some { q with reversible := false },
      qcc := [] ++ h.qcc.map (fun q => { q with reversible := false }), tlm := [] ++ h.tlm, com := [] ++ h.com } : Hdr) = h' := by
    rw [hw.others, hz', hw.cap.1, hc', hq', hw.qcc, hw.tlm.1, hw.com.1]
    simp only [List.nil_append]
  have hS := S
  simp only at hS
  rw [hfin] at hS
  generalize hB : z.write ++ (match h.cap with | some c => c.write | none => []) ++ c.write ++ q.write ++
        h.qcc.flatMap Qcc.write ++ tw ++ h.com.flatMap Com.write = bytes at hS
  generalize 1 + n2 + 1 + 1 + h.qcc.length + h.tlm.length + h.com.length = n at hS
  refine ⟨bytes, n, ?_, ?_⟩
  · rw [Hdr.flush, hz, hc, hq]
    simp only
    rw [htw, ← hB]
    rfl
  · intro post pad fuel hl hn
    have e1 : be16 0xFF4F ++ bytes ++ be16 0xFF90 ++ post = be16 0xFF4F ++ bytes ++ (be16 0xFF90 ++ post) := by simp
    have g0 : Src.getWord ⟨be16 0xFF4F ++ bytes ++ be16 0xFF90 ++ post, 0⟩ =
        .ok (0xFF4F, ⟨be16 0xFF4F ++ bytes ++ be16 0xFF90 ++ post, 0 + 2⟩) :=
      getWord_at (pre := []) (post := bytes ++ (be16 0xFF90 ++ post)) (by simp) rfl hl (by decide)
    have g1 : Src.getWord ⟨be16 0xFF4F ++ bytes ++ be16 0xFF90 ++ post, 2 + bytes.length⟩ =
        .ok (0xFF90, ⟨be16 0xFF4F ++ bytes ++ be16 0xFF90 ++ post, 2 + bytes.length + 2⟩) :=
      getWord_at (pre := be16 0xFF4F ++ bytes) (post := post) (by simp) (by rw [List.length_append, be16_length]) hl (by decide)
    have hloop := hS (be16 0xFF4F) (be16 0xFF90 ++ post) pad (by rw [← e1]; exact hl) (fuel - n)
    rw [← e1, show fuel - n + n = fuel by omega, be16_length] at hloop
    have hppm : h'.ppm = [] := by rw [hw.others]
    rw [Hdr.read, g0]
    simp only
    rw [show (0 : Nat) + 2 = 2 from rfl, hloop, show fuel - n = (fuel - n - 1) + 1 by omega, Hdr.loop, g1]
    simp only [if_true]
    rw [Hdr.finish, if_pos hppm, show 2 + bytes.length + 2 = bytes.length + 4 by omega]
    rfl

theorem exists_qcc (csiz : Nat) (qs : List (Nat × Nat × Nat × Bool × Bool × List Nat))
    (hq : ∀ q ∈ qs, QuantOk q.2.1 q.2.2.1 q.2.2.2.1 q.2.2.2.2.1 q.2.2.2.2.2 ∧ q.1 < if csiz < 257 then 256 else 2 ^ 16) :
    ∃ rs, List.Forall₂ (fun (q : Nat × Nat × Nat × Bool × Bool × List Nat) r =>
        mkQcc csiz q.1 q.2.1 q.2.2.1 q.2.2.2.1 q.2.2.2.2.1 q.2.2.2.2.2 = .ok r) qs rs ∧
      ∀ r ∈ rs, RoundTrip 0xFF5D r.write (fun pad => segment pad (readQcc csiz)) { r with reversible := false } := by
  induction qs with
  | nil => exact ⟨[], List.Forall₂.nil, by simp⟩
  | cons q qs ih =>
    obtain ⟨rs, h1, h2⟩ := ih (fun p hp => hq p (List.mem_cons_of_mem _ hp))
    obtain ⟨ho, hc⟩ := hq q (List.mem_cons_self ..)
    obtain ⟨r, hr, hrt, -⟩ := C36_qcc ho hc
    refine ⟨r :: rs, List.Forall₂.cons hr h1, ?_⟩
    intro x hx
    rcases List.mem_cons.mp hx with rfl | hx
    · exact hrt
    · exact h2 x hx

/-- C36, the main header.  The encoder's header — SIZ, perhaps CAP, COD, QCD, a QCC for some components, perhaps TLM, comments —
is written, and a fresh decoder that reads SOC, these bytes and SOT finds every segment as it was and stands behind the SOT
marker, whatever follows. -/
theorem C36_main_header {r x y xo yo xt yt xto yto c guard levels : Nat} {comps : List (Nat × Nat × Nat)} {needCap : Bool}
    {reversible derived : Bool} {sp : List Nat} {p : CodParams} {caps : Option (List (Nat × Nat))}
    {quants : List (Nat × Nat × Nat × Bool × Bool × List Nat)} {lens : Option (List Nat × List Nat)}
    {coms : List (List UInt8 × Bool)}
    (hsiz : SizOk r x y xo yo xt yt xto yto c comps) (hcod : CodOk p) (hqcd : QuantOk guard levels reversible derived sp)
    (hcap : ∀ l ∈ caps, (l.map Prod.snd).Nodup ∧ ∀ p ∈ l, p.1 < 2 ^ 16 ∧ 1 ≤ p.2 ∧ p.2 ≤ 32)
    (hqcc : ∀ q ∈ quants, QuantOk q.2.1 q.2.2.1 q.2.2.2.1 q.2.2.2.2.1 q.2.2.2.2.2 ∧ q.1 < if c < 257 then 256 else 2 ^ 16)
    (htlm : ∀ t ∈ lens, t.1 ≠ [] ∧ t.1.length = t.2.length ∧ t.2.length ≤ 10921 ∧ (∀ i ∈ t.1, i < 2 ^ 16) ∧ ∀ l ∈ t.2, l < 2 ^ 32)
    (hcom : ∀ m ∈ coms, m.1.length ≤ 65531) :
    ∃ z cd qd qs, mkSiz r x y xo yo xt yt xto yto c comps needCap = .ok z ∧ mkCod p = .ok cd ∧
      mkQcd guard levels reversible derived sp = .ok qd ∧
      List.Forall₂ (fun (q : Nat × Nat × Nat × Bool × Bool × List Nat) r =>
        mkQcc c q.1 q.2.1 q.2.2.1 q.2.2.2.1 q.2.2.2.2.1 q.2.2.2.2.2 = .ok r) quants qs ∧
      ∃ bytes n,
        Hdr.flush { siz := some z, cap := caps.map capOf, cod := some cd, qcd := some qd, qcc := qs,
                    tlm := (lens.map fun t => mkTlm 0 t.1 t.2).toList, com := coms.map fun m => mkCom m.1 m.2 } = .ok bytes ∧
        ∀ post pad fuel, (be16 0xFF4F ++ bytes ++ be16 0xFF90 ++ post).length < 2 ^ 32 → n < fuel →
          Hdr.read pad fuel {} ⟨be16 0xFF4F ++ bytes ++ be16 0xFF90 ++ post, 0⟩ = some (.ok
            ({ siz := some z, cap := caps.map capOf, cod := some cd, qcd := some { qd with reversible := false },
               qcc := qs.map (fun q => { q with reversible := false }),
               tlm := (lens.map fun t => mkTlm 0 t.1 t.2).toList, com := coms.map fun m => mkCom m.1 m.2 },
             ⟨be16 0xFF4F ++ bytes ++ be16 0xFF90 ++ post, bytes.length + 4⟩)) := by
  obtain ⟨z, hz, hzr, -, -, -, hzc, -⟩ := C36_siz needCap hsiz
  obtain ⟨cd, hcd, hcdr, -⟩ := C36_cod p hcod
  obtain ⟨qd, hqd, hqdr, -⟩ := C36_qcd hqcd
  obtain ⟨qs, hqs, hqsr⟩ := exists_qcc c quants hqcc
  refine ⟨z, cd, qd, qs, hz, hcd, hqd, hqs, header_roundTrip ?_⟩
  refine ⟨⟨z, rfl, rfl, hzr, ?_⟩, ⟨rfl, ?_⟩, ⟨cd, rfl, rfl, hcdr⟩, ⟨qd, rfl, rfl, hqdr⟩, rfl, ⟨rfl, ?_⟩, ⟨rfl, ?_⟩, rfl⟩
  · rw [hzc]; exact hqsr
  · intro cp hcp
    obtain ⟨l, hl, rfl⟩ := Option.map_eq_some_iff.mp hcp
    obtain ⟨a, b⟩ := hcap l hl
    exact (C36_cap l a b).1
  · intro t ht
    rw [Option.mem_toList] at ht
    obtain ⟨e, he, rfl⟩ := Option.map_eq_some_iff.mp ht
    obtain ⟨h1, h2, h3, h4, h5⟩ := htlm e he
    obtain ⟨w, hw1, hw2, -⟩ := C36_tlm (z := 0) (by decide) h1 h2 h4 h5 h3
    exact ⟨w, hw1, hw2⟩
  · intro m hm
    obtain ⟨e, he, rfl⟩ := List.mem_map.mp hm
    exact (C36_com e.1 e.2 (hcom e he)).1

/-- Nine tiles of three components, with CAP, a QCC for each chroma component, TLM and the encoder's comment: the hypotheses of
`C36_main_header` can be met together. -/
example : SizOk 0 1920 1920 0 0 640 640 0 0 3 [(7, 1, 1), (7, 2, 2), (7, 2, 2)] ∧
    CodOk ⟨false, true, false, 2, 1, 1, 1, 4, 4, 0x40, 0, [8, 7], [8, 7]⟩ ∧
    QuantOk 2 1 false false [0x7000, 0x6800, 0x6801, 0x6002] ∧
    (∀ l ∈ some [((0x0020 : Nat), (15 : Nat))], (l.map Prod.snd).Nodup ∧ ∀ p ∈ l, p.1 < 2 ^ 16 ∧ 1 ≤ p.2 ∧ p.2 ≤ 32) ∧
    (∀ q ∈ [((1 : Nat), (2 : Nat), (1 : Nat), false, false, [0x7000, 0x6800, 0x6801, 0x6002]),
            (2, 2, 1, false, false, [0x7000, 0x6800, 0x6801, 0x6002])],
      QuantOk q.2.1 q.2.2.1 q.2.2.2.1 q.2.2.2.2.1 q.2.2.2.2.2 ∧ q.1 < if (3 : Nat) < 257 then 256 else 2 ^ 16) ∧
    (∀ t ∈ some (List.range 9, List.replicate 9 1000), t.1 ≠ [] ∧ t.1.length = t.2.length ∧ t.2.length ≤ 10921 ∧
      (∀ i ∈ t.1, i < 2 ^ 16) ∧ ∀ l ∈ t.2, l < 2 ^ 32) := by
  refine ⟨?_, ?_, ?_, ?_, ?_, ?_⟩
  · refine ⟨?_, ?_, ?_, ?_, ?_, ?_, ?_, ?_, ?_, ?_, ?_, ?_⟩ <;> simp [CompOk]
  · refine ⟨?_, ?_, ?_, ?_, ?_, ?_, ?_, ?_, ?_, ?_, ?_⟩ <;> simp
  · refine ⟨?_, ?_, ?_, ?_, ?_⟩ <;> simp
  · simp
  · intro q hq
    rcases List.mem_cons.mp hq with rfl | hq
    · refine ⟨⟨?_, ?_, ?_, ?_, ?_⟩, ?_⟩ <;> simp
    · rcases List.mem_cons.mp hq with rfl | hq
      · refine ⟨⟨?_, ?_, ?_, ?_, ?_⟩, ?_⟩ <;> simp
      · cases hq
  · intro t ht
    cases ht
    decide

end Verif.Cs
