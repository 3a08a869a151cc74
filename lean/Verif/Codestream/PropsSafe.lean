import Verif.Codestream.PropsHeader
/-
C48: parsing any bytes as a main header ends and stays inside the codestream and its padding — except for PPM.
-/
namespace Verif.Cs
open Verif.Jpip (be16 be16_length)

/-- The outcome is an exception, or a value with `P` at a position of the source `d` that is not before `p`. -/
def Stays {α : Type} (d : List UInt8) (p : Nat) (P : α → Nat → Prop) : Out (α × Src) → Prop
  | .ok (v, s) => s.buf = d ∧ p ≤ s.pos ∧ s.pos ≤ d.length ∧ P v s.pos
  | .throws => True
  | .ub => False

theorem Stays.bind {α β : Type} {d : List UInt8} {p : Nat} {P : α → Nat → Prop} {Q : β → Nat → Prop} {o : Out (α × Src)}
    {g : α → β} (h : Stays d p P o) (hpq : ∀ v q, p ≤ q → q ≤ d.length → P v q → Q (g v) q) :
    Stays d p Q (o.bind fun r => .ok (g r.1, r.2)) := by
  cases o with
  | ok r =>
    obtain ⟨h1, h2, h3, h4⟩ := h
    exact ⟨h1, h2, h3, hpq _ _ h2 h3 h4⟩
  | throws => trivial
  | ub => exact h

theorem segment_stays {α : Type} {d pad : List UInt8} {p : Nat} {f : Rd α} {P : α → Nat → Prop} (h0 : d ≠ [])
    (hl : d.length < 2 ^ 32) (hp : p ≤ d.length) (hpad : 2 ≤ pad.length) (hf : Safe f)
    (hP : ∀ L m v m', 2 ≤ L → L < 2 ^ 16 → p + L ≤ d.length → Mk.Fits L m → m.pos = 0 → f m = .ok (v, m') → P v (p + L)) :
    Stays d (p + 2) P (segment pad f ⟨d, p⟩) := by
  rw [segment, getWord_eq h0 hl hp]
  by_cases h : p + 1 < d.length
  · rw [dif_pos h]
    generalize hL : (d[p].toNat * 256 + d[p + 1].toNat) = L
    have hL16 : L < 2 ^ 16 := by
      have := d[p].toNat_lt
      have := d[p + 1].toNat_lt
      omega
    show Stays d (p + 2) P ((Src.getBytes ⟨d, p + 2⟩ (sub32 L 2)).bind _)
    rw [Src.getBytes]
    simp only
    by_cases hg : d.length < p + 2 ∨ sub32 d.length (p + 2) < sub32 L 2
    · rw [if_pos hg]; trivial
    · rw [if_neg hg]
      rw [not_or, sub32_eq (by omega)] at hg
      by_cases h2 : 2 ≤ L
      · rw [sub32_eq h2] at hg ⊢
        rw [if_pos (by omega)]
        show Stays d (p + 2) P ((f ⟨L, d.drop (p + 2) ++ pad, 0⟩).bind _)
        have hfit : Mk.Fits L ⟨L, d.drop (p + 2) ++ pad, 0⟩ := by
          refine ⟨rfl, ?_⟩
          show L ≤ 0 + (d.drop (p + 2) ++ pad).length
          rw [List.length_append, List.length_drop]
          omega
        obtain ⟨hs, -⟩ := hf L _ hfit
        cases hr : f ⟨L, d.drop (p + 2) ++ pad, 0⟩ with
        | ok r =>
          have hpos : (p + 2 + (L - 2)) % 2 ^ 32 = p + L := by rw [Nat.mod_eq_of_lt (by omega)]; omega
          show d = d ∧ p + 2 ≤ (p + 2 + (L - 2)) % 2 ^ 32 ∧ (p + 2 + (L - 2)) % 2 ^ 32 ≤ d.length ∧ P r.1 ((p + 2 + (L - 2)) % 2 ^ 32)
          rw [hpos]
          exact ⟨rfl, by omega, by omega, hP L _ r.1 r.2 h2 hL16 (by omega) hfit rfl hr⟩
        | throws => trivial
        | ub => exact absurd hr hs
      · exfalso
        rw [sub32, if_neg h2] at hg
        omega
  · rw [dif_neg h]; trivial

/-- What is known of the PPM segments when the source stands at `p`: a pointer into the codestream has at least the announced
bytes behind it, and they were all read before `p`; unless a segment has length 2.  They can only come from marker codes in the
codestream. -/
def PpmInv (d : List UInt8) (h : Hdr) (p : Nat) : Prop :=
  (∀ r ∈ h.ppm, 3 ≤ r.lmar → r.len ≤ r.mem.length) ∧
  ((∀ r ∈ h.ppm, 3 ≤ r.lmar) → (h.ppm.map Raw.len).sum ≤ p) ∧
  ((∀ i : Nat, ¬ (d[i]? = some (0xFF : UInt8) ∧ d[i + 1]? = some (0x60 : UInt8))) → h.ppm = [])

theorem PpmInv.same {d : List UInt8} {h h' : Hdr} {p q : Nat} (hi : PpmInv d h p) (hpq : p ≤ q) (he : h'.ppm = h.ppm) :
    PpmInv d h' q := by
  obtain ⟨a, b, c⟩ := hi
  rw [PpmInv, he]
  exact ⟨a, fun x => Nat.le_trans (b x) hpq, c⟩

theorem stays_forward {d : List UInt8} {p n : Nat} (hl : d.length + 2 ^ 16 ≤ 2 ^ 32) (hp : p ≤ d.length) (hn : n < 2 ^ 16) :
    Src.forward ⟨d, p⟩ n = if p + n ≤ d.length then .ok ⟨d, p + n⟩ else .throws := by
  rw [Src.forward]
  simp only
  rw [Nat.mod_eq_of_lt (by omega)]

theorem skip_stays {d : List UInt8} {p w : Nat} {h : Hdr} (h0 : d ≠ []) (hl : d.length + 2 ^ 16 ≤ 2 ^ 32) (hp : p ≤ d.length)
    (hi : PpmInv d h p) : Stays d p (PpmInv d) ((skipSegment w ⟨d, p⟩).bind fun s' => .ok (h, s')) := by
  rw [skipSegment]
  by_cases hw : w < 0xFF30 ∨ 0xFF3F < w
  · rw [if_pos hw, getWord_eq h0 (by omega) hp]
    by_cases h1 : p + 1 < d.length
    · rw [dif_pos h1]
      generalize hL : (d[p].toNat * 256 + d[p + 1].toNat) = L
      have hL16 : L < 2 ^ 16 := by
        have := d[p].toNat_lt
        have := d[p + 1].toNat_lt
        omega
      show Stays d p (PpmInv d) (Out.bind (if 2 ≤ L then Src.forward ⟨d, p + 2⟩ (L - 2) else .ok ⟨d, p + 2⟩) _)
      by_cases h2 : 2 ≤ L
      · rw [if_pos h2, stays_forward hl (by omega) (by omega)]
        by_cases h3 : p + 2 + (L - 2) ≤ d.length
        · rw [if_pos h3]
          exact ⟨rfl, show p ≤ p + 2 + (L - 2) by omega, h3, hi.same (show p ≤ p + 2 + (L - 2) by omega) rfl⟩
        · rw [if_neg h3]; trivial
      · rw [if_neg h2]
        exact ⟨rfl, show p ≤ p + 2 by omega, show p + 2 ≤ d.length by omega, hi.same (show p ≤ p + 2 by omega) rfl⟩
    · rw [dif_neg h1]; trivial
  · rw [if_neg hw]
    exact ⟨rfl, Nat.le_refl _, hp, hi⟩

theorem raw_post {L : Nat} {m m' : Mk} {v : Raw} (hfit : Mk.Fits L m) (hpos : m.pos = 0) (h : readRaw m = .ok (v, m')) :
    v.lmar = L ∧ (3 ≤ L → v.len = L - 3 ∧ v.len ≤ v.mem.length) := by
  obtain ⟨l, mem, pos⟩ := m
  obtain ⟨h1, h2⟩ := hfit
  simp only at h1 h2 hpos
  subst h1 hpos
  have hb : readRaw ⟨l, mem, 0⟩ = (rByte ⟨l, mem, 0⟩).bind fun z =>
      .ok (⟨l, z.1, if 3 ≤ l then l - 3 else l + 2 ^ 16 - 3, z.2.mem⟩, z.2) := rfl
  rw [hb] at h
  rw [rByte] at h
  simp only at h
  by_cases hl : l ≤ 0
  · rw [if_pos hl] at h; cases h
  · rw [if_neg hl] at h
    cases mem with
    | nil => cases h
    | cons b rest =>
      simp only [Out.bind, Out.ok.injEq, Prod.mk.injEq] at h
      obtain ⟨rfl, -⟩ := h
      refine ⟨rfl, fun h3 => ?_⟩
      show (if 3 ≤ l then l - 3 else l + 2 ^ 16 - 3) = l - 3 ∧ (if 3 ≤ l then l - 3 else l + 2 ^ 16 - 3) ≤ rest.length
      rw [if_pos h3]
      rw [List.length_cons] at h2
      omega

/-- One round of the loop. -/
theorem step_stays {d pad : List UInt8} {p : Nat} {h : Hdr} (h0 : d ≠ []) (hl : d.length + 2 ^ 16 ≤ 2 ^ 32) (hp : p + 1 < d.length)
    (hpad : 2 ≤ pad.length) (hi : PpmInv d h p) :
    Stays d (p + 2) (PpmInv d) (h.step pad (d[p].toNat * 256 + d[p + 1].toNat) ⟨d, p + 2⟩) := by
  have hl32 : d.length < 2 ^ 32 := by omega
  -- a segment that does not touch PPM
  have seg : ∀ {α : Type} (f : Rd α) (upd : α → Hdr), Safe f → (∀ a, (upd a).ppm = h.ppm) →
      Stays d (p + 2) (PpmInv d) ((segment pad f ⟨d, p + 2⟩).bind fun r => .ok (upd r.1, r.2)) := by
    intro α f upd hf hu
    have h1 : Stays d (p + 2 + 2) (fun _ _ => True) (segment pad f ⟨d, p + 2⟩) :=
      segment_stays h0 hl32 (by omega) hpad hf (fun _ _ _ _ _ _ _ _ _ _ => trivial)
    have h2 := h1.bind (g := upd) (Q := PpmInv d) (fun v q hq _ _ => hi.same (by omega) (hu v))
    cases ho : (segment pad f ⟨d, p + 2⟩).bind fun r => Out.ok (upd r.1, r.2) with
    | ok r =>
      rw [ho] at h2
      obtain ⟨a, b, c, e⟩ := h2
      exact ⟨a, by omega, c, e⟩
    | throws => trivial
    | ub => rw [ho] at h2; exact h2
  have need : ∀ {α : Type} (f : Nat → Rd α) (upd : α → Hdr), (∀ c, Safe (f c)) → (∀ a, (upd a).ppm = h.ppm) →
      Stays d (p + 2) (PpmInv d) (needSiz h fun c => (segment pad (f c) ⟨d, p + 2⟩).bind fun r => .ok (upd r.1, r.2)) := by
    intro α f upd hf hu
    rw [needSiz]
    cases h.siz with
    | none => trivial
    | some z => exact seg (f z.csiz) upd (hf _) hu
  rw [Hdr.step]
  by_cases c1 : d[p].toNat * 256 + d[p + 1].toNat = 0xFF51
  · rw [if_pos c1]; exact seg readSiz (fun r => { h with siz := some r }) safe_siz (fun _ => rfl)
  rw [if_neg c1]
  by_cases c2 : d[p].toNat * 256 + d[p + 1].toNat = 0xFF50
  · rw [if_pos c2]; exact seg readCap (fun r => { h with cap := some r }) safe_cap (fun _ => rfl)
  rw [if_neg c2]
  by_cases c3 : d[p].toNat * 256 + d[p + 1].toNat = 0xFF56
  · rw [if_pos c3]; exact seg readPrf (fun r => { h with prf := some r }) safe_prf (fun _ => rfl)
  rw [if_neg c3]
  by_cases c4 : d[p].toNat * 256 + d[p + 1].toNat = 0xFF52
  · rw [if_pos c4]; exact seg readCod (fun r => { h with cod := some r }) safe_cod (fun _ => rfl)
  rw [if_neg c4]
  by_cases c5 : d[p].toNat * 256 + d[p + 1].toNat = 0xFF53
  · rw [if_pos c5]; exact need readCoc (fun r => { h with coc := h.coc ++ [r] }) safe_coc (fun _ => rfl)
  rw [if_neg c5]
  by_cases c6 : d[p].toNat * 256 + d[p + 1].toNat = 0xFF55
  · rw [if_pos c6]; exact seg readTlm (fun r => { h with tlm := h.tlm ++ [r] }) safe_tlm (fun _ => rfl)
  rw [if_neg c6]
  by_cases c7 : d[p].toNat * 256 + d[p + 1].toNat = 0xFF57
  · rw [if_pos c7]; exact seg readRaw (fun r => { h with plm := h.plm ++ [r] }) safe_raw (fun _ => rfl)
  rw [if_neg c7]
  by_cases c8 : d[p].toNat * 256 + d[p + 1].toNat = 0xFF59
  · rw [if_pos c8]; exact seg readCpf (fun r => { h with cpf := some r }) safe_cpf (fun _ => rfl)
  rw [if_neg c8]
  by_cases c9 : d[p].toNat * 256 + d[p + 1].toNat = 0xFF5C
  · rw [if_pos c9]; exact seg readQcd (fun r => { h with qcd := some r }) safe_qcd (fun _ => rfl)
  rw [if_neg c9]
  by_cases c10 : d[p].toNat * 256 + d[p + 1].toNat = 0xFF5D
  · rw [if_pos c10]; exact need readQcc (fun r => { h with qcc := h.qcc ++ [r] }) safe_qcc (fun _ => rfl)
  rw [if_neg c10]
  by_cases c11 : d[p].toNat * 256 + d[p + 1].toNat = 0xFF5E
  · rw [if_pos c11]; exact need readRgn (fun r => { h with rgn := h.rgn ++ [r] }) safe_rgn (fun _ => rfl)
  rw [if_neg c11]
  by_cases c12 : d[p].toNat * 256 + d[p + 1].toNat = 0xFF5F
  · rw [if_pos c12]; exact need readPoc (fun r => { h with poc := some r }) safe_poc (fun _ => rfl)
  rw [if_neg c12]
  by_cases c13 : d[p].toNat * 256 + d[p + 1].toNat = 0xFF60
  · rw [if_pos c13]
    have h1 : Stays d (p + 2 + 2) (fun (v : Raw) q => 3 ≤ v.lmar → v.len ≤ v.mem.length ∧ v.len + p ≤ q) (segment pad readRaw ⟨d, p + 2⟩) := by
      refine segment_stays h0 hl32 (by omega) hpad safe_raw fun L m v m' h2 _ _ hfit hpos hv => ?_
      obtain ⟨e1, e2⟩ := raw_post hfit hpos hv
      intro h3
      rw [e1] at h3
      obtain ⟨e3, e4⟩ := e2 h3
      exact ⟨e4, by omega⟩
    have h2 : Stays d (p + 2 + 2) (PpmInv d) ((segment pad readRaw ⟨d, p + 2⟩).bind fun r => .ok ({ h with ppm := h.ppm ++ [r.1] }, r.2)) := by
      refine h1.bind (g := fun v => { h with ppm := h.ppm ++ [v] }) fun v q _ _ hv => ?_
      obtain ⟨a, b, c⟩ := hi
      refine ⟨?_, ?_, ?_⟩
      · intro r hr h3
        rcases List.mem_append.mp hr with hr | hr
        · exact a r hr h3
        · rw [List.mem_singleton] at hr
          subst hr
          exact (hv h3).1
      · intro hall
        have b' := b fun r hr => hall r (List.mem_append_left _ hr)
        have v' := (hv (hall v (List.mem_append_right _ (List.mem_singleton.mpr rfl)))).2
        show ((h.ppm ++ [v]).map Raw.len).sum ≤ q
        rw [List.map_append, List.sum_append, List.map_singleton, List.sum_singleton]
        omega
      · intro hno
        refine absurd ⟨?_, ?_⟩ (hno p)
        · rw [List.getElem?_eq_getElem (by omega)]
          congr 1
          have b1 := d[p].toNat_lt
          have b2 := d[p + 1].toNat_lt
          refine UInt8.toNat_inj.mp ?_
          show d[p].toNat = 255
          omega
        · rw [List.getElem?_eq_getElem (by omega)]
          congr 1
          have b1 := d[p].toNat_lt
          have b2 := d[p + 1].toNat_lt
          refine UInt8.toNat_inj.mp ?_
          show d[p + 1].toNat = 96
          omega
    cases ho : (segment pad readRaw ⟨d, p + 2⟩).bind fun r => Out.ok (({ h with ppm := h.ppm ++ [r.1] } : Hdr), r.2) with
    | ok r =>
      rw [ho] at h2
      obtain ⟨a, b, c, e⟩ := h2
      exact ⟨a, by omega, c, e⟩
    | throws => trivial
    | ub => rw [ho] at h2; exact h2
  rw [if_neg c13]
  by_cases c14 : d[p].toNat * 256 + d[p + 1].toNat = 0xFF63
  · rw [if_pos c14]; exact seg readCrg (fun r => { h with crg := some r }) safe_crg (fun _ => rfl)
  rw [if_neg c14]
  by_cases c15 : d[p].toNat * 256 + d[p + 1].toNat = 0xFF64
  · rw [if_pos c15]; exact seg readCom (fun r => { h with com := h.com ++ [r] }) safe_com (fun _ => rfl)
  rw [if_neg c15]
  by_cases c16 : d[p].toNat * 256 + d[p + 1].toNat = 0xFF72
  · rw [if_pos c16]; exact seg readDfs (fun r => { h with dfs := h.dfs ++ [r] }) safe_dfs (fun _ => rfl)
  rw [if_neg c16]
  by_cases c17 : d[p].toNat * 256 + d[p + 1].toNat = 0xFF79
  · rw [if_pos c17]; exact seg readAtk (fun r => { h with atk := h.atk ++ [r] }) safe_atk (fun _ => rfl)
  rw [if_neg c17]
  exact skip_stays h0 hl (by omega) (hi.same (by omega) rfl)

/-- The loop ends within as many rounds as there are pairs of bytes left. -/
theorem loop_stays {d pad : List UInt8} (h0 : d ≠ []) (hl : d.length + 2 ^ 16 ≤ 2 ^ 32) (hpad : 2 ≤ pad.length) (fuel : Nat) :
    ∀ (h : Hdr) (p : Nat), p ≤ d.length → (d.length - p) / 2 < fuel → PpmInv d h p →
      ∃ o, (∀ k, Hdr.loop pad (fuel + k) h ⟨d, p⟩ = some o) ∧ Stays d p (PpmInv d) o := by
  induction fuel with
  | zero => intro h p _ hf; omega
  | succ fuel ih =>
    intro h p hp hf hi
    by_cases h1 : p + 1 < d.length
    · have hw := getWord_eq h0 (by omega) hp
      rw [dif_pos h1] at hw
      generalize hW : (d[p].toNat * 256 + d[p + 1].toNat) = w at hw
      by_cases hs : w = 0xFF90
      · refine ⟨.ok (h, ⟨d, p + 2⟩), fun k => ?_, rfl, show p ≤ p + 2 by omega, show p + 2 ≤ d.length by omega, hi.same (show p ≤ p + 2 by omega) rfl⟩
        rw [show fuel + 1 + k = fuel + k + 1 by omega, Hdr.loop, hw]
        simp only
        rw [if_pos hs]
      · have hst := step_stays h0 hl h1 hpad hi
        rw [hW] at hst
        cases ho : h.step pad w ⟨d, p + 2⟩ with
        | throws =>
          refine ⟨.throws, fun k => ?_, trivial⟩
          rw [show fuel + 1 + k = fuel + k + 1 by omega, Hdr.loop, hw]
          simp only
          rw [if_neg hs, ho]
        | ub => rw [ho] at hst; exact hst.elim
        | ok r =>
          obtain ⟨h', ⟨d', p'⟩⟩ := r
          rw [ho] at hst
          obtain ⟨rfl, hb, hc, he⟩ := hst
          simp only at hb hc he
          obtain ⟨o, ho1, ho2⟩ := ih h' p' hc (by omega) he
          refine ⟨o, fun k => ?_, ?_⟩
          · rw [show fuel + 1 + k = fuel + k + 1 by omega, Hdr.loop, hw]
            simp only
            rw [if_neg hs, ho]
            exact ho1 k
          · cases o with
            | ok r =>
              obtain ⟨a1, a2, a3, a4⟩ := ho2
              exact ⟨a1, by omega, a3, a4⟩
            | throws => trivial
            | ub => exact ho2
    · have hw := getWord_eq h0 (by omega) hp
      rw [dif_neg h1] at hw
      refine ⟨.throws, fun k => ?_, trivial⟩
      rw [show fuel + 1 + k = fuel + k + 1 by omega, Hdr.loop, hw]

theorem joinPpm_ok {l : List Raw} (h : ∀ r ∈ l, r.len ≤ r.mem.length) :
    ∃ b, joinPpm l = .ok b ∧ b.length = (l.map Raw.len).sum := by
  induction l with
  | nil => exact ⟨[], rfl, rfl⟩
  | cons r l ih =>
    obtain ⟨b, hb, hlen⟩ := ih fun x hx => h x (List.mem_cons_of_mem _ hx)
    have hr := h r (List.mem_cons_self ..)
    refine ⟨r.mem.take r.len ++ b, ?_, ?_⟩
    · rw [joinPpm, if_neg (by omega), hb]; rfl
    · rw [List.length_append, List.length_take, hlen, List.map_cons, List.sum_cons, Nat.min_eq_left hr]

theorem cutPpm_ne_ub (b : List UInt8) : cutPpm b ≠ .ub := by
  induction hn : b.length using Nat.strong_induction_on generalizing b with
  | _ n ih =>
    rw [cutPpm.eq_def]
    split
    · rename_i a1 a2 a3 a4 rest
      simp only
      split_ifs with hlt
      · intro h; cases h
      · generalize hN : a1.toNat * 2 ^ 24 + a2.toNat * 2 ^ 16 + a3.toNat * 2 ^ 8 + a4.toNat = N
        have := ih (rest.drop N).length (by rw [← hn]; simp only [List.length_drop, List.length_cons]; omega) (rest.drop N) rfl
        intro h
        cases hc : cutPpm (rest.drop N) with
        | ok r => rw [hc] at h; cases h
        | throws => rw [hc] at h; cases h
        | ub => exact this hc
    · intro h; cases h

theorem cutPpm_ne_nil {b : List UInt8} (h4 : 4 ≤ b.length) : cutPpm b ≠ .ok [] := by
  match b, h4 with
  | a1 :: a2 :: a3 :: a4 :: rest, _ =>
    rw [cutPpm.eq_def]
    simp only
    split_ifs with hlt
    · intro h; cases h
    · intro h
      generalize hc : cutPpm (rest.drop _) = o at h
      cases o <;> cases h

/-- `finish` is only undefined when a PPM segment has length 2 or all of them together have fewer than four bytes. -/
theorem finish_safe {d : List UInt8} {h : Hdr} {p : Nat} (hp : p < 2 ^ 32) (hi : PpmInv d h p) (hu : h.finish = .ub) :
    h.ppm ≠ [] ∧ ((∃ r ∈ h.ppm, r.lmar < 3) ∨ (h.ppm.map Raw.len).sum < 4) := by
  rw [Hdr.finish] at hu
  by_cases he : h.ppm = []
  · rw [if_pos he] at hu; cases hu
  refine ⟨he, ?_⟩
  rw [if_neg he] at hu
  by_contra hcon
  rw [not_or] at hcon
  obtain ⟨hc1, hc2⟩ := hcon
  have h3 : ∀ r ∈ h.ppm, 3 ≤ r.lmar := fun r hr => by
    by_contra hlt
    exact hc1 ⟨r, hr, by omega⟩
  have hsum := hi.2.1 h3
  rw [if_neg (by omega)] at hu
  obtain ⟨b, hb, hlen⟩ := joinPpm_ok fun r hr => hi.1 r hr (h3 r hr)
  rw [hb] at hu
  change ((cutPpm b).bind _) = _ at hu
  cases hc : cutPpm b with
  | throws => rw [hc] at hu; cases hu
  | ub => exact cutPpm_ne_ub b hc
  | ok ns =>
    rw [hc] at hu
    change ((Chain.activate ns).bind _) = _ at hu
    cases ns with
    | nil => exact cutPpm_ne_nil (by omega) hc
    | cons n ns => cases hu

/-- The header as `read` starts with it. -/
def Hdr.cleared (h : Hdr) : Hdr :=
  { h with coc := [], tlm := [], plm := [], qcc := [], rgn := [], ppm := [], com := [], dfs := [], atk := [], chain := none }

theorem read_cases {d pad : List UInt8} (h0 : d ≠ []) (hl : d.length + 2 ^ 16 ≤ 2 ^ 32) (hpad : 2 ≤ pad.length) (h : Hdr) :
    ∃ o, (∀ fuel, d.length / 2 < fuel → Hdr.read pad fuel h ⟨d, 0⟩ = some o) ∧
      (o = .ub → ∃ h' s, (∃ fuel, Hdr.loop pad fuel h.cleared ⟨d, 2⟩ = some (.ok (h', s))) ∧ PpmInv d h' s.pos ∧ s.pos ≤ d.length ∧
        h'.finish = .ub) := by
  have hw := getWord_eq (p := 0) h0 (by omega) (by omega)
  by_cases h1 : 0 + 1 < d.length
  · rw [dif_pos h1] at hw
    have hi : PpmInv d h.cleared 2 := ⟨fun r hr => (List.not_mem_nil hr).elim, fun _ => Nat.zero_le _, fun _ => rfl⟩
    obtain ⟨o, ho1, ho2⟩ := loop_stays h0 hl hpad (d.length / 2 + 1) h.cleared 2 (by omega) (by omega) hi
    have hloop : ∀ fuel, d.length / 2 < fuel → Hdr.loop pad fuel h.cleared ⟨d, 2⟩ = some o := by
      intro fuel hf
      have := ho1 (fuel - (d.length / 2 + 1))
      rwa [show d.length / 2 + 1 + (fuel - (d.length / 2 + 1)) = fuel by omega] at this
    cases o with
    | throws =>
      refine ⟨.throws, fun fuel hf => ?_, (by intro h; cases h)⟩
      rw [Hdr.read, hw]
      simp only
      rw [← Hdr.cleared, show (0 : Nat) + 2 = 2 from rfl, hloop fuel hf]
    | ub => exact ho2.elim
    | ok r =>
      obtain ⟨h', s⟩ := r
      refine ⟨h'.finish.bind fun h'' => .ok (h'', s), fun fuel hf => ?_, fun hub => ?_⟩
      · rw [Hdr.read, hw]
        simp only
        rw [← Hdr.cleared, show (0 : Nat) + 2 = 2 from rfl, hloop fuel hf]
      · obtain ⟨-, -, a3, a4⟩ := ho2
        refine ⟨h', s, ⟨d.length / 2 + 1, hloop _ (by omega)⟩, a4, a3, ?_⟩
        cases hfin : h'.finish with
        | ok x => rw [hfin] at hub; cases hub
        | throws => rw [hfin] at hub; cases hub
        | ub => rfl
  · rw [dif_neg h1] at hw
    refine ⟨.throws, fun fuel _ => ?_, (by intro h; cases h)⟩
    rw [Hdr.read, hw]

/-- C48, termination: any bytes, parsed into any header object; half as many rounds as bytes suffice, and the outcome does
not depend on how many more are granted. -/
theorem C48_header_terminates (d pad : List UInt8) (h : Hdr) (h0 : d ≠ []) (hl : d.length + 2 ^ 16 ≤ 2 ^ 32)
    (hpad : 2 ≤ pad.length) : ∃ o, ∀ fuel, d.length / 2 < fuel → Hdr.read pad fuel h ⟨d, 0⟩ = some o := by
  obtain ⟨o, ho, -⟩ := read_cases h0 hl hpad h
  exact ⟨o, ho⟩

/-- C48, safety, partial: without a PPM marker code nothing outside the codestream and its padding is read.  What is missing is
PPM: see `C48_undefined_only_from_ppm` and the witnesses. -/
theorem C48_header_safe_partial (d pad : List UInt8) (h : Hdr) (fuel : Nat) (h0 : d ≠ []) (hl : d.length + 2 ^ 16 ≤ 2 ^ 32)
    (hpad : 2 ≤ pad.length) (hf : d.length / 2 < fuel)
    (hno : ∀ i : Nat, ¬ (d[i]? = some (0xFF : UInt8) ∧ d[i + 1]? = some (0x60 : UInt8))) :
    Hdr.read pad fuel h ⟨d, 0⟩ ≠ some .ub := by
  obtain ⟨o, ho, hu⟩ := read_cases h0 hl hpad h
  rw [ho fuel hf]
  intro he
  obtain ⟨h', s, -, hi, -, hfin⟩ := hu (Option.some.inj he)
  rw [Hdr.finish, if_pos (hi.2.2 hno)] at hfin
  cases hfin

/-- C48: with PPM, the outcome is undefined only if the loop has collected a PPM segment of declared length 2, or PPM segments
with fewer than four bytes together. -/
theorem C48_undefined_only_from_ppm (d pad : List UInt8) (h : Hdr) (fuel : Nat) (h0 : d ≠ []) (hl : d.length + 2 ^ 16 ≤ 2 ^ 32)
    (hpad : 2 ≤ pad.length) (hf : d.length / 2 < fuel) (hu : Hdr.read pad fuel h ⟨d, 0⟩ = some .ub) :
    ∃ h' s, (∃ fuel, Hdr.loop pad fuel h.cleared ⟨d, 2⟩ = some (.ok (h', s))) ∧ h'.ppm ≠ [] ∧
      ((∃ r ∈ h'.ppm, r.lmar < 3) ∨ (h'.ppm.map Raw.len).sum < 4) := by
  obtain ⟨o, ho, hu'⟩ := read_cases h0 hl hpad h
  rw [ho fuel hf] at hu
  obtain ⟨h', s, hloop, hi, hs, hfin⟩ := hu' (Option.some.inj hu)
  exact ⟨h', s, hloop, finish_safe (by omega) hi hfin⟩

/-- A PPM segment of length 2: its body length wraps to 65535, and that many bytes are copied from behind the codestream. -/
theorem C48_short_ppm_overreads :
    Hdr.read (List.replicate 16 0) 10 {} ⟨[0xFF, 0x4F, 0xFF, 0x60, 0, 2, 0xFF, 0x90], 0⟩ = some .ub := by decide +kernel

/-- PPM segments without packet headers: the empty chain is activated. -/
theorem C48_empty_ppm_undefined :
    Hdr.read (List.replicate 16 0) 10 {} ⟨[0xFF, 0x4F, 0xFF, 0x60, 0, 5, 0, 1, 2, 0xFF, 0x90], 0⟩ = some .ub := by decide +kernel

/-- Nothing after SOC: an exception. -/
example : Hdr.read (List.replicate 16 0) 10 {} ⟨[0xFF, 0x4F, 0xFF, 0x51, 0, 1, 0, 0], 0⟩ = some .throws := by decide +kernel

/-- An unknown segment is skipped; the hypotheses of the theorems hold of this codestream. -/
example : (Hdr.read (List.replicate 16 0) 10 {} ⟨[0xFF, 0x4F, 0xFF, 0x70, 0, 3, 9, 0xFF, 0x90], 0⟩ =
      some (.ok ({}, ⟨[0xFF, 0x4F, 0xFF, 0x70, 0, 3, 9, 0xFF, 0x90], 9⟩))) ∧
    (2 ≤ (List.replicate 16 (0 : UInt8)).length) := by decide +kernel

/-- The marker reader's bound is two bytes beyond the body: a TLM segment of length 3 takes `Stlm` from the marker behind it. -/
theorem C48_field_read_behind_segment :
    (segment (List.replicate 16 0) readTlm ⟨[0xFF, 0x55, 0, 3, 7, 0xFF, 0x90], 2⟩).bind (fun r => .ok r.1.stlm) = .ok 0xFF := by
  decide +kernel

end Verif.Cs
