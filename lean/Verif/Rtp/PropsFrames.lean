import Verif.Rtp.FrameSpec

/-!
# Reassembled frames (C18)
-/

namespace Verif.Rtp

theorem extSeq_eq {p : Pkt} (h : p.Ok) : extSeq p = p.number := by
  unfold extSeq Pkt.number
  rw [← Nat.shiftLeft_add_eq_or_of_lt (by have := h.2; omega), Nat.shiftLeft_eq]

theorem mask24 (n : Nat) : n &&& 0x00FFFFFF = n % 2 ^ 24 := Nat.and_two_pow_sub_one_eq_mod n 24

/-- Two runs ending at the same packet are the same run. -/
theorem IsRun.unique {pre seg pre' seg' : List Pkt} (h : IsRun pre seg) (h' : IsRun pre' seg')
    (e : pre ++ seg = pre' ++ seg') : pre = pre' ∧ seg = seg' := by
  have key : ∀ {pre seg pre' seg' : List Pkt}, IsRun pre seg → IsRun pre' seg' → pre ++ seg = pre' ++ seg' →
      seg'.length ≤ seg.length := by
    intro pre seg pre' seg' h h' e
    by_contra hlt
    have hl : pre.length + seg.length = pre'.length + seg'.length := by
      have := congrArg List.length e
      simpa using this
    obtain ⟨mid, e1⟩ : ∃ mid, pre = pre' ++ mid := by
      have := List.prefix_of_prefix_length_le (l₃ := pre' ++ seg') (List.prefix_append pre' seg')
        (e ▸ List.prefix_append pre seg) (by omega)
      exact ⟨_, (List.prefix_iff_eq_append.1 this).symm⟩
    subst e1
    rw [List.append_assoc, List.append_cancel_left_eq] at e
    have hm : mid ≠ [] := by
      rintro rfl
      simp only [List.nil_append] at e
      rw [e] at hlt
      omega
    obtain ⟨b, tl, rfl⟩ := List.exists_cons_of_ne_nil h.ne
    have hlast := List.getLast?_append_of_ne_nil pre' hm
    have ha := List.getLast?_eq_some_getLast hm
    rcases h.start (mid.getLast hm) (by rw [hlast, ha]; rfl) b rfl with hk | hk
    · have : (mid.getLast hm) ∈ seg'.dropLast := by
        rw [← e, List.dropLast_append_of_ne_nil (by simp)]
        exact List.mem_append_left _ (List.getLast_mem hm)
      rw [h'.open_ _ this] at hk
      simp at hk
    · refine hk (h'.ts _ ?_ _ ?_)
      · rw [← e]; exact List.mem_append_left _ (List.getLast_mem hm)
      · rw [← e]; simp
  have l1 := key h h' e
  have l2 := key h' h e.symm
  exact List.append_inj' e (by omega)

/-- The handler is assembling `seg`, received right after `pre`. -/
structure Asm (pre seg : List Pkt) (s : Handler) : Prop where
  run : IsRun pre seg
  accum : s.accum = (headerFor pre seg).getD [] ++ seg.flatMap (·.bytes)
  ts : ∀ a ∈ seg, s.ts = a.ts
  first : ∀ a ∈ seg.head?, s.first = a.number
  last : ∀ a ∈ seg.getLast?, s.last = a.number
  count : s.count = seg.length
  intact : s.intact = true ↔ Gapless pre seg ∧ (headerFor pre seg).isSome
  hasMeta : s.hasMeta = (metaOf seg).isSome
  info : ∀ m ∈ metaOf seg, s.info = m

/-- What the handler knows of the history `h` as a whole. -/
structure Known (h : List Pkt) (s : Handler) : Prop where
  firstEver : s.firstEver = h.isEmpty
  lastSeq : ∀ a ∈ h.getLast?, s.lastSeq = a.number
  haveCached : s.haveCached = (keptHeader h).isSome
  cached : ∀ c ∈ keptHeader h, s.cached = c

/-- What the handler knows after the history `h`. -/
structure Inv (h : List Pkt) (s : Handler) : Prop extends Known h s where
  idle : s.haveFrame = false → ∀ a ∈ h.getLast?, a.marker = true
  busy : s.haveFrame = true → s.lastMarker = false ∧ ∃ pre seg, h = pre ++ seg ∧ Asm pre seg s ∧ ∀ a ∈ seg, a.marker = false

theorem Inv.init : Inv [] {} := by
  refine ⟨⟨rfl, by simp, rfl, by simp [keptHeader]⟩, by simp, by simp⟩

theorem keptHeader_snoc (h : List Pkt) (p : Pkt) :
    keptHeader (h ++ [p]) = if p.reusable then some p.bytes else keptHeader h := by
  unfold keptHeader
  rw [List.filter_append]
  by_cases hp : p.reusable
  · simp [hp]
  · simp [hp]

theorem Known.cached_getD {h : List Pkt} {s : Handler} (i : Known h s) :
    (if s.haveCached then s.cached else []) = (keptHeader h).getD [] := by
  rw [i.haveCached]
  cases hk : keptHeader h with
  | none => simp
  | some c => simp [i.cached c hk]

/-- The packet continues the history without a gap. -/
def Follows (h : List Pkt) (p : Pkt) : Prop := ∀ a ∈ h.getLast?, Next a p

theorem gapless_snoc (pre seg : List Pkt) (p : Pkt) :
    Gapless pre (seg ++ [p]) ↔ Gapless pre seg ∧ Follows (pre ++ seg) p := by
  unfold Gapless Follows
  rw [← List.append_assoc, List.isChain_append]
  have e : (pre.getLast?.toList ++ seg).getLast? = (pre ++ seg).getLast? := by
    cases seg with
    | nil => cases h : pre.getLast? <;> simp [h]
    | cons a l => rw [List.getLast?_append_of_ne_nil _ (by simp), List.getLast?_append_of_ne_nil _ (by simp)]
  rw [e]
  simp

theorem gapless_single (h : List Pkt) (p : Pkt) : Gapless h [p] ↔ Follows h p := by
  unfold Gapless Follows
  cases hh : h.getLast? <;> simp

theorem track_spec {h : List Pkt} {s : Handler} (k : Known h s) (p : Pkt) :
    ∃ g i, s.track p.number = { s with firstEver := false, lastSeq := p.number, gaps := g, intact := i } ∧
      (i = true ↔ s.intact = true ∧ Follows h p) := by
  unfold Handler.track Follows
  cases hl : h.getLast? with
  | none =>
    have : h = [] := List.getLast?_eq_none_iff.1 hl
    have hf : s.firstEver = true := by rw [k.firstEver, this]; rfl
    rw [if_pos hf]
    exact ⟨s.gaps, s.intact, rfl, by simp⟩
  | some a =>
    have hf : s.firstEver = false := by
      rw [k.firstEver]
      cases h with
      | nil => simp at hl
      | cons b l => rfl
    rw [if_neg (by rw [hf]; simp), k.lastSeq a hl]
    simp only [mask24]
    by_cases hn : p.number = (a.number + 1) % 2 ^ 24
    · rw [if_neg (by simpa using hn)]
      refine ⟨s.gaps, s.intact, ?_, ?_⟩
      · cases s; simp only [Handler.mk.injEq] at hf ⊢; simp [hf]
      · simp only [Option.mem_def, Option.some.injEq, forall_eq']
        exact ⟨fun x => ⟨x, hn⟩, fun x => x.1⟩
    · rw [if_pos hn]
      refine ⟨s.gaps + 1, false, ?_, ?_⟩
      · cases s; simp only [Handler.mk.injEq] at hf ⊢; simp [hf]
      · simp only [Bool.false_eq_true, Option.mem_def, Option.some.injEq, forall_eq', false_iff, not_and]
        exact fun _ hh => hn hh

/-- Start a frame when none is open. -/
def Handler.begin (s : Handler) (p : Pkt) : Handler :=
  if s.haveFrame then s
  else
    let s := { s with ts := p.ts, first := extSeq p }
    if p.main.isSome then s.startEmpty else s.startPrepend

/-- Account for the packet. -/
def Handler.take (s : Handler) (p : Pkt) : Handler :=
  let s := s.track (extSeq p)
  let s := { s with last := extSeq p, count := s.count + 1, accum := s.accum ++ p.bytes, lastMarker := p.marker }
  match p.main with
    | none => s
    | some m =>
      let s := { s with hasMeta := true, info := m }
      if m.r && !p.bytes.isEmpty then { s with cached := p.bytes, haveCached := true } else s

theorem Handler.push_eq (s : Handler) (p : Pkt) :
    s.push p =
      let s := { s with packets := s.packets + 1 }
      let r := if s.haveFrame && p.ts != s.ts then s.finalize none else (s, none)
      let m := (r.1.begin p).take p
      if p.marker then m.finalize r.2 else (m, r.2) := rfl

/-- A frame whose latest packet was no marker is never handed out. -/
theorem finalize_open {s : Handler} (hf : s.haveFrame = true) (hm : s.lastMarker = false) :
    ∃ d t, s.finalize none = ({ s with haveFrame := false, count := 0, intact := true, hasMeta := false, accum := [], dropped := d, tailLoss := t }, none) := by
  unfold Handler.finalize
  rw [if_neg (by simp [hf])]
  cases hi : s.intact
  · refine ⟨s.dropped + 1, s.tailLoss, ?_⟩
    simp [hi]
  · refine ⟨s.dropped + 1, s.tailLoss + 1, ?_⟩
    simp [hm]

theorem metaOf_snoc (seg : List Pkt) (p : Pkt) :
    metaOf (seg ++ [p]) = match p.main with | some m => some m | none => metaOf seg := by
  unfold metaOf
  rw [List.filterMap_append]
  cases h : p.main <;> simp [h]

theorem headerFor_snoc {pre seg : List Pkt} (hs : seg ≠ []) (p : Pkt) :
    headerFor pre (seg ++ [p]) = headerFor pre seg := by
  unfold headerFor
  rw [List.head?_append_of_ne_nil _ hs]

theorem reusable_eq (p : Pkt) : p.reusable = match p.main with | some m => m.r && !p.bytes.isEmpty | none => false := by
  unfold Pkt.reusable
  cases p.main <;> simp

/-- The packet is added to the open frame. -/
theorem take_spec {h pre seg : List Pkt} {s : Handler} {p : Pkt} (hp : p.Ok) (k : Known h s) (e : h ++ [p] = pre ++ (seg ++ [p]))
    (run : IsRun pre (seg ++ [p]))
    (accum : s.accum = (headerFor pre (seg ++ [p])).getD [] ++ seg.flatMap (·.bytes))
    (ts : s.ts = p.ts) (first : ∀ a ∈ (seg ++ [p]).head?, s.first = a.number) (count : s.count = seg.length)
    (intact : s.intact = true ↔ (seg ≠ [] → Gapless pre seg) ∧ (headerFor pre (seg ++ [p])).isSome)
    (hasMeta : s.hasMeta = (metaOf seg).isSome) (info : ∀ m ∈ metaOf seg, s.info = m) :
    Known (h ++ [p]) (s.take p) ∧ Asm pre (seg ++ [p]) (s.take p) ∧ (s.take p).haveFrame = s.haveFrame ∧
      (s.take p).lastMarker = p.marker := by
  obtain ⟨g, i, ht, hi⟩ := track_spec k p
  have he : h = pre ++ seg := by
    rw [← List.append_assoc] at e
    exact List.append_cancel_right e
  have key : s.take p = { s with
      firstEver := false, lastSeq := p.number, gaps := g, intact := i, last := p.number, count := s.count + 1
      accum := s.accum ++ p.bytes, lastMarker := p.marker
      hasMeta := (metaOf (seg ++ [p])).isSome
      info := p.main.getD s.info
      cached := if p.reusable then p.bytes else s.cached
      haveCached := p.reusable || s.haveCached } := by
    unfold Handler.take
    rw [extSeq_eq hp, ht, metaOf_snoc, reusable_eq]
    cases hm : p.main with
    | none => simp [hasMeta]
    | some m =>
      by_cases hr : (m.r && !p.bytes.isEmpty) = true
      · simp only [hr]; simp
      · simp only [hr]; simp
  rw [key]
  refine ⟨⟨?_, ?_, ?_, ?_⟩, ⟨run, ?_, ?_, ?_, ?_, ?_, ?_, ?_, ?_⟩, rfl, rfl⟩
  · simp
  · simp
  · rw [keptHeader_snoc]
    cases p.reusable <;> simp [k.haveCached]
  · rw [keptHeader_snoc]
    cases p.reusable
    · simpa using k.cached
    · simp
  · simp only [accum, List.flatMap_append, List.append_assoc]
    simp
  · intro a ha
    rw [ts]
    exact run.ts p (by simp) a ha
  · exact first
  · simp
  · simp [count]
  · rw [hi, intact, gapless_snoc, ← he]
    by_cases hs : seg = []
    · subst hs
      simp only [ne_eq, not_true_eq_false, IsEmpty.forall_iff, true_and]
      have : Gapless pre [] := by
        unfold Gapless
        cases pre.getLast? <;> simp
      tauto
    · simp only [ne_eq, hs, not_false_eq_true, forall_const]
      tauto
  · rfl
  · rw [metaOf_snoc]
    cases hm : p.main with
    | none => simpa using info
    | some m => simp

theorem push_spec {h : List Pkt} {s : Handler} {p : Pkt} (hp : p.Ok) (i : Inv h s) :
    ∃ m pre seg, h = pre ++ seg ∧ Known (h ++ [p]) m ∧ Asm pre (seg ++ [p]) m ∧ m.haveFrame = true ∧
      m.lastMarker = p.marker ∧ (∀ a ∈ seg, a.marker = false) ∧
      s.push p = if p.marker then m.finalize none else (m, none) := by
  rw [Handler.push_eq]
  -- a frame is started
  have fresh : ∀ s' : Handler, Known h s' → s'.haveFrame = false → (∀ a ∈ h.getLast?, a.marker = true ∨ a.ts ≠ p.ts) →
      Known (h ++ [p]) ((s'.begin p).take p) ∧ Asm h ([] ++ [p]) ((s'.begin p).take p) ∧
      ((s'.begin p).take p).haveFrame = true ∧ ((s'.begin p).take p).lastMarker = p.marker := by
    intro s' k hf hb
    have run : IsRun h ([] ++ [p]) := ⟨by simp, by simp, by simp, by simpa using hb⟩
    have hd : headerFor h ([] ++ [p]) = if p.main.isSome then some [] else keptHeader h := by
      unfold headerFor; simp; rfl
    by_cases hm : p.main.isSome = true
    · have hbeg : s'.begin p = { s' with ts := p.ts, first := extSeq p, accum := [], haveFrame := true, count := 0, intact := true, lastMarker := false, hasMeta := false } := by
        unfold Handler.begin
        rw [if_neg (by simp [hf]), if_pos hm]
        rfl
      rw [hbeg]
      have := take_spec (h := h) (pre := h) (seg := [])
        (s := { s' with ts := p.ts, first := extSeq p, accum := [], haveFrame := true, count := 0, intact := true, lastMarker := false, hasMeta := false }) hp ⟨k.firstEver, k.lastSeq, k.haveCached, k.cached⟩ rfl run
        (by rw [hd, if_pos hm]; simp) rfl (by simp [extSeq_eq hp]) rfl (by rw [hd, if_pos hm]; simp) rfl (by simp [metaOf])
      exact ⟨this.1, this.2.1, this.2.2.1, this.2.2.2⟩
    · have hbeg : s'.begin p = { s' with ts := p.ts, first := extSeq p, accum := if s'.haveCached then s'.cached else [], haveFrame := true, count := 0, intact := s'.haveCached, lastMarker := false, hasMeta := false } := by
        unfold Handler.begin
        rw [if_neg (by simp [hf]), if_neg hm]
        rfl
      rw [hbeg]
      have := take_spec (h := h) (pre := h) (seg := [])
        (s := { s' with ts := p.ts, first := extSeq p, accum := if s'.haveCached then s'.cached else [], haveFrame := true, count := 0, intact := s'.haveCached, lastMarker := false, hasMeta := false }) hp
        ⟨k.firstEver, k.lastSeq, k.haveCached, k.cached⟩ rfl run
        (by rw [hd, if_neg hm]; simp [k.cached_getD]) rfl (by simp [extSeq_eq hp]) rfl
        (by rw [hd, if_neg hm]; simp [k.haveCached]) rfl (by simp [metaOf])
      exact ⟨this.1, this.2.1, this.2.2.1, this.2.2.2⟩
  have k' : Known h { s with packets := s.packets + 1 } := ⟨i.firstEver, i.lastSeq, i.haveCached, i.cached⟩
  rcases Bool.eq_false_or_eq_true s.haveFrame with hf | hf
  rotate_left
  · have f := fresh { s with packets := s.packets + 1 } k' hf fun a ha => Or.inl (i.idle hf a ha)
    exact ⟨_, h, [], by simp, f.1, f.2.1, f.2.2.1, f.2.2.2, by simp, by simp [hf]⟩
  · obtain ⟨hm, pre, seg, he, asm, hopen⟩ := i.busy hf
    have hne := asm.run.ne
    by_cases hts : p.ts = s.ts
    · have hbeg : Handler.begin { s with packets := s.packets + 1 } p = { s with packets := s.packets + 1 } := by
        unfold Handler.begin; rw [if_pos hf]
      have run : IsRun pre (seg ++ [p]) := by
        refine ⟨by simp, ?_, ?_, ?_⟩
        · intro a ha b hb
          have w : ∀ c ∈ seg ++ [p], c.ts = s.ts := by
            intro c hc
            rcases List.mem_append.1 hc with hc | hc
            · exact (asm.ts c hc).symm
            · rw [List.mem_singleton.1 hc, hts]
          rw [w a ha, w b hb]
        · rw [List.dropLast_concat]; exact hopen
        · rw [List.head?_append_of_ne_nil _ hne]; exact asm.run.start
      have f := take_spec (s := { s with packets := s.packets + 1 }) hp k'
        (by rw [he, List.append_assoc]) run (by rw [headerFor_snoc hne]; exact asm.accum) hts.symm
        (by rw [List.head?_append_of_ne_nil _ hne]; exact asm.first) asm.count
        (by rw [headerFor_snoc hne]; simpa [hne] using asm.intact) asm.hasMeta asm.info
      refine ⟨_, pre, seg, he, f.1, f.2.1, by rw [f.2.2.1]; exact hf, f.2.2.2, hopen, ?_⟩
      have hc : (s.haveFrame && p.ts != s.ts) = false := by simp [hts]
      simp only [hc, Bool.false_eq_true, if_false, hbeg]
    · obtain ⟨d, t, hfin⟩ := finalize_open (s := { s with packets := s.packets + 1 }) hf hm
      have f := fresh { s with packets := s.packets + 1, haveFrame := false, count := 0, intact := true, hasMeta := false, accum := [], dropped := d, tailLoss := t } ⟨i.firstEver, i.lastSeq, i.haveCached, i.cached⟩ rfl (by
          intro a ha
          right
          rw [he, List.getLast?_append_of_ne_nil _ hne] at ha
          rw [← asm.ts a (List.mem_of_getLast? ha)]
          exact fun hh => hts hh.symm)
      refine ⟨_, h, [], by simp, f.1, f.2.1, f.2.2.1, f.2.2.2, by simp, ?_⟩
      have hc : (s.haveFrame && p.ts != s.ts) = true := by simp [hf, hts]
      simp only [hc, if_true, hfin]

/-- C18, step: what a packet does after any history. -/
theorem step_spec {h : List Pkt} {s : Handler} {p : Pkt} (hp : p.Ok) (i : Inv h s) :
    Inv (h ++ [p]) (s.push p).1 ∧
    (∀ f, (s.push p).2 = some f → ∃ pre seg, h = pre ++ seg ∧ Completes pre (seg ++ [p]) f) ∧
    (∀ pre seg f, h = pre ++ seg → Completes pre (seg ++ [p]) f →
      ∃ f', (s.push p).2 = some f' ∧ Completes pre (seg ++ [p]) f') := by
  obtain ⟨m, pre, seg, he, k, asm, hf, hm, hopen, hpush⟩ := push_spec hp i
  rw [hpush]
  cases hmark : p.marker
  · refine ⟨⟨⟨k.firstEver, k.lastSeq, k.haveCached, k.cached⟩, ?_, ?_⟩, ?_, ?_⟩
    · intro hh
      simp only [Bool.false_eq_true, if_false] at hh
      rw [hf] at hh
      simp at hh
    · intro _
      refine ⟨by simpa [hmark] using hm, pre, seg ++ [p], by rw [he, List.append_assoc], asm, ?_⟩
      intro a ha
      rcases List.mem_append.1 ha with ha | ha
      · exact hopen a ha
      · rw [List.mem_singleton.1 ha]; exact hmark
    · intro f hh
      simp at hh
    · intro pre' seg' f _ hc
      have := hc.closed p (by simp)
      rw [hmark] at this
      simp at this
  · rw [hmark] at hm
    simp only [if_true]
    have hfin : m.finalize none =
        if m.intact && !m.accum.isEmpty then
          ({ m with emitted := m.emitted + 1, accum := [], haveFrame := false, count := 0, intact := true, hasMeta := false },
            some ⟨m.accum, m.ts, m.first, m.last, m.count, m.hasMeta, m.info⟩)
        else ({ m with dropped := m.dropped + 1, accum := [], haveFrame := false, count := 0, intact := true, hasMeta := false },
          none) := by
      unfold Handler.finalize
      rw [if_neg (by simp [hf])]
      simp only [hm, Bool.not_true, Bool.and_false, Bool.false_eq_true, if_false]
      split <;> rfl
    have hinv : Inv (h ++ [p]) (m.finalize none).1 := by
      rw [hfin]
      split
      · exact ⟨⟨k.firstEver, k.lastSeq, k.haveCached, k.cached⟩, fun _ a ha => by
          simp at ha; rw [← ha]; exact hmark, fun hh => by simp at hh⟩
      · exact ⟨⟨k.firstEver, k.lastSeq, k.haveCached, k.cached⟩, fun _ a ha => by
          simp at ha; rw [← ha]; exact hmark, fun hh => by simp at hh⟩
    refine ⟨hinv, ?_, ?_⟩
    · intro f hh
      rw [hfin] at hh
      by_cases hc : (m.intact && !m.accum.isEmpty) = true
      · rw [if_pos hc] at hh
        simp only [Option.some.injEq] at hh
        subst hh
        simp only [Bool.and_eq_true, Bool.not_eq_true', List.isEmpty_eq_false_iff] at hc
        obtain ⟨g1, g2⟩ := asm.intact.1 hc.1
        obtain ⟨hd, hhd⟩ := Option.isSome_iff_exists.1 g2
        exact ⟨pre, seg, he, asm.run, by simp [hmark], g1, ⟨hd, hhd, by rw [asm.accum, hhd]; rfl⟩, hc.2, asm.ts,
          asm.first, asm.last, asm.count, asm.hasMeta, asm.info⟩
      · rw [if_neg hc] at hh
        simp at hh
    · intro pre' seg' f he' hc
      obtain ⟨e1, e2⟩ := IsRun.unique asm.run hc.run (by rw [← List.append_assoc, ← List.append_assoc, ← he, ← he'])
      subst e1
      have e3 : seg = seg' := List.append_cancel_right e2
      subst e3
      obtain ⟨hd, hhd, hb⟩ := hc.bytes
      have hacc : m.accum = f.bytes := by rw [asm.accum, hhd, hb]; rfl
      have hi : m.intact = true := asm.intact.2 ⟨hc.gapless, by rw [hhd]; rfl⟩
      refine ⟨⟨m.accum, m.ts, m.first, m.last, m.count, m.hasMeta, m.info⟩, ?_, ?_⟩
      · rw [hfin, if_pos]
        simp only [hi, hacc, Bool.true_and, Bool.not_eq_true', List.isEmpty_eq_false_iff]
        exact hc.nonempty
      · exact ⟨asm.run, by simp [hmark], hc.gapless, ⟨hd, hhd, by simp only [hacc, hb]⟩, by simp only [hacc]; exact hc.nonempty,
          asm.ts, asm.first, asm.last, asm.count, asm.hasMeta, asm.info⟩

theorem run_spec : ∀ (ps h : List Pkt) (s : Handler), (∀ p ∈ ps, p.Ok) → Inv h s →
    (s.run ps).2.length = ps.length ∧
    ∀ (n : Nat) (p : Pkt), ps[n]? = some p → ∃ (o : Option Frame), (s.run ps).2[n]? = some o ∧
      (∀ f, o = some f → ∃ pre seg, h ++ ps.take n = pre ++ seg ∧ Completes pre (seg ++ [p]) f) ∧
      (∀ pre seg f, h ++ ps.take n = pre ++ seg → Completes pre (seg ++ [p]) f →
        ∃ f', o = some f' ∧ Completes pre (seg ++ [p]) f')
  | [], h, s, _, _ => ⟨rfl, by simp⟩
  | p :: ps, h, s, hok, i => by
    obtain ⟨i', g1, g2⟩ := step_spec (hok p (by simp)) i
    obtain ⟨l, ih⟩ := run_spec ps (h ++ [p]) (s.push p).1 (fun q hq => hok q (List.mem_cons_of_mem _ hq)) i'
    refine ⟨by simp [Handler.run, l], fun n q hq => ?_⟩
    cases n with
    | zero =>
      simp only [List.getElem?_cons_zero, Option.some.injEq] at hq
      subst hq
      exact ⟨_, rfl, by simpa using g1, by simpa using g2⟩
    | succ n =>
      obtain ⟨o, h1, h2, h3⟩ := ih n q (by simpa using hq)
      refine ⟨o, by simpa [Handler.run] using h1, ?_, ?_⟩
      · simpa using h2
      · simpa using h3

/-- C18: fed any packets whatever, the handler answers every packet with at most one frame; when it hands one out with
the `n`th packet, some packets received last up to that one form a complete gap-free frame, and the frame handed out is
exactly that. -/
theorem C18_frames_are_complete (ps : List Pkt) (hok : ∀ p ∈ ps, p.Ok) (n : Nat) (p : Pkt) (hn : ps[n]? = some p) (f : Frame)
    (hf : (Handler.run {} ps).2[n]? = some (some f)) :
    ∃ pre seg, ps.take n = pre ++ seg ∧ Completes pre (seg ++ [p]) f := by
  obtain ⟨o, h1, h2, -⟩ := (run_spec ps [] {} hok Inv.init).2 n p hn
  rw [hf, Option.some.injEq] at h1
  simpa using h2 f h1.symm

/-- C18, conversely: whenever the latest packets form a complete frame, it is handed out, and with its last packet. -/
theorem C18_complete_frames_delivered (ps : List Pkt) (hok : ∀ p ∈ ps, p.Ok) (n : Nat) (p : Pkt) (hn : ps[n]? = some p)
    (pre seg : List Pkt) (f : Frame) (h : ps.take n = pre ++ seg) (hc : Completes pre (seg ++ [p]) f) :
    ∃ f', (Handler.run {} ps).2[n]? = some (some f') ∧ Completes pre (seg ++ [p]) f' := by
  obtain ⟨o, h1, -, h3⟩ := (run_spec ps [] {} hok Inv.init).2 n p hn
  obtain ⟨f', e, hc'⟩ := h3 pre seg f (by simpa using h) hc
  exact ⟨f', by rw [h1, e], hc'⟩

theorem C18_one_answer_per_packet (ps : List Pkt) (hok : ∀ p ∈ ps, p.Ok) :
    (Handler.run {} ps).2.length = ps.length := (run_spec ps [] {} hok Inv.init).1

theorem finalize_emitted (s : Handler) (hm : s.emitted = e) :
    (s.finalize none).1.emitted = e + ((s.finalize none).2.toList).length := by
  unfold Handler.finalize
  by_cases h : s.haveFrame = false
  · simp [h, hm]
  · rw [if_neg h]
    obtain ⟨a, _, _, _, _, _, _, _, i, l, _, _, _, _, m⟩ := s
    simp only at hm
    cases i <;> cases l <;> cases a <;> simp [hm]

theorem push_emitted {h : List Pkt} {s : Handler} {p : Pkt} (hp : p.Ok) (i : Inv h s) :
    (s.push p).1.emitted = s.emitted + (s.push p).2.toList.length := by
  have tk : ∀ s' : Handler, ((s'.begin p).take p).emitted = s'.emitted := by
    intro s'
    unfold Handler.take Handler.begin Handler.track Handler.startEmpty Handler.startPrepend
    cases s'.haveFrame <;> cases p.main <;> simp <;> split_ifs <;> rfl
  rw [Handler.push_eq]
  by_cases hc : (s.haveFrame && p.ts != s.ts) = true
  · have hf : s.haveFrame = true := by simp at hc; exact hc.1
    obtain ⟨d, t, hfin⟩ := finalize_open (s := { s with packets := s.packets + 1 }) hf (i.busy hf).1
    simp only [hc, if_true, hfin]
    cases p.marker
    · simp [tk]
    · simp only [if_true]
      rw [finalize_emitted _ (tk _)]
  · simp only [hc]
    cases p.marker
    · simp [tk]
    · simp only [if_true]
      simp only [Bool.false_eq_true, if_false]
      rw [finalize_emitted _ (tk _)]

/-- C18: the counter of emitted frames is the number of frames handed out. -/
theorem C18_emitted_counted (ps : List Pkt) (hok : ∀ p ∈ ps, p.Ok) :
    (Handler.run {} ps).1.emitted = ((Handler.run {} ps).2.filterMap id).length := by
  have key : ∀ (ps h : List Pkt) (s : Handler), (∀ p ∈ ps, p.Ok) → Inv h s →
      (s.run ps).1.emitted = s.emitted + ((s.run ps).2.filterMap id).length := by
    intro ps
    induction ps with
    | nil => intro h s _ _; simp [Handler.run]
    | cons p ps ih =>
      intro h s hok i
      obtain ⟨i', -, -⟩ := step_spec (hok p (by simp)) i
      have a := ih (h ++ [p]) (s.push p).1 (fun q hq => hok q (List.mem_cons_of_mem _ hq)) i'
      have b := push_emitted (hok p (by simp)) i
      simp only [Handler.run]
      rw [a, b]
      cases (s.push p).2 <;> simp
      omega
  simpa using key ps [] {} hok Inv.init

/-! ### Examples and limits -/

/-- Main packet of a stream with header reuse, body packet, and two body packets of the next frame. -/
def goodStream : List Pkt :=
  [⟨some { r := true }, 0, 65535, 9, false, [1, 2]⟩, ⟨none, 1, 0, 9, true, [3]⟩, ⟨none, 1, 1, 10, false, [4]⟩,
   ⟨none, 1, 2, 10, true, [5]⟩]

example : (∀ p ∈ goodStream, p.Ok) ∧ (Handler.run {} goodStream).2 =
    [none, some ⟨[1, 2, 3], 9, 65535, 65536, 2, true, { r := true }⟩, none,
      some ⟨[1, 2, 4, 5], 10, 65537, 65538, 2, false, { r := true }⟩] := by
  refine ⟨?_, by decide⟩
  intro p hp
  simp only [goodStream, List.mem_cons, List.not_mem_nil, or_false] at hp
  rcases hp with rfl | rfl | rfl | rfl <;> exact ⟨by decide, by decide⟩

/-- Losing, repeating or swapping a packet of the first frame suppresses it. -/
example : (Handler.run {} (goodStream.eraseIdx 0)).2.head? = some none ∧
    (Handler.run {} [goodStream[0], goodStream[0], goodStream[1]]).2 = [none, none, none] ∧
    (Handler.run {} [goodStream[1], goodStream[0]]).2 = [none, none] := by decide

/-- The loss of the first packet of a frame goes unnoticed when nothing was received before it: a receiver that joins
between the two Main Packets of a frame hands out the frame without the first half of its main header. -/
theorem C18_join_inside_frame :
    (Handler.run {} [⟨some {}, 0, 0, 9, false, [1]⟩, ⟨some {}, 0, 1, 9, true, [2]⟩]).2 =
      [none, some ⟨[1, 2], 9, 0, 1, 2, true, {}⟩] ∧
    (Handler.run {} [⟨some {}, 0, 1, 9, true, [2]⟩]).2 = [some ⟨[2], 9, 1, 1, 1, true, {}⟩] := by decide

/-- Only the last Main Packet of a frame is kept for reuse: when the main header spans two, later frames get its second
part only. -/
theorem C18_split_header_truncated :
    (Handler.run {} [⟨some { r := true }, 0, 0, 9, false, [1]⟩, ⟨some { r := true }, 0, 1, 9, true, [2]⟩,
      ⟨none, 0, 2, 10, true, [3]⟩]).2 =
      [none, some ⟨[1, 2], 9, 0, 1, 2, true, { r := true }⟩, some ⟨[2, 3], 10, 2, 2, 1, false, { r := true }⟩] := by decide

/-- Losing only the last packet of a frame also discards the complete frame that follows. -/
theorem C18_tail_loss_drops_next :
    (Handler.run {} [⟨some {}, 0, 0, 9, false, [1]⟩, ⟨some {}, 0, 2, 10, false, [2]⟩, ⟨none, 0, 3, 10, true, [3]⟩]).2 =
      [none, none, none] := by decide

end Verif.Rtp
