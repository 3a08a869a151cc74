import Verif.Codestream.PropsContainer
import Verif.Tile.OrderLemmas
/-
C49, C50, C51: queries of the decoder object.
-/
namespace Verif.Cs
open Verif.Tile (cdiv cdiv_le ceilInt_eq usub_eq cdiv_mono cdiv_mul ceilInt)

/-! ### C49: the number of levels -/

/-- A COC segment that says `l` levels and does not refer to a DFS segment. -/
def Coc.Plain (k : Coc) (l : Nat) : Prop := k.dfs = .ok false ∧ k.levels = .ok l

/-- Every segment is plain; the list of what they say, with their components. -/
def PlainList (coc : List Coc) (said : List (Nat × Nat)) : Prop :=
  List.Forall₂ (fun k p => k.comp = p.1 ∧ k.Plain p.2) coc said

/-- The number of levels of component `c`: from its COC segment if there is one, from COD otherwise. -/
def levelsOf (cod : Nat) (said : List (Nat × Nat)) (c : Nat) : Nat :=
  match said.find? (fun p => p.1 == c) with
  | some p => p.2
  | none => cod

theorem minLoop_sorted (coc : List Coc) (n : Nat) :
    ∀ (c i nl : Nat) (said : List (Nat × Nat)), PlainList (coc.drop i) said → said.Pairwise (fun a b => a.1 < b.1) →
      (∀ p ∈ said, c ≤ p.1 ∧ p.1 < c + n) →
      (n ≠ 0 → (said.getLast?.map (fun p => p.1 + 1)).getD c = c + n →
        minLoop coc (List.range' c n) i nl = .ok (said.foldl (fun a p => min p.2 a) nl)) ∧
      (n ≠ 0 → (said.getLast?.map (fun p => p.1 + 1)).getD c < c + n → minLoop coc (List.range' c n) i nl = .ub) := by
  induction n with
  | zero => intro c i nl said _ _ _; exact ⟨fun h => absurd rfl h, fun h => absurd rfl h⟩
  | succ n ih =>
    intro c i nl said hp hs hr
    rw [List.range'_succ]
    cases said with
    | nil =>
      have he : coc[i]? = none := by
        have : coc.drop i = [] := List.forall₂_nil_right_iff.1 hp
        rw [List.getElem?_eq_none_iff]
        exact List.drop_eq_nil_iff.mp this
      refine ⟨fun _ h => ?_, fun _ _ => ?_⟩
      · simp at h
      · rw [minLoop, he]
    | cons p said =>
      generalize hdr : coc.drop i = rest at hp
      cases hp with
      | @cons k _ t _ hk ht =>
      have he : coc[i]? = some k := by
        have := congrArg (fun l => l[0]?) hdr
        simpa using this
      have hdrop : coc.drop (i + 1) = t := by
        rw [← List.drop_drop, hdr]; rfl
      rw [List.pairwise_cons] at hs
      have hp1 := hr p (List.mem_cons_self ..)
      have hlast : ∃ q, (p :: said).getLast? = some q ∧ p.1 ≤ q.1 ∧ (said ≠ [] → said.getLast? = some q) ∧ q ∈ p :: said := by
        cases said with
        | nil => exact ⟨p, rfl, Nat.le_refl _, fun h => absurd rfl h, List.mem_cons_self ..⟩
        | cons q r =>
          refine ⟨(q :: r).getLast (List.cons_ne_nil _ _), ?_, ?_, ?_, ?_⟩
          · rw [List.getLast?_cons_cons, List.getLast?_eq_some_getLast]
          · exact Nat.le_of_lt (hs.1 _ (List.getLast_mem _))
          · intro _; rw [List.getLast?_eq_some_getLast]
          · exact List.mem_cons_of_mem _ (List.getLast_mem _)
      obtain ⟨q, hq, hpq, hq', hqm⟩ := hlast
      rw [hq]
      simp only [Option.map_some, Option.getD_some]
      by_cases hc : k.comp = c
      · have hpc : p.1 = c := by rw [← hk.1]; exact hc
        have step : minLoop coc (c :: List.range' (c + 1) n) i nl = minLoop coc (List.range' (c + 1) n) (i + 1) (min p.2 nl) := by
          rw [minLoop, he]
          simp only
          rw [if_pos hc, hk.2.1, hk.2.2]
          show minLoop coc (List.range' (c + 1) n) (i + 1) (if p.2 < nl then p.2 else nl) = _
          congr 1
          by_cases h : p.2 < nl
          · rw [if_pos h, Nat.min_eq_left (by omega)]
          · rw [if_neg h, Nat.min_eq_right (by omega)]
        rw [step]
        have ih' := ih (c + 1) (i + 1) (min p.2 nl) said (by rw [hdrop]; exact ht) hs.2 (fun r hr' => by
          have a := hs.1 r hr'
          have b := hr r (List.mem_cons_of_mem _ hr')
          omega)
        by_cases hn : n = 0
        · subst hn
          have hnil : said = [] := by
            cases said with
            | nil => rfl
            | cons r l =>
              have a := hs.1 r (List.mem_cons_self ..)
              have b := hr r (List.mem_cons_of_mem _ (List.mem_cons_self ..))
              omega
          subst hnil
          refine ⟨fun _ _ => rfl, fun _ h => ?_⟩
          have := hp1.2
          have e : q = p := by simpa using hq.symm
          rw [e] at h
          omega
        · have e : (said.getLast?.map (fun p => p.1 + 1)).getD (c + 1) = q.1 + 1 := by
            by_cases hn' : said = []
            · subst hn'
              have e : q = p := by simpa using hq.symm
              rw [e, hpc]; rfl
            · rw [hq' hn']; rfl
          rw [e] at ih'
          refine ⟨fun _ h => ?_, fun _ h => ih'.2 hn (by omega)⟩
          rw [ih'.1 hn (by omega)]
          rfl
      · have hpc : p.1 ≠ c := fun h => hc (by rw [hk.1]; exact h)
        have step : minLoop coc (c :: List.range' (c + 1) n) i nl = minLoop coc (List.range' (c + 1) n) i nl := by
          conv => lhs; rw [minLoop, he]
          simp only
          rw [if_neg hc]
        rw [step]
        have hn : n ≠ 0 := by omega
        have ih' := ih (c + 1) i nl (p :: said) (by rw [hdr]; exact .cons hk ht) (List.pairwise_cons.2 hs) (fun r hr' => by
          have b := hr r hr'
          rcases List.mem_cons.1 hr' with rfl | hm
          · omega
          · have := hs.1 r hm; omega)
        rw [hq] at ih'
        simp only [Option.map_some, Option.getD_some] at ih'
        exact ⟨fun _ h => ih'.1 hn (by omega), fun _ h => ih'.2 hn (by omega)⟩

theorem foldl_min_le (l : List (Nat × Nat)) (a : Nat) :
    l.foldl (fun a p => min p.2 a) a ≤ a ∧ (∀ p ∈ l, l.foldl (fun a p => min p.2 a) a ≤ p.2) ∧
      (l.foldl (fun a p => min p.2 a) a = a ∨ ∃ p ∈ l, l.foldl (fun a p => min p.2 a) a = p.2) := by
  induction l generalizing a with
  | nil => exact ⟨Nat.le_refl _, fun _ h => (List.not_mem_nil h).elim, Or.inl rfl⟩
  | cons q l ih =>
    obtain ⟨h1, h2, h3⟩ := ih (min q.2 a)
    simp only [List.foldl_cons]
    refine ⟨by omega, ?_, ?_⟩
    · intro p hp
      rcases List.mem_cons.1 hp with rfl | hp
      · omega
      · exact h2 p hp
    · rcases h3 with h3 | ⟨p, hp, h3⟩
      · rw [h3]
        by_cases h : q.2 ≤ a
        · exact Or.inr ⟨q, List.mem_cons_self .., by omega⟩
        · exact Or.inl (by omega)
      · exact Or.inr ⟨p, List.mem_cons_of_mem _ hp, h3⟩

theorem find_of_sorted {said : List (Nat × Nat)} (hs : said.Pairwise (fun a b => a.1 < b.1)) {p : Nat × Nat} (hp : p ∈ said) :
    said.find? (fun q => q.1 == p.1) = some p := by
  induction said with
  | nil => exact (List.not_mem_nil hp).elim
  | cons q said ih =>
    rw [List.pairwise_cons] at hs
    rcases List.mem_cons.1 hp with rfl | hp
    · simp
    · have := hs.1 p hp
      rw [List.find?_cons, show (q.1 == p.1) = false by simp; omega]
      exact ih hs.2 hp

/-- C49, for headers whose COC segments come in order of components, without DFS, the last one for the last component.  The
result is at most the number of levels of every component.  If some component has no COC segment, it is the number of some
component: the minimum.
What is missing from the property: other sets of COC segments are read out of bounds (`C49_undefined_past_last`) or ignored
(`C49_unsorted_ignored`), and if all components have a COC segment, COD's number still counts (`C49_overridden_counts`). -/
theorem C49_minimum_levels_partial (h : Hdr) (z : Siz) (c : Cod) (nl : Nat) (said : List (Nat × Nat)) (hz : h.siz = some z)
    (hc : h.cod = some c) (hnl : c.levels = .ok nl) (hp : PlainList h.coc said) (hs : said.Pairwise (fun a b => a.1 < b.1))
    (hr : ∀ p ∈ said, p.1 < z.csiz) (hlast : ∀ p, said.getLast? = some p → p.1 + 1 = z.csiz) (h0 : 0 < z.csiz) :
    ∃ r, h.minLevels = .ok r ∧ (∀ k < z.csiz, r ≤ levelsOf nl said k) ∧
      ((∃ k < z.csiz, ∀ p ∈ said, p.1 ≠ k) → ∃ k < z.csiz, r = levelsOf nl said k) := by
  have key : h.minLevels = .ok (said.foldl (fun a p => min p.2 a) nl) := by
    rw [Hdr.minLevels, hz, hc]
    simp only
    rw [hnl]
    show (if h.coc = [] then Out.ok nl else _) = _
    by_cases hn : h.coc = []
    · rw [if_pos hn]
      rw [hn] at hp
      cases hp
      rfl
    · rw [if_neg hn, List.range_eq_range']
      have hne : said ≠ [] := by
        rintro rfl
        exact hn (List.forall₂_nil_right_iff.1 hp)
      refine (minLoop_sorted h.coc z.csiz 0 0 nl said (by rw [List.drop_zero]; exact hp) hs
        (fun p hm => ⟨Nat.zero_le _, by rw [Nat.zero_add]; exact hr p hm⟩)).1 (by omega) ?_
      rw [List.getLast?_eq_some_getLast hne]
      have := hlast _ (List.getLast?_eq_some_getLast hne)
      show (said.getLast hne).1 + 1 = 0 + z.csiz
      omega
  obtain ⟨h1, h2, h3⟩ := foldl_min_le said nl
  refine ⟨_, key, ?_, ?_⟩
  · intro k _
    rw [levelsOf]
    cases hf : said.find? (fun p => p.1 == k) with
    | none => exact h1
    | some p => exact h2 p (List.mem_of_find?_eq_some hf)
  · rintro ⟨k, hk, hno⟩
    rcases h3 with h3 | ⟨p, hpm, h3⟩
    · refine ⟨k, hk, ?_⟩
      rw [h3, levelsOf, List.find?_eq_none.2 (by intro p hp' e; exact hno p hp' (by simpa using e))]
    · refine ⟨p.1, hr p hpm, ?_⟩
      rw [h3, levelsOf, find_of_sorted hs hpm]

/-- C49 fails: with COC segments in order, none for the last component, the code reads behind the list — whatever the rest. -/
theorem C49_undefined_past_last (h : Hdr) (z : Siz) (c : Cod) (nl : Nat) (said : List (Nat × Nat)) (hz : h.siz = some z)
    (hc : h.cod = some c) (hnl : c.levels = .ok nl) (hp : PlainList h.coc said) (hs : said.Pairwise (fun a b => a.1 < b.1))
    (hne : said ≠ []) (hr : ∀ p ∈ said, p.1 + 1 < z.csiz) : h.minLevels = .ub := by
  rw [Hdr.minLevels, hz, hc]
  simp only
  rw [hnl]
  show (if h.coc = [] then Out.ok nl else _) = _
  have hn : h.coc ≠ [] := by
    intro hn
    rw [hn] at hp
    cases hp
    exact hne rfl
  rw [if_neg hn, List.range_eq_range']
  have hm := hr _ (List.getLast_mem hne)
  refine (minLoop_sorted h.coc z.csiz 0 0 nl said (by rw [List.drop_zero]; exact hp) hs
    (fun p hm => ⟨Nat.zero_le _, by have := hr p hm; omega⟩)).2 (by omega) ?_
  rw [List.getLast?_eq_some_getLast hne]
  show (said.getLast hne).1 + 1 < 0 + z.csiz
  omega

/-- A header for the examples: `n` components, COD with `nl` levels. -/
def hdrWith (n nl : Nat) (coc : List Coc) : Hdr :=
  { siz := some ⟨47, 0, 8, 8, 0, 0, 8, 8, 0, 0, n, List.replicate n (7, 1, 1)⟩
    cod := some ⟨12, 0, 0x100, [nl, 4, 4, 0, 1]⟩
    coc := coc }

/-- Three components, two with COC segments, in order and including the last. -/
example : PlainList (hdrWith 3 5 [⟨9, 0, 0, [4, 4, 4, 0, 1]⟩, ⟨9, 2, 0, [3, 4, 4, 0, 1]⟩]).coc [(0, 4), (2, 3)] ∧
    (hdrWith 3 5 [⟨9, 0, 0, [4, 4, 4, 0, 1]⟩, ⟨9, 2, 0, [3, 4, 4, 0, 1]⟩]).minLevels = .ok 3 := by
  refine ⟨.cons ⟨rfl, rfl, rfl⟩ (.cons ⟨rfl, rfl, rfl⟩ .nil), rfl⟩

/-- A single COC segment for the first of two components. -/
example : (hdrWith 2 5 [⟨9, 0, 0, [4, 4, 4, 0, 1]⟩]).minLevels = .ub := rfl

/-- C49 fails: COC segments out of order (the standard does not order them) are overlooked; component 0 has one level, the
result allows five. -/
theorem C49_unsorted_ignored :
    (hdrWith 2 6 [⟨9, 1, 0, [5, 4, 4, 0, 1]⟩, ⟨9, 0, 0, [1, 4, 4, 0, 1]⟩]).minLevels = .ok 5 ∧
      levelsOf 6 [(1, 5), (0, 1)] 0 = 1 := ⟨rfl, rfl⟩

/-- COD's number counts although every component has its own. -/
theorem C49_overridden_counts :
    (hdrWith 1 3 [⟨9, 0, 0, [5, 4, 4, 0, 1]⟩]).minLevels = .ok 3 ∧ levelsOf 3 [(0, 5)] 0 = 5 := ⟨rfl, rfl⟩

/-! ### C50: the header object is used again -/

/-- The single markers of `h`, those it lacks from `old`. -/
def Hdr.over (old h : Hdr) : Hdr :=
  { h with
    siz := h.siz <|> old.siz
    cap := h.cap <|> old.cap
    prf := h.prf <|> old.prf
    cod := h.cod <|> old.cod
    cpf := h.cpf <|> old.cpf
    qcd := h.qcd <|> old.qcd
    poc := h.poc <|> old.poc
    crg := h.crg <|> old.crg }

theorem bind_over {α : Type} {o : Out (α × Src)} {upd upd' : α → Hdr} {old h' : Hdr} {s' : Src}
    (hu : ∀ a, upd' a = old.over (upd a)) (h : (o.bind fun r => .ok (upd r.1, r.2)) = .ok (h', s')) :
    (o.bind fun r => .ok (upd' r.1, r.2)) = .ok (old.over h', s') := by
  cases o with
  | ok r =>
    have := Prod.mk.inj (Out.ok.inj h)
    show Out.ok (upd' r.1, r.2) = _
    rw [hu, this.1, this.2]
  | throws => cases h
  | ub => cases h

theorem needSiz_over {α : Type} {h old : Hdr} {f : Nat → Out α} {v : α} (hh : needSiz h f = .ok v) :
    ∃ z, h.siz = some z ∧ f z.csiz = .ok v ∧ ∀ {β : Type} (g : Nat → Out β), needSiz (old.over h) g = g z.csiz := by
  rw [needSiz] at hh
  cases hz : h.siz with
  | none => rw [hz] at hh; cases hh
  | some z =>
    rw [hz] at hh
    refine ⟨z, rfl, hh, fun g => ?_⟩
    rw [needSiz]
    have : (old.over h).siz = some z := by rw [Hdr.over, hz]; rfl
    rw [this]

theorem step_over {pad : List UInt8} {old h h' : Hdr} {w : Nat} {s s' : Src} (hs : h.step pad w s = .ok (h', s')) :
    (old.over h).step pad w s = .ok (old.over h', s') := by
  rw [Hdr.step] at hs ⊢
  by_cases c1 : w = 0xFF51
  · rw [if_pos c1] at hs ⊢; exact bind_over (upd := fun r => { h with siz := some r }) (fun _ => rfl) hs
  rw [if_neg c1] at hs ⊢
  by_cases c2 : w = 0xFF50
  · rw [if_pos c2] at hs ⊢; exact bind_over (upd := fun r => { h with cap := some r }) (fun _ => rfl) hs
  rw [if_neg c2] at hs ⊢
  by_cases c3 : w = 0xFF56
  · rw [if_pos c3] at hs ⊢; exact bind_over (upd := fun r => { h with prf := some r }) (fun _ => rfl) hs
  rw [if_neg c3] at hs ⊢
  by_cases c4 : w = 0xFF52
  · rw [if_pos c4] at hs ⊢; exact bind_over (upd := fun r => { h with cod := some r }) (fun _ => rfl) hs
  rw [if_neg c4] at hs ⊢
  by_cases c5 : w = 0xFF53
  · rw [if_pos c5] at hs ⊢
    obtain ⟨z, -, h2, h3⟩ := needSiz_over (old := old) hs
    rw [h3]
    exact bind_over (upd := fun r => { h with coc := h.coc ++ [r] }) (fun _ => rfl) h2
  rw [if_neg c5] at hs ⊢
  by_cases c6 : w = 0xFF55
  · rw [if_pos c6] at hs ⊢; exact bind_over (upd := fun r => { h with tlm := h.tlm ++ [r] }) (fun _ => rfl) hs
  rw [if_neg c6] at hs ⊢
  by_cases c7 : w = 0xFF57
  · rw [if_pos c7] at hs ⊢; exact bind_over (upd := fun r => { h with plm := h.plm ++ [r] }) (fun _ => rfl) hs
  rw [if_neg c7] at hs ⊢
  by_cases c8 : w = 0xFF59
  · rw [if_pos c8] at hs ⊢; exact bind_over (upd := fun r => { h with cpf := some r }) (fun _ => rfl) hs
  rw [if_neg c8] at hs ⊢
  by_cases c9 : w = 0xFF5C
  · rw [if_pos c9] at hs ⊢; exact bind_over (upd := fun r => { h with qcd := some r }) (fun _ => rfl) hs
  rw [if_neg c9] at hs ⊢
  by_cases c10 : w = 0xFF5D
  · rw [if_pos c10] at hs ⊢
    obtain ⟨z, -, h2, h3⟩ := needSiz_over (old := old) hs
    rw [h3]
    exact bind_over (upd := fun r => { h with qcc := h.qcc ++ [r] }) (fun _ => rfl) h2
  rw [if_neg c10] at hs ⊢
  by_cases c11 : w = 0xFF5E
  · rw [if_pos c11] at hs ⊢
    obtain ⟨z, -, h2, h3⟩ := needSiz_over (old := old) hs
    rw [h3]
    exact bind_over (upd := fun r => { h with rgn := h.rgn ++ [r] }) (fun _ => rfl) h2
  rw [if_neg c11] at hs ⊢
  by_cases c12 : w = 0xFF5F
  · rw [if_pos c12] at hs ⊢
    obtain ⟨z, -, h2, h3⟩ := needSiz_over (old := old) hs
    rw [h3]
    exact bind_over (upd := fun r => { h with poc := some r }) (fun _ => rfl) h2
  rw [if_neg c12] at hs ⊢
  by_cases c13 : w = 0xFF60
  · rw [if_pos c13] at hs ⊢; exact bind_over (upd := fun r => { h with ppm := h.ppm ++ [r] }) (fun _ => rfl) hs
  rw [if_neg c13] at hs ⊢
  by_cases c14 : w = 0xFF63
  · rw [if_pos c14] at hs ⊢; exact bind_over (upd := fun r => { h with crg := some r }) (fun _ => rfl) hs
  rw [if_neg c14] at hs ⊢
  by_cases c15 : w = 0xFF64
  · rw [if_pos c15] at hs ⊢; exact bind_over (upd := fun r => { h with com := h.com ++ [r] }) (fun _ => rfl) hs
  rw [if_neg c15] at hs ⊢
  by_cases c16 : w = 0xFF72
  · rw [if_pos c16] at hs ⊢; exact bind_over (upd := fun r => { h with dfs := h.dfs ++ [r] }) (fun _ => rfl) hs
  rw [if_neg c16] at hs ⊢
  by_cases c17 : w = 0xFF79
  · rw [if_pos c17] at hs ⊢; exact bind_over (upd := fun r => { h with atk := h.atk ++ [r] }) (fun _ => rfl) hs
  rw [if_neg c17] at hs ⊢
  cases hk : skipSegment w s with
  | ok r =>
    rw [hk] at hs
    have := Prod.mk.inj (Out.ok.inj hs)
    show Out.ok (old.over h, r) = _
    rw [this.1, this.2]
  | throws => rw [hk] at hs; cases hs
  | ub => rw [hk] at hs; cases hs

theorem loop_over {pad : List UInt8} (old : Hdr) (fuel : Nat) : ∀ {h h' : Hdr} {s s' : Src},
    Hdr.loop pad fuel h s = some (.ok (h', s')) → Hdr.loop pad fuel (old.over h) s = some (.ok (old.over h', s')) := by
  induction fuel with
  | zero => intro h h' s s' hl; cases hl
  | succ fuel ih =>
    intro h h' s s' hl
    rw [Hdr.loop] at hl ⊢
    cases hw : s.getWord with
    | throws => rw [hw] at hl; cases hl
    | ub => rw [hw] at hl; cases hl
    | ok r =>
      obtain ⟨w, s1⟩ := r
      rw [hw] at hl
      simp only at hl ⊢
      by_cases hc : w = 0xFF90
      · rw [if_pos hc] at hl ⊢
        have := Prod.mk.inj (Out.ok.inj (Option.some.inj hl))
        rw [this.1, this.2]
      · rw [if_neg hc] at hl ⊢
        cases hs : h.step pad w s1 with
        | throws => rw [hs] at hl; cases hl
        | ub => rw [hs] at hl; cases hl
        | ok r =>
          obtain ⟨h1, s2⟩ := r
          rw [hs] at hl
          rw [step_over hs]
          exact ih hl

theorem finish_over {old h h' : Hdr} (hf : h.finish = .ok h') : (old.over h).finish = .ok (old.over h') := by
  rw [Hdr.finish] at hf ⊢
  show (if h.ppm = [] then _ else if 2 ^ 32 ≤ (h.ppm.map Raw.len).sum then _ else (joinPpm h.ppm).bind _) = _
  by_cases hn : h.ppm = []
  · rw [if_pos hn] at hf ⊢
    rw [Out.ok.inj hf]
  rw [if_neg hn] at hf ⊢
  by_cases hm : 2 ^ 32 ≤ (h.ppm.map Raw.len).sum
  · rw [if_pos hm] at hf; cases hf
  rw [if_neg hm] at hf ⊢
  cases hj : joinPpm h.ppm with
  | throws => rw [hj] at hf; cases hf
  | ub => rw [hj] at hf; cases hf
  | ok b =>
    rw [hj] at hf
    replace hf : (cutPpm b).bind _ = _ := hf
    show (cutPpm b).bind _ = _
    cases hc : cutPpm b with
    | throws => rw [hc] at hf; cases hf
    | ub => rw [hc] at hf; cases hf
    | ok ns =>
      rw [hc] at hf
      replace hf : (Chain.activate ns).bind _ = _ := hf
      show (Chain.activate ns).bind _ = _
      cases ha : Chain.activate ns with
      | throws => rw [ha] at hf; cases hf
      | ub => rw [ha] at hf; cases hf
      | ok c =>
        rw [ha] at hf
        have := Out.ok.inj hf
        rw [← this]
        rfl

/-- C50 as far as it holds: a codestream accepted by a fresh decoder is accepted by one that has parsed others before, with the
same segments, the same packet headers and the same position — except that single markers the codestream lacks are kept from
before.
What is missing from the property: those markers (`C50_stale_progression`, `C50_stale_size`). -/
theorem C50_reused_header_partial (pad : List UInt8) (fuel : Nat) (old h : Hdr) (s s' : Src)
    (hr : Hdr.read pad fuel {} s = some (.ok (h, s'))) :
    Hdr.read pad fuel old s = some (.ok (old.over h, s')) := by
  rw [Hdr.read] at hr ⊢
  cases hw : s.getWord with
  | throws => rw [hw] at hr; cases hr
  | ub => rw [hw] at hr; cases hr
  | ok r =>
    obtain ⟨w, s1⟩ := r
    rw [hw] at hr
    simp only at hr ⊢
    cases hl : Hdr.loop pad fuel {} s1 with
    | none => rw [hl] at hr; cases hr
    | some o =>
      cases o with
      | throws => rw [hl] at hr; cases hr
      | ub => rw [hl] at hr; cases hr
      | ok r =>
        obtain ⟨h1, s2⟩ := r
        rw [hl] at hr
        have hl2 := loop_over old fuel hl
        have he : old.over {} = { old with
            coc := [], tlm := [], plm := [], qcc := [], rgn := [], ppm := [], com := [], dfs := [], atk := [], chain := none } := by
          cases old; rfl
        rw [he] at hl2
        rw [hl2]
        simp only at hr ⊢
        cases hf : h1.finish with
        | throws => rw [hf] at hr; cases hr
        | ub => rw [hf] at hr; cases hr
        | ok h2 =>
          rw [hf] at hr
          have := Prod.mk.inj (Out.ok.inj (Option.some.inj hr))
          rw [finish_over hf, ← this.1, ← this.2]
          rfl

/-- C50 for headers with SIZ, COD, QCD and any of the optional markers the decoder has seen before. -/
theorem C50_same_markers (pad : List UInt8) (fuel : Nat) (old h : Hdr) (s s' : Src)
    (hr : Hdr.read pad fuel {} s = some (.ok (h, s'))) (h1 : h.siz ≠ none ∧ h.cod ≠ none ∧ h.qcd ≠ none)
    (h2 : (old.cap ≠ none → h.cap ≠ none) ∧ (old.prf ≠ none → h.prf ≠ none) ∧ (old.cpf ≠ none → h.cpf ≠ none) ∧
      (old.poc ≠ none → h.poc ≠ none) ∧ (old.crg ≠ none → h.crg ≠ none)) :
    Hdr.read pad fuel old s = some (.ok (h, s')) := by
  rw [C50_reused_header_partial pad fuel old h s s' hr]
  have orE : ∀ {α : Type} (a b : Option α), (b ≠ none → a ≠ none) → (a <|> b) = a := by
    intro α a b h
    cases a with
    | some _ => rfl
    | none =>
      cases b with
      | none => rfl
      | some b => exact absurd rfl (h (by simp))
  have : old.over h = h := by
    rw [Hdr.over, orE _ _ (fun _ => h1.1), orE _ _ (fun _ => h1.2.1), orE _ _ (fun _ => h1.2.2), orE _ _ h2.1, orE _ _ h2.2.1,
      orE _ _ h2.2.2.1, orE _ _ h2.2.2.2.1, orE _ _ h2.2.2.2.2]
  rw [this]

/-- A main header: SIZ of one 8x8 component, COD, QCD, the bytes `more`, then SOT. -/
def sampleHeader (more : List UInt8) : List UInt8 :=
  [0xFF, 0x4F, 0xFF, 0x51, 0, 41, 0x40, 0, 0, 0, 0, 8, 0, 0, 0, 8, 0, 0, 0, 0, 0, 0, 0, 0, 0, 0, 0, 8, 0, 0, 0, 8, 0, 0, 0, 0, 0, 0, 0, 0,
    0, 1, 7, 1, 1, 0xFF, 0x52, 0, 12, 0, 0, 0, 1, 0, 0, 4, 4, 0, 1, 0xFF, 0x5C, 0, 4, 0x40, 0x40] ++ more ++ [0xFF, 0x90]

/-- What a fresh decoder makes of it. -/
def sampleHdr (poc : Option (Nat × List PocEntry)) : Hdr :=
  { siz := some ⟨41, 0x4000, 8, 8, 0, 0, 8, 8, 0, 0, 1, [(7, 1, 1)]⟩
    cod := some ⟨12, 0, 0x100, [0, 4, 4, 0, 1]⟩
    qcd := some ⟨4, 0x40, [0x40], false⟩
    poc := poc }

theorem sampleHeader_read : Hdr.read [] 9 {} ⟨sampleHeader [], 0⟩ = some (.ok (sampleHdr none, ⟨sampleHeader [], 67⟩)) := by
  decide +kernel

/-- A progression order change left from the codestream before: the second codestream has none, the decoder uses one. -/
theorem C50_stale_progression :
    ∃ first second : List UInt8, ∃ h1 h2 h2' : Hdr, ∃ s1 s2,
      Hdr.read [] 9 {} ⟨first, 0⟩ = some (.ok (h1, s1)) ∧ Hdr.read [] 9 {} ⟨second, 0⟩ = some (.ok (h2, s2)) ∧
      Hdr.read [] 9 h1 ⟨second, 0⟩ = some (.ok (h2', s2)) ∧ h2.poc = none ∧ h2'.poc ≠ none :=
  ⟨sampleHeader [0xFF, 0x5F, 0, 9, 0, 0, 0, 1, 1, 1, 0], sampleHeader [], sampleHdr (some (9, [⟨0, 0, 1, 1, 1, 0⟩])),
    sampleHdr none, _, ⟨sampleHeader [0xFF, 0x5F, 0, 9, 0, 0, 0, 1, 1, 1, 0], 78⟩, ⟨sampleHeader [], 67⟩, by decide +kernel,
    sampleHeader_read, C50_reused_header_partial _ _ _ _ _ _ sampleHeader_read, rfl, by simp [Hdr.over, sampleHdr]⟩

/-- A codestream without SIZ is refused by a fresh decoder as soon as it has a COC segment, but read with the number of
components of the codestream before. -/
theorem C50_stale_size :
    Hdr.read [] 9 {} ⟨[0xFF, 0x4F, 0xFF, 0x53, 0, 9, 0, 0, 5, 4, 4, 0, 1, 0xFF, 0x90, 0], 0⟩ = some .throws ∧
    (Hdr.read [] 9 (hdrWith 1 5 []) ⟨[0xFF, 0x4F, 0xFF, 0x53, 0, 9, 0, 0, 5, 4, 4, 0, 1, 0xFF, 0x90, 0], 0⟩).map
      (fun o => o.bind fun r => .ok r.1.coc) = some (.ok [⟨9, 0, 0, [5, 4, 4, 0, 1]⟩]) := by decide +kernel

/-! ### C51: the size of a component -/

/-- The number of multiples of `f` among `lo, ..., hi - 1`: the samples of a component with subsampling `f`. -/
def samples (lo hi f : Nat) : Nat := ((List.range hi).filter (fun n => decide (lo ≤ n ∧ f ∣ n))).length

theorem cdiv_succ {n f : Nat} (hf : 0 < f) : cdiv (n + 1) f = cdiv n f + if f ∣ n then 1 else 0 := by
  unfold cdiv
  rw [show n + 1 + f - 1 = (n + f - 1) + 1 by omega, Nat.succ_div]
  congr 1
  rw [show n + f - 1 + 1 = n + f by omega]
  simp [Nat.dvd_add_left (Nat.dvd_refl f)]

theorem samples_eq {lo hi f : Nat} (hf : 0 < f) (h : lo ≤ hi) : samples lo hi f = cdiv hi f - cdiv lo f := by
  have key : ∀ k, samples lo (lo + k) f + cdiv lo f = cdiv (lo + k) f := by
    intro k
    induction k with
    | zero =>
      have : samples lo lo f = 0 := by
        rw [samples, List.length_eq_zero_iff, List.filter_eq_nil_iff]
        intro n hn
        have := List.mem_range.1 hn
        simp only [decide_eq_true_eq]
        omega
      rw [Nat.add_zero, this, Nat.zero_add]
    | succ k ih =>
      rw [← Nat.add_assoc, cdiv_succ hf, ← ih]
      rw [samples, List.range_succ, List.filter_append, List.length_append]
      have : (List.filter (fun n => decide (lo ≤ n ∧ f ∣ n)) [lo + k]).length = if f ∣ lo + k then 1 else 0 := by
        by_cases hd : f ∣ lo + k
        · rw [if_pos hd, List.filter_cons_of_pos (by simp [hd])]; rfl
        · rw [if_neg hd, List.filter_cons_of_neg (by simp [hd])]; rfl
      rw [this]
      show samples lo (lo + k) f + _ + _ = samples lo (lo + k) f + _ + _
      omega
  have := key (hi - lo)
  rw [show lo + (hi - lo) = hi by omega] at this
  omega

theorem cdiv_sub {a b m : Nat} (hm : 0 < m) (h : a ≤ b) :
    cdiv b m - cdiv a m ≤ cdiv (b - a) m ∧ cdiv (b - a) m ≤ cdiv b m - cdiv a m + 1 ∧
      (m ∣ a → cdiv (b - a) m = cdiv b m - cdiv a m) := by
  have ha := (cdiv_le (a := a) (b := m) (k := cdiv a m) hm).1 (Nat.le_refl _)
  have hba := (cdiv_le (a := b - a) (b := m) (k := cdiv (b - a) m) hm).1 (Nat.le_refl _)
  have hb := (cdiv_le (a := b) (b := m) (k := cdiv b m) hm).1 (Nat.le_refl _)
  have ha2 : cdiv a m * m ≤ a + m - 1 := by unfold cdiv; exact Nat.div_mul_le_self _ _
  have hmono : cdiv a m ≤ cdiv b m := cdiv_mono h
  refine ⟨?_, ?_, ?_⟩
  · have : cdiv b m ≤ cdiv (b - a) m + cdiv a m := by
      rw [cdiv_le hm, Nat.add_mul]; omega
    omega
  · rw [cdiv_le hm, Nat.add_mul, Nat.sub_mul]
    omega
  · rintro ⟨k, rfl⟩
    have hk : cdiv (m * k) m = k := by rw [Nat.mul_comm]; exact Verif.Tile.cdiv_exact hm
    rw [hk] at hmono ⊢
    apply Nat.le_antisymm
    · rw [cdiv_le hm, Nat.sub_mul, Nat.mul_comm k m]; omega
    · have : cdiv b m ≤ cdiv (b - m * k) m + k := by
        rw [cdiv_le hm, Nat.add_mul, Nat.mul_comm k m]; omega
      omega

/-- C51, reported sizes (one axis): the number of samples if the image offset is a multiple of the subsampling; otherwise
never less, and at most one more.
What is missing from the property: the excess of one (`C51_reported_too_large`). -/
theorem C51_reported_size_partial (siz osiz f : Nat) (hf : 0 < f) (h : osiz ≤ siz) (h32 : siz + f ≤ 2 ^ 32) :
    (f ∣ osiz → compSize siz osiz f = samples osiz siz f) ∧ samples osiz siz f ≤ compSize siz osiz f ∧
      compSize siz osiz f ≤ samples osiz siz f + 1 := by
  rw [compSize, usub_eq h, ceilInt_eq hf (by omega), samples_eq hf h]
  obtain ⟨a, b, c⟩ := cdiv_sub hf h
  exact ⟨c, a, b⟩

/-- C51, output buffers (one axis): a buffer dimension is the number of samples after discarding `r` levels if none is
discarded or the first sample of the component is a multiple of `2^r`; never less, and at most one more.
What is missing from the property: the excess of one (`C51_buffer_too_large`). -/
theorem C51_buffer_size_partial (siz osiz f r : Nat) (hf : 0 < f) (h : osiz ≤ siz) (h32 : siz + f ≤ 2 ^ 32)
    (hr : siz + 2 ^ r ≤ 2 ^ 32) :
    (2 ^ r ∣ cdiv osiz f → bufSize siz osiz f r = samples osiz siz (f * 2 ^ r)) ∧
      samples osiz siz (f * 2 ^ r) ≤ bufSize siz osiz f r ∧ bufSize siz osiz f r ≤ samples osiz siz (f * 2 ^ r) + 1 := by
  have h2 : 0 < 2 ^ r := Nat.two_pow_pos r
  have hle : cdiv siz f ≤ siz := by rw [cdiv_le hf]; exact Nat.le_mul_of_pos_right _ hf
  have hmono : cdiv osiz f ≤ cdiv siz f := cdiv_mono h
  rw [bufSize, ceilInt_eq hf h32, ceilInt_eq hf (by omega), usub_eq hmono, ceilInt_eq h2 (by omega),
    samples_eq (Nat.mul_pos hf h2) h, ← cdiv_mul rfl hf h2, ← cdiv_mul rfl hf h2]
  obtain ⟨a, b, c⟩ := cdiv_sub h2 hmono
  exact ⟨c, a, b⟩

/-- Without reduction the buffers have the exact size. -/
theorem C51_full_size (siz osiz f : Nat) (hf : 0 < f) (h : osiz ≤ siz) (h32 : siz + f < 2 ^ 32) :
    bufSize siz osiz f 0 = samples osiz siz f := by
  have := (C51_buffer_size_partial siz osiz f 0 hf h (by omega) (by omega)).1 (by simp)
  rwa [Nat.pow_zero, Nat.mul_one] at this

/-- An image from 4 to 21, subsampled by two, one level discarded. -/
example : (2 : Nat) ∣ 4 ∧ compSize 21 4 2 = 9 ∧ samples 4 21 2 = 9 ∧ bufSize 21 4 2 1 = 5 ∧ samples 4 21 4 = 5 := by decide

/-- Offset 1, size 4, subsampling 2: only position 2 holds a sample, the width is reported as 2. -/
theorem C51_reported_too_large : compSize 4 1 2 = 2 ∧ samples 1 4 2 = 1 := by decide

/-- Offset 1, size 4, one level discarded: one sample, a buffer of two. -/
theorem C51_buffer_too_large : bufSize 4 1 1 1 = 2 ∧ samples 1 4 2 = 1 := by decide

end Verif.Cs
