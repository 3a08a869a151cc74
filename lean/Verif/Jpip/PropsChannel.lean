import Verif.Jpip.Channel
import Mathlib.Data.List.Perm.Basic
/-
C11: the server's channel table refines an ideal LRU list.
-/
namespace Verif.Jpip

/-! ### Specification: a list of channels, most recently used first -/

/-- The ideal table: live channels, most recently used first, and the number of channels ever opened. -/
structure LruSpec where
  live : List (List Char × CacheModel) := []
  opened : Nat := 0

/-- Move `cid` to the front, changing its model. -/
def LruSpec.touch (s : LruSpec) (cid : List Char) (f : CacheModel → CacheModel) : LruSpec :=
  match s.live.find? (·.1 = cid) with
  | none => s
  | some (_, m) => { s with live := (cid, f m) :: s.live.filter (·.1 ≠ cid) }

/-- One call on the ideal table: a creation that needs room drops the last (least recently used) channel;
the k-th channel ever opened is called JPHk. -/
def LruSpec.step (max : Nat) (s : LruSpec) : ChanOp → LruSpec × ChanOut
  | .openCh =>
    let kept := if s.live.length ≥ max then s.live.dropLast else s.live
    let cid := 'J' :: 'P' :: 'H' :: decStr (s.opened + 1)
    ({ live := (cid, {}) :: kept, opened := s.opened + 1 }, .cid cid)
  | .snapshot cid => (s.touch cid id, .model ((s.live.find? (·.1 = cid)).map Prod.snd))
  | .commit cid sent => (s.touch cid (·.commit sent), .unit)
  | .applyModel cid m => (s.touch cid (·.apply m), .flag (s.live.any (·.1 = cid)))
  | .close cid => ({ s with live := s.live.filter (·.1 ≠ cid) }, .flag (s.live.any (·.1 = cid)))

def LruSpec.run (max : Nat) : LruSpec → List ChanOp → LruSpec × List ChanOut
  | s, [] => (s, [])
  | s, op :: ops =>
    let (s', o) := s.step max op
    let (s'', os) := LruSpec.run max s' ops
    (s'', o :: os)

/-! ### Refinement -/

theorem decStr_inj {a b : Nat} (h : decStr a = decStr b) : a = b := by
  rw [← (decStr_spec a).2.1, ← (decStr_spec b).2.1, h]

theorem cidOf_inj {a b : Nat} (h : cidOf a = cidOf b) : a = b := by
  unfold cidOf at h
  exact decStr_inj (by simpa using h)

/-- The abstraction relation; `n` bounds the number of calls so far. -/
structure ChanRel (n : Nat) (t : ChannelTable) (s : LruSpec) : Prop where
  order : ∃ l : List Channel, t.channels.Perm l ∧ l.Pairwise (fun a b => b.lastUsed < a.lastUsed) ∧
    l.map (fun c => (c.cid, c.model)) = s.live
  nodup : (s.live.map Prod.fst).Nodup
  clock : ∀ c ∈ t.channels, c.lastUsed ≤ t.useClock
  clockN : t.useClock ≤ n
  cids : ∀ p ∈ s.live, ∃ k, 1 ≤ k ∧ k ≤ s.opened ∧ p.1 = cidOf k
  next : t.nextCid = s.opened + 1
  openedN : s.opened ≤ n

theorem scanVictim_min (v : Channel) (cs : List Channel) :
    (scanVictim v cs = v ∨ scanVictim v cs ∈ cs) ∧ (scanVictim v cs).lastUsed ≤ v.lastUsed ∧
    ∀ c ∈ cs, (scanVictim v cs).lastUsed ≤ c.lastUsed := by
  induction cs generalizing v with
  | nil => simp [scanVictim]
  | cons c cs ih =>
    simp only [scanVictim]
    split
    · rename_i h
      obtain ⟨h1, h2, h3⟩ := ih c
      refine ⟨?_, by omega, ?_⟩
      · rcases h1 with h1 | h1
        · right; rw [h1]; simp
        · right; simp [h1]
      · intro d hd
        rcases List.mem_cons.1 hd with rfl | hd
        · exact h2
        · exact h3 d hd
    · rename_i h
      obtain ⟨h1, h2, h3⟩ := ih v
      refine ⟨?_, by omega, ?_⟩
      · rcases h1 with h1 | h1
        · exact Or.inl h1
        · right; simp [h1]
      · intro d hd
        rcases List.mem_cons.1 hd with rfl | hd
        · omega
        · exact h3 d hd

theorem map_filter_cid (l : List Channel) (cid : List Char) :
    (l.filter (·.cid ≠ cid)).map (fun c => (c.cid, c.model)) =
    (l.map (fun c => (c.cid, c.model))).filter (·.1 ≠ cid) := by
  rw [List.filter_map]; rfl

theorem mem_unique {l : List Channel} (hn : (l.map Channel.cid).Nodup) {a b : Channel} (ha : a ∈ l) (hb : b ∈ l)
    (h : a.cid = b.cid) : a = b := List.inj_on_of_nodup_map hn ha hb h

/-- Finding by id does not depend on the iteration order. -/
theorem find_perm {l l' : List Channel} (hp : l.Perm l') (hn : (l'.map Channel.cid).Nodup) (cid : List Char) :
    l.find? (·.cid = cid) = l'.find? (·.cid = cid) := by
  cases h : l.find? (·.cid = cid) with
  | none =>
    symm
    rw [List.find?_eq_none] at h ⊢
    intro x hx
    exact h x (hp.mem_iff.2 hx)
  | some a =>
    have ha := List.mem_of_find?_eq_some h
    have hac := List.find?_some h
    cases h' : l'.find? (·.cid = cid) with
    | none =>
      rw [List.find?_eq_none] at h'
      exact absurd hac (h' a (hp.mem_iff.1 ha))
    | some b =>
      have hb := List.mem_of_find?_eq_some h'
      have hbc := List.find?_some h'
      simp only [decide_eq_true_eq] at hac hbc
      rw [mem_unique hn (hp.mem_iff.1 ha) hb (hac.trans hbc.symm)]

/-- Touching an entry keeps the relation. -/
theorem touch_rel {n : Nat} {t : ChannelTable} {s : LruSpec} (hn : n + 1 < 2 ^ 64) (hr : ChanRel n t s)
    (cid : List Char) (f : CacheModel → CacheModel) {ch : Channel}
    (hf : t.channels.find? (·.cid = cid) = some ch) :
    s.live.find? (·.1 = cid) = some (cid, ch.model) ∧
    ChanRel (n + 1) { t with channels := updChannel t.channels cid (tick t) f, useClock := tick t }
      (s.touch cid f) := by
  obtain ⟨l, hp, hs, hm⟩ := hr.order
  have hcn : (l.map Channel.cid).Nodup := by
    have := hr.nodup
    rw [← hm, List.map_map] at this
    exact this
  rw [find_perm hp hcn] at hf
  have hmem := List.mem_of_find?_eq_some hf
  have hcid : ch.cid = cid := by simpa using List.find?_some hf
  have htick : tick t = t.useClock + 1 := by
    unfold tick; have := hr.clockN; rw [Nat.mod_eq_of_lt (by omega)]
  have hfind : s.live.find? (·.1 = cid) = some (cid, ch.model) := by
    rw [← hm, List.find?_map]
    have : ((fun x : List Char × CacheModel => decide (x.1 = cid)) ∘ fun c : Channel => (c.cid, c.model)) =
        (fun c => decide (c.cid = cid)) := rfl
    rw [this, hf]
    simp [hcid]
  refine ⟨hfind, ?_⟩
  have htouch : s.touch cid f = { s with live := (cid, f ch.model) :: s.live.filter (·.1 ≠ cid) } := by
    unfold LruSpec.touch; rw [hfind]
  rw [htouch]
  -- the new order: the touched entry first
  set ch' : Channel := { ch with lastUsed := tick t, model := f ch.model } with hch'
  have hperm : (updChannel l cid (tick t) f).Perm (ch' :: l.filter (·.cid ≠ cid)) := by
    clear hp hs hm hf hfind
    induction l with
    | nil => simp at hmem
    | cons a l ih =>
      simp only [List.map_cons, List.nodup_cons] at hcn
      by_cases ha : a.cid = cid
      · have hach : a = ch := by
          rcases List.mem_cons.1 hmem with h | h
          · exact h.symm
          · exact absurd (List.mem_map_of_mem (f := Channel.cid) h) (by rw [hcid, ← ha]; exact hcn.1)
        subst hach
        have hrest : ∀ x ∈ l, x.cid ≠ cid := by
          intro x hx he
          exact hcn.1 (by rw [ha, ← he]; exact List.mem_map_of_mem hx)
        have e1 : updChannel l cid (tick t) f = l := by
          unfold updChannel
          conv_rhs => rw [← List.map_id l]
          apply List.map_congr_left
          intro x hx; simp [hrest x hx]
        have e2 : l.filter (·.cid ≠ cid) = l := by
          rw [List.filter_eq_self]; intro x hx; simpa using hrest x hx
        have e3 : updChannel (a :: l) cid (tick t) f = ch' :: updChannel l cid (tick t) f := by
          simp [updChannel, ha, hch']
        rw [e3, e1, List.filter_cons_of_neg (by simp [ha]), e2]
      · have hmem' : ch ∈ l := by
          rcases List.mem_cons.1 hmem with h | h
          · exact absurd (h ▸ hcid) ha
          · exact h
        have e3 : updChannel (a :: l) cid (tick t) f = a :: updChannel l cid (tick t) f := by
          simp [updChannel, ha]
        rw [e3, List.filter_cons_of_pos (by simp [ha])]
        exact ((ih hcn.2 hmem').cons a).trans (List.Perm.swap _ _ _)
  refine ⟨⟨ch' :: l.filter (·.cid ≠ cid), ?_, ?_, ?_⟩, ?_, ?_, ?_, ?_, hr.next, ?_⟩
  · show (updChannel t.channels cid (tick t) f).Perm _
    exact (hp.map _).trans hperm
  · rw [List.pairwise_cons]
    refine ⟨?_, hs.filter _⟩
    intro x hx
    have hx' : x ∈ t.channels := hp.mem_iff.2 (List.mem_of_mem_filter hx)
    have := hr.clock x hx'
    show x.lastUsed < tick t
    omega
  · rw [List.map_cons, map_filter_cid, hm]
    simp [hch', hcid]
  · simp only [List.map_cons, List.nodup_cons]
    refine ⟨?_, ?_⟩
    · intro h
      obtain ⟨p, hp, he⟩ := List.mem_map.1 h
      have := (List.mem_filter.1 hp).2
      simp only [ne_eq, decide_not, Bool.not_eq_eq_eq_not, Bool.not_true, decide_eq_false_iff_not] at this
      exact this he
    · exact hr.nodup.sublist (List.filter_sublist.map _)
  · intro c hc
    show c.lastUsed ≤ tick t
    obtain ⟨d, hd, rfl⟩ := List.mem_map.1 hc
    split
    · exact le_refl _
    · have := hr.clock d hd; omega
  · show tick t ≤ n + 1
    have := hr.clockN; omega
  · intro p hp'
    simp only [List.mem_cons] at hp'
    rcases hp' with rfl | hp'
    · obtain ⟨k, h1, h2, h3⟩ := hr.cids _ (List.mem_of_find?_eq_some hfind)
      exact ⟨k, h1, h2, h3⟩
    · exact hr.cids p (List.mem_of_mem_filter hp')
  · have := hr.openedN
    show s.opened ≤ n + 1; omega

theorem chanRel_mono {n : Nat} {t : ChannelTable} {s : LruSpec} (hr : ChanRel n t s) : ChanRel (n + 1) t s :=
  ⟨hr.order, hr.nodup, hr.clock, Nat.le_succ_of_le hr.clockN, hr.cids, hr.next, Nat.le_succ_of_le hr.openedN⟩

theorem touch_none {s : LruSpec} {cid : List Char} (h : s.live.find? (·.1 = cid) = none)
    (f : CacheModel → CacheModel) : s.touch cid f = s := by
  unfold LruSpec.touch; rw [h]

theorem find_spec_none {n : Nat} {t : ChannelTable} {s : LruSpec} (hr : ChanRel n t s) (cid : List Char)
    (hf : t.channels.find? (·.cid = cid) = none) : s.live.find? (·.1 = cid) = none := by
  obtain ⟨l, hp, hs, hm⟩ := hr.order
  rw [List.find?_eq_none] at hf ⊢
  intro x hx
  rw [← hm] at hx
  obtain ⟨c, hc, rfl⟩ := List.mem_map.1 hx
  exact hf c (hp.mem_iff.2 hc)

theorem any_of_find {α : Type} (l : List α) (p : α → Bool) : l.any p = (l.find? p).isSome := by
  induction l with
  | nil => rfl
  | cons a l ih => rw [List.any_cons, List.find?_cons, ih]; cases p a <;> simp

theorem filter_last {l : List Channel} {a : Channel} (hn : ((l ++ [a]).map Channel.cid).Nodup) :
    (l ++ [a]).filter (·.cid ≠ a.cid) = l := by
  rw [List.filter_append, List.filter_cons_of_neg (by simp)]
  simp only [List.filter_nil, List.append_nil]
  rw [List.filter_eq_self]
  intro x hx
  rw [List.map_append, List.nodup_append] at hn
  simpa using hn.2.2 x.cid (List.mem_map_of_mem hx) a.cid (by simp)

theorem openChannel_rel {n max : Nat} {t : ChannelTable} {s : LruSpec} (hmax : 1 ≤ max) (hn : n + 2 < 2 ^ 64)
    (hr : ChanRel n t s) :
    ∃ t', openChannel max t = some (t', cidOf (s.opened + 1)) ∧ ChanRel (n + 1) t' (s.step max .openCh).1 := by
  obtain ⟨l, hp, hs, hm⟩ := hr.order
  have hcn : (l.map Channel.cid).Nodup := by
    have := hr.nodup
    rw [← hm, List.map_map] at this
    exact this
  have htick : tick t = t.useClock + 1 := by
    unfold tick; have := hr.clockN; rw [Nat.mod_eq_of_lt (by omega)]
  have hlen : t.channels.length = s.live.length := by rw [hp.length_eq, ← hm, List.length_map]
  -- adding the new channel on top of `kept`, a sublist of the old table
  have hadd : ∀ (chs l' : List Channel), chs.Perm l' → l'.Sublist l →
      (s.step max .openCh).1.live = (cidOf (s.opened + 1), {}) :: l'.map (fun c => (c.cid, c.model)) →
      (s.step max .openCh).1.opened = s.opened + 1 →
      ChanRel (n + 1)
        { channels := { cid := cidOf t.nextCid, lastUsed := tick t } ::
            chs.filter (·.cid ≠ cidOf t.nextCid), nextCid := (t.nextCid + 1) % 2 ^ 64, useClock := tick t }
        (s.step max .openCh).1 := by
    intro chs l' hpc hsub hlive hopen
    have hnew : ∀ c ∈ l', c.cid ≠ cidOf t.nextCid := by
      intro c hc he
      have : (c.cid, c.model) ∈ s.live := by
        rw [← hm]; exact List.mem_map_of_mem (f := fun c : Channel => (c.cid, c.model)) (hsub.subset hc)
      obtain ⟨k, h1, h2, h3⟩ := hr.cids _ this
      rw [he, hr.next] at h3
      have := cidOf_inj h3
      omega
    have hfil : chs.filter (·.cid ≠ cidOf t.nextCid) = chs := by
      rw [List.filter_eq_self]; intro x hx; simpa using hnew x (hpc.mem_iff.1 hx)
    rw [hfil]
    refine ⟨⟨{ cid := cidOf t.nextCid, lastUsed := tick t } :: l', hpc.cons _, ?_, ?_⟩, ?_, ?_, ?_, ?_, ?_, ?_⟩
    · rw [List.pairwise_cons]
      refine ⟨?_, hs.sublist hsub⟩
      intro x hx
      have := hr.clock x (hp.mem_iff.2 (hsub.subset hx))
      show x.lastUsed < tick t
      omega
    · rw [List.map_cons, hlive, hr.next]
    · rw [hlive, List.map_cons, List.nodup_cons]
      refine ⟨?_, ?_⟩
      · intro h
        rw [List.map_map] at h
        obtain ⟨c, hc, he⟩ := List.mem_map.1 h
        exact hnew c hc (by rw [hr.next]; exact he)
      · rw [List.map_map]
        exact hcn.sublist (hsub.map _)
    · intro c hc
      show c.lastUsed ≤ tick t
      simp only [List.mem_cons] at hc
      rcases hc with rfl | hc
      · exact le_refl _
      · have := hr.clock c (hp.mem_iff.2 (hsub.subset (hpc.mem_iff.1 hc))); omega
    · show tick t ≤ _; have := hr.clockN; omega
    · rw [hlive, hopen]
      intro p hp'
      simp only [List.mem_cons] at hp'
      rcases hp' with rfl | hp'
      · exact ⟨s.opened + 1, by omega, by omega, rfl⟩
      · have : p ∈ s.live := by rw [← hm]; exact (hsub.map _).subset hp'
        obtain ⟨k, h1, h2, h3⟩ := hr.cids p this
        exact ⟨k, h1, by omega, h3⟩
    · show (t.nextCid + 1) % 2 ^ 64 = _
      rw [hopen, hr.next]
      have := hr.openedN
      rw [Nat.mod_eq_of_lt (by omega)]
    · rw [hopen]; have := hr.openedN; omega
  unfold openChannel
  simp only
  by_cases hfull : t.channels.length ≥ max
  · rw [if_pos hfull]
    cases hch : t.channels with
    | nil => rw [hch] at hfull; simp at hfull; omega
    | cons c cs =>
      simp only
      -- the victim is the last of `l`
      have hne : l ≠ [] := by
        rintro rfl; rw [hch] at hp; exact absurd hp.length_eq (by simp)
      obtain ⟨l0, a, hla⟩ := (List.eq_nil_or_concat l).resolve_left hne
      rw [List.concat_eq_append] at hla
      subst hla
      obtain ⟨v1, v2, v3⟩ := scanVictim_min c (c :: cs)
      have hvmem : scanVictim c (c :: cs) ∈ l0 ++ [a] := by
        rw [← hp.mem_iff, hch]
        rcases v1 with h | h
        · rw [h]; simp
        · exact h
      have hva : scanVictim c (c :: cs) = a := by
        rcases List.mem_append.1 hvmem with h | h
        · exfalso
          rw [List.pairwise_append] at hs
          have h1 := hs.2.2 _ h a (by simp)
          have h2 := v3 a (by rw [← hch, hp.mem_iff]; simp)
          omega
        · simpa using h
      rw [hva]
      refine ⟨_, congrArg some (Prod.ext rfl (by show cidOf t.nextCid = _; rw [hr.next])), ?_⟩
      apply hadd _ l0
      · rw [← hch]
        refine (hp.filter _).trans ?_
        rw [filter_last hcn]
      · exact List.sublist_append_left _ _
      · have : s.live.length ≥ max := by rw [← hlen]; exact hfull
        simp only [LruSpec.step]
        rw [if_pos this, ← hm]
        simp [cidOf]
      · rfl
  · rw [if_neg hfull]
    refine ⟨_, congrArg some (Prod.ext rfl (by show cidOf t.nextCid = _; rw [hr.next])), ?_⟩
    apply hadd _ l hp (List.Sublist.refl _)
    · have : ¬ s.live.length ≥ max := by rw [← hlen]; exact hfull
      simp only [LruSpec.step]
      rw [if_neg this, ← hm]
      rfl
    · rfl

/-- One call: same answer as the ideal table. -/
theorem chanStep_rel {n max : Nat} {t : ChannelTable} {s : LruSpec} (hmax : 1 ≤ max) (hn : n + 2 < 2 ^ 64)
    (hr : ChanRel n t s) (op : ChanOp) :
    ∃ t', chanStep max t op = some (t', (s.step max op).2) ∧ ChanRel (n + 1) t' (s.step max op).1 := by
  cases op with
  | openCh =>
    obtain ⟨t', h1, h2⟩ := openChannel_rel hmax hn hr
    exact ⟨t', by simp [chanStep, h1, LruSpec.step, cidOf], h2⟩
  | snapshot cid =>
    simp only [chanStep, LruSpec.step]
    cases hf : t.channels.find? (·.cid = cid) with
    | none =>
      have := find_spec_none hr cid hf
      exact ⟨t, by simp [this], by rw [touch_none this]; exact chanRel_mono hr⟩
    | some ch =>
      obtain ⟨h1, h2⟩ := touch_rel (by omega) hr cid id hf
      exact ⟨_, by rw [h1]; rfl, h2⟩
  | commit cid sent =>
    simp only [chanStep, LruSpec.step]
    cases hf : t.channels.find? (·.cid = cid) with
    | none =>
      have := find_spec_none hr cid hf
      exact ⟨t, rfl, by rw [touch_none this]; exact chanRel_mono hr⟩
    | some ch =>
      obtain ⟨h1, h2⟩ := touch_rel (by omega) hr cid (·.commit sent) hf
      exact ⟨_, rfl, h2⟩
  | applyModel cid m =>
    simp only [chanStep, LruSpec.step, any_of_find]
    cases hf : t.channels.find? (·.cid = cid) with
    | none =>
      have := find_spec_none hr cid hf
      exact ⟨t, by simp [this], by rw [touch_none this]; exact chanRel_mono hr⟩
    | some ch =>
      obtain ⟨h1, h2⟩ := touch_rel (by omega) hr cid (·.apply m) hf
      exact ⟨_, by rw [h1]; rfl, h2⟩
  | close cid =>
    refine ⟨{ t with channels := t.channels.filter (·.cid ≠ cid) }, ?_, ?_⟩
    · have : t.channels.any (·.cid = cid) = s.live.any (·.1 = cid) := by
        obtain ⟨l, hp, hs, hm⟩ := hr.order
        rw [← hm, List.any_map, Bool.eq_iff_iff]
        simp only [List.any_eq_true, Function.comp, decide_eq_true_eq]
        constructor
        · rintro ⟨x, hx, h⟩; exact ⟨x, hp.mem_iff.1 hx, h⟩
        · rintro ⟨x, hx, h⟩; exact ⟨x, hp.mem_iff.2 hx, h⟩
      simp only [chanStep, LruSpec.step, this]
    · obtain ⟨l, hp, hs, hm⟩ := hr.order
      refine ⟨⟨l.filter (·.cid ≠ cid), hp.filter _, hs.filter _, ?_⟩, ?_, ?_, ?_, ?_, hr.next, ?_⟩
      · rw [map_filter_cid, hm]; rfl
      · exact hr.nodup.sublist (List.filter_sublist.map _)
      · intro c hc; exact hr.clock c (List.mem_of_mem_filter hc)
      · exact Nat.le_succ_of_le hr.clockN
      · intro p hp'; exact hr.cids p (List.mem_of_mem_filter hp')
      · exact Nat.le_succ_of_le hr.openedN

theorem chanExec_rel {max : Nat} (hmax : 1 ≤ max) {t t' : ChannelTable} {tr : List (ChanOp × ChanOut)}
    (h : ChanExec max t tr t') : ∀ {n : Nat} {s : LruSpec}, ChanRel n t s → n + tr.length + 1 < 2 ^ 64 →
    tr.map Prod.snd = (LruSpec.run max s (tr.map Prod.fst)).2 ∧
    ChanRel (n + tr.length) t' (LruSpec.run max s (tr.map Prod.fst)).1 := by
  induction h with
  | nil t => intro n s hr _; exact ⟨rfl, hr⟩
  | @cons t t1 t2 op out chs tr hperm hstep _ ih =>
    intro n s hr hn
    simp only [List.length_cons] at hn
    have hr' : ChanRel n { t with channels := chs } s := by
      obtain ⟨l, hp, hs, hm⟩ := hr.order
      exact ⟨⟨l, hperm.trans hp, hs, hm⟩, hr.nodup, fun c hc => hr.clock c (hperm.mem_iff.1 hc), hr.clockN, hr.cids,
        hr.next, hr.openedN⟩
    obtain ⟨t3, h1, h2⟩ := chanStep_rel hmax (by omega) hr' op
    rw [h1] at hstep
    simp only [Option.some.injEq, Prod.mk.injEq] at hstep
    obtain ⟨rfl, rfl⟩ := hstep
    obtain ⟨i1, i2⟩ := ih h2 (by omega)
    refine ⟨?_, ?_⟩
    · simp only [List.map_cons, LruSpec.run]
      rw [i1]
    · simp only [List.map_cons, LruSpec.run, List.length_cons]
      rw [show n + (tr.length + 1) = n + 1 + tr.length by omega]
      exact i2

theorem chanRel_init : ChanRel 0 {} {} :=
  ⟨⟨[], List.Perm.refl _, List.Pairwise.nil, rfl⟩, List.nodup_nil, by simp, le_refl _, by simp, rfl, le_refl _⟩

/-- **C11 (refinement).** Whatever order the hash map iterates in, every history of calls (fewer than 2^64) on a
table of any positive capacity returns exactly what the ideal LRU list returns: lookups find exactly the live
channels with the model their own commits built, and a creation that needs room drops exactly the least recently
used channel. -/
theorem C11_refines_lru {max : Nat} (hmax : 1 ≤ max) {tr : List (ChanOp × ChanOut)} {t : ChannelTable}
    (h : ChanExec max {} tr t) (hlen : tr.length + 1 < 2 ^ 64) :
    tr.map Prod.snd = (LruSpec.run max {} (tr.map Prod.fst)).2 :=
  (chanExec_rel hmax h chanRel_init (by omega)).1

/-- Every call sequence has an execution (no call is stuck or undefined) when the capacity is positive. -/
theorem C11_never_stuck {max : Nat} (hmax : 1 ≤ max) (ops : List ChanOp) (hlen : ops.length + 1 < 2 ^ 64) :
    ∃ tr t, ChanExec max {} tr t ∧ tr.map Prod.fst = ops := by
  have : ∀ (ops : List ChanOp) (n : Nat) (t : ChannelTable) (s : LruSpec), ChanRel n t s →
      n + ops.length + 1 < 2 ^ 64 → ∃ tr t', ChanExec max t tr t' ∧ tr.map Prod.fst = ops := by
    intro ops
    induction ops with
    | nil => intro n t s _ _; exact ⟨[], t, .nil t, rfl⟩
    | cons op ops ih =>
      intro n t s hr hn
      simp only [List.length_cons] at hn
      obtain ⟨t1, h1, h2⟩ := chanStep_rel hmax (by omega) hr op
      obtain ⟨tr, t', h3, h4⟩ := ih (n + 1) t1 _ h2 (by omega)
      exact ⟨_, t', .cons (List.Perm.refl _) h1 h3, by simp [h4]⟩
  exact this ops 0 {} {} chanRel_init (by omega)

/-- **C11 (size).** The number of live channels never exceeds the capacity. -/
theorem C11_bounded {max : Nat} (hmax : 1 ≤ max) {tr : List (ChanOp × ChanOut)} {t : ChannelTable}
    (h : ChanExec max {} tr t) (hlen : tr.length + 1 < 2 ^ 64) : t.channels.length ≤ max := by
  obtain ⟨-, hr⟩ := chanExec_rel hmax h chanRel_init (by omega)
  obtain ⟨l, hp, hs, hm⟩ := hr.order
  rw [hp.length_eq, ← List.length_map (f := fun c : Channel => (c.cid, c.model)), hm]
  have htouch : ∀ (s : LruSpec) cid f, (s.touch cid f).live.length ≤ s.live.length := by
    intro s cid f
    unfold LruSpec.touch
    cases hf : s.live.find? (·.1 = cid) with
    | none => exact le_refl _
    | some p =>
      simp only [List.length_cons]
      have := List.mem_of_find?_eq_some hf
      have hc := List.find?_some hf
      have : (s.live.filter (·.1 ≠ cid)).length < s.live.length := by
        apply List.length_filter_lt_length_iff_exists.2
        exact ⟨p, this, by simpa using hc⟩
      omega
  have : ∀ (ops : List ChanOp) (s : LruSpec), s.live.length ≤ max →
      (LruSpec.run max s ops).1.live.length ≤ max := by
    intro ops
    induction ops with
    | nil => intro s h; exact h
    | cons op ops ih =>
      intro s h
      simp only [LruSpec.run]
      apply ih
      cases op with
      | openCh =>
        simp only [LruSpec.step, List.length_cons]
        split
        · rw [List.length_dropLast]; omega
        · omega
      | snapshot cid => exact le_trans (htouch _ _ _) h
      | commit cid sent => exact le_trans (htouch _ _ _) h
      | applyModel cid m => exact le_trans (htouch _ _ _) h
      | close cid => exact le_trans (List.length_filter_le _ _) h
  exact this _ _ (by simp)

/-- **C11 (unique ids).** The k-th creation returns `JPHk`; in particular all ids ever handed out are distinct. -/
theorem C11_unique_ids {max : Nat} (hmax : 1 ≤ max) {tr : List (ChanOp × ChanOut)} {t : ChannelTable}
    (h : ChanExec max {} tr t) (hlen : tr.length + 1 < 2 ^ 64) :
    (tr.filterMap fun p => match p with | (.openCh, .cid c) => some c | _ => none).Nodup := by
  have hgen : ∀ {t t' : ChannelTable} {tr : List (ChanOp × ChanOut)} (_ : ChanExec max t tr t') (n : Nat) (s : LruSpec),
      ChanRel n t s → n + tr.length + 1 < 2 ^ 64 →
      (tr.filterMap fun p => match p with | (.openCh, .cid c) => some c | _ => none) =
        (List.range' (s.opened + 1)
          (tr.filterMap fun p => match p with | (.openCh, .cid c) => some c | _ => none).length).map cidOf := by
    intro t t' tr h
    induction h with
    | nil t => intro n s _ _; rfl
    | @cons t t1 t2 op out chs tr hperm hstep _ ih =>
      intro n s hr hn
      simp only [List.length_cons] at hn
      have hr' : ChanRel n { t with channels := chs } s := by
        obtain ⟨l, hp, hs, hm⟩ := hr.order
        exact ⟨⟨l, hperm.trans hp, hs, hm⟩, hr.nodup, fun c hc => hr.clock c (hperm.mem_iff.1 hc), hr.clockN, hr.cids,
          hr.next, hr.openedN⟩
      obtain ⟨t3, h1, h2⟩ := chanStep_rel hmax (by omega) hr' op
      rw [h1] at hstep
      simp only [Option.some.injEq, Prod.mk.injEq] at hstep
      obtain ⟨rfl, rfl⟩ := hstep
      have ih' := ih _ _ h2 (by omega)
      have htouch : ∀ cid f, (s.touch cid f).opened = s.opened := by
        intro cid f; unfold LruSpec.touch; split <;> rfl
      cases op with
      | openCh =>
        simp only [LruSpec.step] at ih' ⊢
        rw [List.filterMap_cons_some (by rfl)]
        rw [List.length_cons, List.range'_succ, List.map_cons, ← ih']
        rfl
      | snapshot cid =>
        simp only [LruSpec.step, htouch] at ih' ⊢
        rw [List.filterMap_cons_none (by rfl)]
        exact ih'
      | commit cid sent =>
        simp only [LruSpec.step, htouch] at ih' ⊢
        rw [List.filterMap_cons_none (by rfl)]
        exact ih'
      | applyModel cid m =>
        simp only [LruSpec.step, htouch] at ih' ⊢
        rw [List.filterMap_cons_none (by rfl)]
        exact ih'
      | close cid =>
        simp only [LruSpec.step] at ih' ⊢
        rw [List.filterMap_cons_none (by rfl)]
        exact ih'
  rw [hgen h 0 {} chanRel_init (by omega)]
  exact (List.nodup_range' (step := 1)).map (fun a b => cidOf_inj)

/-- Capacity 2: open, open, touch the first, open again - the second one is evicted. -/
example : ((LruSpec.run 2 {} [.openCh, .openCh, .snapshot "JPH1".toList, .openCh]).1.live.map Prod.fst) =
    ["JPH3".toList, "JPH1".toList] := by decide +kernel

/-- With capacity 0 the first `open` is undefined behaviour (`erase(end())`). -/
theorem C11_zero_capacity_undefined : (openChannel 0 {}).isNone = true := by decide +kernel

/-- **C11 (transport).** A granted transport is always `http`, and it is granted exactly when some token of the
comma-separated list, with surrounding blanks removed, is `http`. -/
theorem C11_transport (s : List Char) :
    (∀ r, negotiateTransport s = some r → r = "http".toList) ∧
    ((negotiateTransport s).isSome = true ↔ ∃ tok ∈ splitCommas s, trimBlanks tok = "http".toList) := by
  unfold negotiateTransport
  refine ⟨?_, ?_⟩
  · intro r h
    obtain ⟨a, -, h⟩ := List.exists_of_findSome?_eq_some h
    split at h
    · exact (Option.some.inj h).symm
    · cases h
  · rw [List.findSome?_isSome_iff]
    constructor
    · rintro ⟨a, ha, h⟩
      split at h
      · rename_i h'; exact ⟨a, ha, h'⟩
      · cases h
    · rintro ⟨a, ha, h⟩; exact ⟨a, ha, by rw [if_pos h]; rfl⟩

example : negotiateTransport "http-tcp, http ".toList = some "http".toList ∧
    negotiateTransport "http-tcp".toList = none := by decide +kernel

end Verif.Jpip
