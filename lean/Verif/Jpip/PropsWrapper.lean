import Verif.Jpip.Wrapper
import Verif.Tactics
/-
C40: the precinct cache of the browser client.
-/
namespace Verif.Jpip

/-- `keys` lists the bins of `s`, in whatever order. -/
def Enum (keys : List (Nat × Nat)) (s : DataBinSet) : Prop := ∀ c i, (c, i) ∈ keys ↔ s.bins c i ≠ none

/-- What an honest server sends: every bin is a beginning of the true one, the whole of it if it is marked complete; no
extended precincts; identifiers of at most 56 bits. -/
def Honest (truth : Nat → Nat → List UInt8) (s : DataBinSet) : Prop :=
  ∀ c i e, s.bins c i = some e → KeyOk c i ∧ c ≠ 1 ∧ e.bytes <+: truth c i ∧ (e.isLast = true → e.bytes = truth c i)

/-- The call is one the surroundings can make: responses are honest, key lists are those of the sets. -/
def OpOk (truth : Nat → Nat → List UInt8) (w : Wrap) : WrapOp → Prop
  | .land tmp keys => Honest truth tmp ∧ Enum keys tmp
  | .setTrack _ keys => Enum keys w.set
  | _ => True

/-- The contexts that arise from any sequence of calls, beginning with the creation of the context. -/
inductive Reach (truth : Nat → Nat → List UInt8) : Wrap → Prop where
  | create {tmp : DataBinSet} {keys : List (Nat × Nat)} : Honest truth tmp → Enum keys tmp → Reach truth (Wrap.create tmp keys)
  | step {w w' : Wrap} {op : WrapOp} : Reach truth w → OpOk truth w op → w.step op = some w' → Reach truth w'

/-! ### The list and its index -/

/-- The index points to the nodes of the list, and the byte count is right. -/
structure Links (w : Wrap) : Prop where
  nids : (w.lru.map Node.nid).Nodup
  keys : (w.lru.map Node.key).Nodup
  fresh : ∀ n ∈ w.lru, n.nid < w.fresh
  idx : ∀ k nid, w.idx k = some nid ↔ ∃ n ∈ w.lru, n.key = k ∧ n.nid = nid
  bytes : w.bytes = (w.lru.map Node.size).sum

theorem Links.key_eq {w : Wrap} (h : Links w) {a b : Node} (ha : a ∈ w.lru) (hb : b ∈ w.lru) (e : a.key = b.key) : a = b :=
  List.inj_on_of_nodup_map h.keys ha hb e

theorem Links.nid_eq {w : Wrap} (h : Links w) {a b : Node} (ha : a ∈ w.lru) (hb : b ∈ w.lru) (e : a.nid = b.nid) : a = b :=
  List.inj_on_of_nodup_map h.nids ha hb e

theorem sum_filter_key {l : List Node} (hk : (l.map Node.key).Nodup) {n : Node} (hn : n ∈ l) :
    ((l.filter (fun m => m.key != n.key)).map Node.size).sum + n.size = (l.map Node.size).sum := by
  induction l with
  | nil => exact (List.not_mem_nil hn).elim
  | cons m l ih =>
    rw [List.map_cons, List.nodup_cons] at hk
    by_cases e : m.key = n.key
    · have hnl : ∀ a ∈ l, a.key ≠ n.key := fun a ha ea => hk.1 (by rw [e, ← ea]; exact List.mem_map_of_mem ha)
      have hm : n = m := by
        rcases List.mem_cons.1 hn with h | h
        · exact h
        · exact absurd rfl (hnl n h)
      subst hm
      rw [List.filter_cons_of_neg (by simp), List.filter_eq_self.2 (by intro a ha; simpa using hnl a ha), List.map_cons,
        List.sum_cons]
      omega
    · have hn' : n ∈ l := by
        rcases List.mem_cons.1 hn with h | h
        · exact absurd (by rw [h]) e
        · exact h
      have := ih hk.2 hn'
      rw [List.filter_cons_of_pos (by simpa using e), List.map_cons, List.sum_cons, List.map_cons, List.sum_cons]
      omega

theorem touch_spec {w : Wrap} (h : Links w) (i b : Nat) :
    ∃ w', w.touch i b = some w' ∧ Links w' ∧ w'.lru = w.lru.filter (fun n => n.key != i) ++ [⟨w.fresh, i, b⟩] ∧
      w'.set = w.set ∧ w'.cache = w.cache ∧ w'.str = w.str ∧ w'.track = w.track ∧ w'.budget = w.budget := by
  have build : ∀ w' : Wrap, w'.lru = w.lru.filter (fun n => n.key != i) ++ [⟨w.fresh, i, b⟩] → w'.fresh = w.fresh + 1 →
      w'.idx = (fun k => if k = i then some w.fresh else w.idx k) → w'.bytes = (w'.lru.map Node.size).sum → Links w' := by
    intro w' hl hf hi hb
    have hsub : (w.lru.filter (fun n => n.key != i)).Sublist w.lru := List.filter_sublist
    refine ⟨?_, ?_, ?_, ?_, hb⟩
    · rw [hl, List.map_append, List.nodup_append]
      refine ⟨h.nids.sublist (hsub.map _), by simp, ?_⟩
      intro a ha c hc
      obtain ⟨n, hn, rfl⟩ := List.mem_map.1 ha
      have := h.fresh n (hsub.subset hn)
      simp only [List.map_cons, List.map_nil, List.mem_singleton] at hc
      omega
    · rw [hl, List.map_append, List.nodup_append]
      refine ⟨h.keys.sublist (hsub.map _), by simp, ?_⟩
      intro a ha c hc
      obtain ⟨n, hn, rfl⟩ := List.mem_map.1 ha
      simp only [List.map_cons, List.map_nil, List.mem_singleton] at hc
      have := (List.mem_filter.1 hn).2
      rw [hc]
      simpa using this
    · intro n hn
      rw [hl] at hn
      rw [hf]
      rcases List.mem_append.1 hn with hn | hn
      · have := h.fresh n (hsub.subset hn)
        omega
      · rw [List.mem_singleton.1 hn]
        exact Nat.lt_succ_self _
    · intro k nid
      rw [hi, hl]
      simp only
      by_cases e : k = i
      · rw [if_pos e]
        constructor
        · intro hh
          exact ⟨⟨w.fresh, i, b⟩, by simp, e.symm, Option.some.inj hh⟩
        · rintro ⟨n, hn, h1, h2⟩
          rcases List.mem_append.1 hn with hn | hn
          · have := (List.mem_filter.1 hn).2
            rw [h1, e] at this
            simp at this
          · rw [List.mem_singleton.1 hn] at h2
            rw [← h2]
      · rw [if_neg e, h.idx]
        constructor
        · rintro ⟨n, hn, h1, h2⟩
          exact ⟨n, List.mem_append_left _ (List.mem_filter.2 ⟨hn, by rw [h1]; simpa using e⟩), h1, h2⟩
        · rintro ⟨n, hn, h1, h2⟩
          rcases List.mem_append.1 hn with hn | hn
          · exact ⟨n, hsub.subset hn, h1, h2⟩
          · rw [List.mem_singleton.1 hn] at h1
            exact absurd h1.symm e
  rw [Wrap.touch]
  cases hi : w.idx i with
  | none =>
    have hno : ∀ n ∈ w.lru, n.key ≠ i := by
      intro n hn e
      have := (h.idx i n.nid).2 ⟨n, hn, e, rfl⟩
      rw [hi] at this
      cases this
    have hfil : w.lru.filter (fun n => n.key != i) = w.lru := List.filter_eq_self.2 (by intro a ha; simpa using hno a ha)
    refine ⟨_, rfl, build _ ?_ rfl rfl ?_, ?_, rfl, rfl, rfl, rfl, rfl⟩
    · simp only; rw [hfil]
    · simp only [List.map_append, List.sum_append, List.map_cons, List.map_nil, List.sum_cons, List.sum_nil, Nat.add_zero]
      rw [h.bytes]
    · simp only; rw [hfil]
  | some nid =>
    obtain ⟨n, hn, h1, h2⟩ := (h.idx i nid).1 hi
    have hfind : w.lru.find? (fun n => n.nid == nid) = some n := by
      cases hf : w.lru.find? (fun n => n.nid == nid) with
      | none =>
        have := List.find?_eq_none.1 hf n hn
        simp [h2] at this
      | some m =>
        have hm := List.mem_of_find?_eq_some hf
        have hm2 := List.find?_some hf
        rw [h.nid_eq hm hn (by rw [h2]; simpa using hm2)]
    have hfil : w.lru.filter (fun n => n.nid != nid) = w.lru.filter (fun n => n.key != i) := by
      refine List.filter_congr ?_
      intro m hm
      have : m.nid = nid ↔ m.key = i := by
        constructor
        · intro e
          rw [h.nid_eq hm hn (by rw [e, h2]), h1]
        · intro e
          rw [h.key_eq hm hn (by rw [e, h1]), h2]
      rw [Bool.eq_iff_iff]
      simp [this]
    have hsum := sum_filter_key h.keys hn
    rw [h1] at hsum
    simp only
    rw [hfind]
    refine ⟨_, rfl, build _ ?_ rfl rfl ?_, ?_, rfl, rfl, rfl, rfl, rfl⟩
    · simp only; rw [hfil]
    · simp only [List.map_append, List.sum_append, List.map_cons, List.map_nil, List.sum_cons, List.sum_nil, Nat.add_zero]
      rw [hfil, h.bytes]
      omega
    · simp only; rw [hfil]

/-! ### The invariant -/

/-- A bin that is held whole. -/
def Held (truth : Nat → Nat → List UInt8) (w : Wrap) (c i : Nat) : Prop := w.set.bins c i = some ⟨truth c i, true⟩

/-- What holds also in the middle of a call. -/
structure Core (truth : Nat → Nat → List UInt8) (w : Wrap) : Prop where
  links : Links w
  honest : Honest truth w.set
  size : ∀ n ∈ w.lru, KeyOk 0 n.key ∧ n.size = (truth 0 n.key).length ∧ truth 0 n.key ≠ []
  held : ∀ c i, KeyOk c i → w.cache.has c i = true → Held truth w c i
  tracked : ∀ i, KeyOk 0 i → (w.cache.has 0 i = true ↔ ∃ n ∈ w.lru, n.key = i)
  no_ext : ∀ i, KeyOk 1 i → w.cache.has 1 i = false

/-- Every complete precinct that is held is advertised. -/
def Full (truth : Nat → Nat → List UInt8) (w : Wrap) : Prop :=
  ∀ i, KeyOk 0 i → Held truth w 0 i → truth 0 i ≠ [] → w.cache.has 0 i = true

/-- What holds between calls. -/
structure Inv (truth : Nat → Nat → List UInt8) (w : Wrap) : Prop extends Core truth w where
  off : w.track = false → w.lru = []
  full : w.track = true → Full truth w
  budget : w.bytes ≤ w.budget
  str : w.str = none ∨ w.str = some w.cache

theorem unmark_has (m : CacheModel) {c i c' i' : Nat} (h : KeyOk c i) (h' : KeyOk c' i') :
    (m.unmark c i).has c' i' = (m.has c' i' && decide (¬ (c = c' ∧ i = i'))) := by
  by_cases e : c = c' ∧ i = i'
  · obtain ⟨rfl, rfl⟩ := e
    simp [CacheModel.unmark, CacheModel.has]
  · have : ¬ cacheKey c' i' = cacheKey c i := by
      rw [cacheKey_inj h' h]; exact fun hh => e ⟨hh.1.symm, hh.2.symm⟩
    simp only [CacheModel.unmark, CacheModel.has, if_neg this]
    rw [decide_eq_true e, Bool.and_true]

theorem mark_has (m : CacheModel) {c i c' i' : Nat} (h : KeyOk c i) (h' : KeyOk c' i') :
    (m.mark c i).has c' i' = true ↔ m.has c' i' = true ∨ (c = c' ∧ i = i') := by
  rw [(mark_obs m h h').1]
  simp

theorem Honest.held {truth : Nat → Nat → List UInt8} {s : DataBinSet} (h : Honest truth s) {c i : Nat} (hc : s.isComplete c i = true) :
    s.bins c i = some ⟨truth c i, true⟩ := by
  rw [DataBinSet.isComplete] at hc
  cases hb : s.bins c i with
  | none => rw [hb] at hc; cases hc
  | some e =>
    rw [hb] at hc
    obtain ⟨-, -, -, h4⟩ := h c i e hb
    obtain ⟨b, l⟩ := e
    simp only at hc h4
    rw [hc] at h4
    rw [hc, h4 rfl]

/-- Merging honest sets. -/
theorem Honest.merge {truth : Nat → Nat → List UInt8} {s t : DataBinSet} (hs : Honest truth s) (ht : Honest truth t) :
    Honest truth (s.mergeFrom t) := by
  intro c i e he
  rw [DataBinSet.mergeFrom] at he
  simp only at he
  cases ho : t.bins c i with
  | none => rw [ho] at he; exact hs c i e he
  | some o =>
    rw [ho] at he
    simp only at he
    have hto := ht c i o ho
    cases hb : s.bins c i with
    | none =>
      rw [hb] at he
      simp only [Option.some.injEq] at he
      rw [← he]; exact hto
    | some e0 =>
      rw [hb] at he
      simp only at he
      have hse := hs c i e0 hb
      by_cases c1 : o.bytes.length > e0.bytes.length
      · rw [if_pos c1, Option.some.injEq] at he
        rw [← he]; exact hto
      · rw [if_neg c1] at he
        by_cases c2 : o.isLast = true ∧ ¬ e0.isLast = true
        · rw [if_pos c2, Option.some.injEq] at he
          rw [← he]
          refine ⟨hse.1, hse.2.1, hse.2.2.1, fun _ => ?_⟩
          have h1 := hto.2.2.2 c2.1
          have h2 := hse.2.2.1.length_le
          rw [h1] at c1
          exact hse.2.2.1.eq_of_length (by omega)
        · rw [if_neg c2, Option.some.injEq] at he
          rw [← he]; exact hse

/-- A bin held whole stays so. -/
theorem merge_held {truth : Nat → Nat → List UInt8} {s t : DataBinSet} (ht : Honest truth t) {c i : Nat}
    (h : s.bins c i = some ⟨truth c i, true⟩ ∨ t.bins c i = some ⟨truth c i, true⟩) (hs : Honest truth s) :
    (s.mergeFrom t).bins c i = some ⟨truth c i, true⟩ := by
  refine (hs.merge ht).held ?_
  rw [DataBinSet.isComplete, DataBinSet.mergeFrom]
  simp only
  rcases h with h | h
  · rw [h]
    cases ho : t.bins c i with
    | none => rfl
    | some o =>
      simp only
      have := (ht c i o ho).2.2.1.length_le
      rw [if_neg (by omega)]
      simp
  · rw [h]
    cases hb : s.bins c i with
    | none => rfl
    | some e =>
      simp only
      split_ifs with c1 c2
      · rfl
      · rfl
      · simpa using c2

/-- A complete bin of the merged set was complete in one of the two. -/
theorem merge_complete {s t : DataBinSet} {c i : Nat} (h : (s.mergeFrom t).isComplete c i = true) :
    s.isComplete c i = true ∨ t.isComplete c i = true := by
  rw [DataBinSet.isComplete, DataBinSet.mergeFrom] at h
  simp only at h
  rw [DataBinSet.isComplete, DataBinSet.isComplete]
  cases ho : t.bins c i with
  | none => rw [ho] at h; left; exact h
  | some o =>
    rw [ho] at h
    simp only at h
    cases hb : s.bins c i with
    | none => rw [hb] at h; right; exact h
    | some e =>
      rw [hb] at h
      simp only at h
      by_cases c1 : o.bytes.length > e.bytes.length
      · rw [if_pos c1] at h; right; exact h
      · rw [if_neg c1] at h
        by_cases c2 : o.isLast = true ∧ ¬ e.isLast = true
        · right; exact c2.1
        · rw [if_neg c2] at h; left; exact h

/-! ### Marking and touching -/

theorem markTouch_core {truth : Nat → Nat → List UInt8} {w : Wrap} (hc : Core truth w) {i : Nat} (hi : KeyOk 0 i)
    (hh : Held truth w 0 i) (hne : truth 0 i ≠ []) {m : CacheModel}
    (hm : ∀ c j, KeyOk c j → (m.has c j = true ↔ w.cache.has c j = true ∨ (c = 0 ∧ j = i))) :
    ∃ w', ({ w with cache := m }).touch i (truth 0 i).length = some w' ∧ Core truth w' ∧ w'.cache = m ∧ w'.set = w.set ∧
      w'.track = w.track ∧ w'.budget = w.budget ∧ w'.str = w.str := by
  have hl : Links { w with cache := m } := ⟨hc.links.nids, hc.links.keys, hc.links.fresh, hc.links.idx, hc.links.bytes⟩
  obtain ⟨w', h1, h2, h3, h4, h5, h6, h7, h8⟩ := touch_spec hl i (truth 0 i).length
  refine ⟨w', h1, ⟨h2, by rw [h4]; exact hc.honest, ?_, ?_, ?_, ?_⟩, h5, h4, h7, h8, h6⟩
  · intro n hn
    rw [h3] at hn
    rcases List.mem_append.1 hn with hn | hn
    · exact hc.size n (List.mem_filter.1 hn).1
    · rw [List.mem_singleton.1 hn]
      exact ⟨hi, rfl, hne⟩
  · intro c j hj hhas
    rw [h5] at hhas
    show w'.set.bins c j = _
    rw [h4]
    rcases (hm c j hj).1 hhas with hhas | ⟨rfl, rfl⟩
    · exact hc.held c j hj hhas
    · exact hh
  · intro j hj
    rw [h5, h3, hm 0 j hj, hc.tracked j hj]
    constructor
    · rintro (⟨n, hn, e⟩ | ⟨-, e⟩)
      · by_cases ej : j = i
        · exact ⟨⟨w.fresh, i, _⟩, List.mem_append_right _ (List.mem_singleton.2 rfl), ej.symm⟩
        · exact ⟨n, List.mem_append_left _ (List.mem_filter.2 ⟨hn, by rw [e]; simpa using ej⟩), e⟩
      · exact ⟨⟨w.fresh, i, _⟩, List.mem_append_right _ (List.mem_singleton.2 rfl), e.symm⟩
    · rintro ⟨n, hn, e⟩
      rcases List.mem_append.1 hn with hn | hn
      · exact Or.inl ⟨n, (List.mem_filter.1 hn).1, e⟩
      · rw [List.mem_singleton.1 hn] at e
        exact Or.inr ⟨rfl, e.symm⟩
  · intro j hj
    rw [h5, Bool.eq_false_iff]
    intro hh'
    rcases (hm 1 j hj).1 hh' with hh' | hh'
    · rw [hc.no_ext j hj] at hh'; cases hh'
    · omega

theorem held_get {truth : Nat → Nat → List UInt8} {w : Wrap} {i : Nat} (h : Held truth w 0 i) : w.set.get 0 i = truth 0 i := by
  rw [DataBinSet.get, h]

theorem ingestAll_core {truth : Nat → Nat → List UInt8} {tmp : DataBinSet} (ht : Honest truth tmp) (keys : List (Nat × Nat)) :
    ∀ {w : Wrap} {b : Bool}, Core truth w → (∀ c i, tmp.isComplete c i = true → Held truth w c i) →
      ∃ w' b', ingestAll tmp keys (w, b) = some (w', b') ∧ Core truth w' ∧ w'.set = w.set ∧ w'.track = w.track ∧
        w'.budget = w.budget ∧ w'.str = w.str ∧ (b' = false → w'.cache = w.cache ∧ b = false) ∧
        (b = false → b' = false → w'.bytes = w.bytes) ∧
        (∀ i, KeyOk 0 i → w.cache.has 0 i = true → w'.cache.has 0 i = true) ∧
        (∀ i, (0, i) ∈ keys → tmp.isComplete 0 i = true → truth 0 i ≠ [] → w'.cache.has 0 i = true) := by
  induction keys with
  | nil =>
    intro w b hc _
    exact ⟨w, b, rfl, hc, rfl, rfl, rfl, rfl, fun h => ⟨rfl, h⟩, fun _ _ => rfl, fun _ _ h => h, fun i hi => (List.not_mem_nil hi).elim⟩
  | cons kv keys ih =>
    intro w b hc hh
    rw [ingestAll, ingestOne]
    -- a round that does nothing
    have skip : ∀ (_ : ∀ i, kv = (0, i) → tmp.isComplete 0 i = true → truth 0 i ≠ [] → False),
        ∃ w' b', ((some (w, b)).bind (ingestAll tmp keys)) = some (w', b') ∧ Core truth w' ∧ w'.set = w.set ∧ w'.track = w.track ∧
        w'.budget = w.budget ∧ w'.str = w.str ∧ (b' = false → w'.cache = w.cache ∧ b = false) ∧
        (b = false → b' = false → w'.bytes = w.bytes) ∧
        (∀ i, KeyOk 0 i → w.cache.has 0 i = true → w'.cache.has 0 i = true) ∧
        (∀ i, (0, i) ∈ kv :: keys → tmp.isComplete 0 i = true → truth 0 i ≠ [] → w'.cache.has 0 i = true) := by
      intro hno
      obtain ⟨w', b', h1, h2, h3, h4, h5, h6, h7, h8, h9, h10⟩ := ih hc hh (b := b)
      refine ⟨w', b', h1, h2, h3, h4, h5, h6, h7, h8, h9, ?_⟩
      intro i hi hcm hne
      rcases List.mem_cons.1 hi with hi | hi
      · exact (hno i hi.symm hcm hne).elim
      · exact h10 i hi hcm hne
    by_cases c1 : kv.1 ≠ 0 ∧ kv.1 ≠ 1
    · rw [if_pos c1]
      exact skip (by rintro i rfl; exact absurd rfl c1.1)
    rw [if_neg c1]
    by_cases c2 : tmp.isComplete kv.1 kv.2 = false
    · rw [if_pos c2]
      refine skip ?_
      rintro i rfl hcm
      rw [c2] at hcm; cases hcm
    rw [if_neg c2]
    rw [Bool.not_eq_false] at c2
    have htm := ht.held c2
    have hk := ht _ _ _ htm
    have h0 : kv.1 = 0 := by
      have := hk.2.1
      omega
    rw [h0] at c2 htm hk
    have hheld := hh 0 kv.2 c2
    rw [held_get hheld]
    by_cases c3 : truth 0 kv.2 = []
    · rw [if_pos c3]
      refine skip ?_
      rintro i rfl _ hne
      exact hne c3
    rw [if_neg c3]
    -- the round that touches
    have go : ∀ (m : CacheModel) (b1 : Bool),
        (∀ c j, KeyOk c j → (m.has c j = true ↔ w.cache.has c j = true ∨ (c = 0 ∧ j = kv.2))) →
        (b1 = false → m = w.cache ∧ b = false ∧ w.cache.has 0 kv.2 = true) →
        ∃ w' b', ((({ w with cache := m }).touch kv.2 (truth 0 kv.2).length).map fun w => (w, b1)).bind (ingestAll tmp keys) =
          some (w', b') ∧ Core truth w' ∧ w'.set = w.set ∧ w'.track = w.track ∧
        w'.budget = w.budget ∧ w'.str = w.str ∧ (b' = false → w'.cache = w.cache ∧ b = false) ∧
        (b = false → b' = false → w'.bytes = w.bytes) ∧
        (∀ i, KeyOk 0 i → w.cache.has 0 i = true → w'.cache.has 0 i = true) ∧
        (∀ i, (0, i) ∈ kv :: keys → tmp.isComplete 0 i = true → truth 0 i ≠ [] → w'.cache.has 0 i = true) := by
      intro m b1 hm hb1
      obtain ⟨w1, e1, e2, e3, e4, e5, e6, e7⟩ := markTouch_core hc hk.1 hheld c3 hm
      obtain ⟨w', b', h1, h2, h3, h4, h5, h6, h7, h8, h9, h10⟩ :=
        ih e2 (b := b1) (fun c i hci => by show w1.set.bins c i = _; rw [e4]; exact hh c i hci)
      refine ⟨w', b', ?_, h2, h3.trans e4, h4.trans e5, h5.trans e6, h6.trans e7, ?_, ?_, ?_, ?_⟩
      · rw [e1]; exact h1
      · intro hb'
        obtain ⟨a1, a2⟩ := h7 hb'
        obtain ⟨a3, a4, -⟩ := hb1 a2
        exact ⟨by rw [a1, e3, a3], a4⟩
      · intro _ hb'
        obtain ⟨a1, a2⟩ := h7 hb'
        obtain ⟨a3, a4, a5⟩ := hb1 a2
        rw [h8 a2 hb']
        -- the entry was there, with the same size
        obtain ⟨n, hn, en⟩ := (hc.tracked kv.2 hk.1).1 a5
        have hs := sum_filter_key hc.links.keys hn
        rw [en] at hs
        have hl : Links { w with cache := m } := ⟨hc.links.nids, hc.links.keys, hc.links.fresh, hc.links.idx, hc.links.bytes⟩
        obtain ⟨w2, f1, f2, f3, -⟩ := touch_spec hl kv.2 (truth 0 kv.2).length
        rw [e1] at f1
        rw [Option.some.inj f1, f2.bytes, f3, hc.links.bytes, ← hs, (hc.size n hn).2.1, en]
        simp
      · intro i hi hw
        refine h9 i hi ?_
        rw [e3]
        exact (hm 0 i hi).2 (Or.inl hw)
      · intro i hi hcm hne
        rcases List.mem_cons.1 hi with hi | hi
        · have hi' : i = kv.2 := by rw [← hi]
          subst hi'
          refine h9 _ hk.1 ?_
          rw [e3]
          exact (hm 0 _ hk.1).2 (Or.inr ⟨rfl, rfl⟩)
        · exact h10 i hi hcm hne
    by_cases c4 : w.cache.has 0 kv.2 = true
    · rw [if_pos c4]
      refine go w.cache b ?_ ?_
      · intro c j hj
        constructor
        · exact Or.inl
        · rintro (h | ⟨rfl, rfl⟩)
          · exact h
          · exact c4
      · intro hb
        exact ⟨rfl, hb, c4⟩
    · rw [if_neg c4]
      refine go (w.cache.mark 0 kv.2) true ?_ (fun h => by cases h)
      intro c j hj
      rw [mark_has _ hk.1 hj]
      constructor
      · rintro (h | ⟨rfl, rfl⟩)
        · exact Or.inl h
        · exact Or.inr ⟨rfl, rfl⟩
      · rintro (h | ⟨rfl, rfl⟩)
        · exact Or.inl h
        · exact Or.inr ⟨rfl, rfl⟩

/-! ### Eviction -/

theorem removeFirst_core {truth : Nat → Nat → List UInt8} {w : Wrap} (hc : Core truth w) {n : Node} {rest : List Node}
    (hl : w.lru = n :: rest) : Core truth (w.removeFirst n rest) := by
  have hn : n ∈ w.lru := by rw [hl]; exact List.mem_cons_self ..
  have hk := (hc.size n hn).1
  have hsub : ∀ m ∈ rest, m ∈ w.lru := fun m hm => by rw [hl]; exact List.mem_cons_of_mem _ hm
  have h1 := hc.links.nids
  have h2 := hc.links.keys
  have h5 := hc.links.bytes
  rw [hl, List.map_cons, List.nodup_cons] at h1 h2
  rw [hl, List.map_cons, List.sum_cons] at h5
  have hne : ∀ m ∈ rest, m.key ≠ n.key := fun m hm e => h2.1 (by rw [← e]; exact List.mem_map_of_mem hm)
  refine ⟨⟨h1.2, h2.2, fun m hm => hc.links.fresh m (hsub m hm), ?_, ?_⟩, ?_, fun m hm => hc.size m (hsub m hm), ?_, ?_, ?_⟩
  · intro k nid
    show (if k = n.key then none else w.idx k) = some nid ↔ ∃ m ∈ rest, m.key = k ∧ m.nid = nid
    by_cases e : k = n.key
    · rw [if_pos e]
      constructor
      · intro h; cases h
      · rintro ⟨m, hm, e1, -⟩
        exact absurd (by rw [e1, e]) (hne m hm)
    · rw [if_neg e, hc.links.idx, hl]
      constructor
      · rintro ⟨m, hm, e1, e2⟩
        rcases List.mem_cons.1 hm with rfl | hm
        · exact absurd e1.symm e
        · exact ⟨m, hm, e1, e2⟩
      · rintro ⟨m, hm, e1, e2⟩
        exact ⟨m, List.mem_cons_of_mem _ hm, e1, e2⟩
  · show w.bytes - n.size = (rest.map Node.size).sum
    omega
  · intro c i e he
    refine hc.honest c i e ?_
    replace he : (if c = 0 ∧ i = n.key then none else w.set.bins c i) = some e := he
    by_cases h : c = 0 ∧ i = n.key
    · rw [if_pos h] at he; cases he
    · rwa [if_neg h] at he
  · intro c i hi hh
    replace hh : (w.cache.unmark 0 n.key).has c i = true := hh
    rw [unmark_has _ hk hi, Bool.and_eq_true, decide_eq_true_eq] at hh
    show (if c = 0 ∧ i = n.key then none else w.set.bins c i) = _
    rw [if_neg (by rintro ⟨rfl, rfl⟩; exact hh.2 ⟨rfl, rfl⟩)]
    exact hc.held c i hi hh.1
  · intro i hi
    show (w.cache.unmark 0 n.key).has 0 i = true ↔ ∃ m ∈ rest, m.key = i
    rw [unmark_has _ hk hi, Bool.and_eq_true, decide_eq_true_eq, hc.tracked i hi, hl]
    constructor
    · rintro ⟨⟨m, hm, e⟩, h⟩
      rcases List.mem_cons.1 hm with rfl | hm
      · exact absurd ⟨rfl, e⟩ h
      · exact ⟨m, hm, e⟩
    · rintro ⟨m, hm, e⟩
      refine ⟨⟨m, List.mem_cons_of_mem _ hm, e⟩, ?_⟩
      rintro ⟨-, h⟩
      exact hne m hm (by rw [e, h])
  · intro i hi
    show (w.cache.unmark 0 n.key).has 1 i = false
    rw [unmark_has _ hk hi, hc.no_ext i hi, Bool.false_and]

theorem removeFirst_full {truth : Nat → Nat → List UInt8} {w : Wrap} (hc : Core truth w) (hf : Full truth w) {n : Node}
    {rest : List Node} (hl : w.lru = n :: rest) : Full truth (w.removeFirst n rest) := by
  have hn : n ∈ w.lru := by rw [hl]; exact List.mem_cons_self ..
  have hk := (hc.size n hn).1
  intro i hi hh hne
  replace hh : (if 0 = 0 ∧ i = n.key then none else w.set.bins 0 i) = some ⟨truth 0 i, true⟩ := hh
  by_cases e : i = n.key
  · rw [if_pos ⟨rfl, e⟩] at hh; cases hh
  · rw [if_neg (fun h => e h.2)] at hh
    show (w.cache.unmark 0 n.key).has 0 i = true
    rw [unmark_has _ hk hi, Bool.and_eq_true, decide_eq_true_eq]
    exact ⟨hf i hi hh hne, fun h => e h.2.symm⟩

/-- Everything about eviction; `l` is the list before. -/
theorem evict_spec {truth : Nat → Nat → List UInt8} (l : List Node) : ∀ {w : Wrap}, w.lru = l → Core truth w →
    Core truth w.evict ∧ (Full truth w → Full truth w.evict) ∧ w.evict.bytes ≤ w.budget ∧ w.evict.budget = w.budget ∧
      w.evict.track = w.track ∧ w.evict.str = w.str ∧ (w.evict.bytes = w.bytes → w.evict.cache = w.cache) ∧
      w.evict.bytes ≤ w.bytes ∧
      ∃ k, w.evict.lru = l.drop k ∧ ∀ j < k, w.budget < ((l.drop j).map Node.size).sum := by
  induction l with
  | nil =>
    intro w hl hc
    have he : w.evict = w := by
      rw [Wrap.evict.eq_def]
      split
      · rfl
      · rename_i h; rw [hl] at h; cases h
    have hb := hc.links.bytes
    rw [hl] at hb
    rw [he]
    refine ⟨hc, id, ?_, rfl, rfl, rfl, fun _ => rfl, Nat.le_refl _, 0, hl, fun j hj => absurd hj (Nat.not_lt_zero j)⟩
    rw [hb]
    exact Nat.zero_le _
  | cons n rest ih =>
    intro w hl hc
    have hn : n ∈ w.lru := by rw [hl]; exact List.mem_cons_self ..
    have hpos : 0 < n.size := by
      rw [(hc.size n hn).2.1]
      exact List.length_pos_of_ne_nil (hc.size n hn).2.2
    have hb := hc.links.bytes
    rw [hl, List.map_cons, List.sum_cons] at hb
    by_cases hlt : w.budget < w.bytes
    · have he : w.evict = (w.removeFirst n rest).evict := by
        rw [Wrap.evict.eq_def]
        split
        · rename_i h; rw [hl] at h; cases h
        · rename_i n' rest' h
          rw [hl] at h
          obtain ⟨rfl, rfl⟩ := List.cons.inj h
          rw [if_pos hlt]
      obtain ⟨h1, h2, h3, h4, h5, h6, -, h8, k, h9, h10⟩ := ih (w := w.removeFirst n rest) rfl (removeFirst_core hc hl)
      have hbr : (w.removeFirst n rest).bytes = w.bytes - n.size := rfl
      rw [he]
      refine ⟨h1, fun hf => h2 (removeFirst_full hc hf hl), h3, h4, h5, h6, fun h => ?_, by omega, k + 1, h9, ?_⟩
      · omega
      · intro j hj
        cases j with
        | zero =>
          show w.budget < ((n :: rest).map Node.size).sum
          rw [List.map_cons, List.sum_cons, ← hb]
          exact hlt
        | succ j => exact h10 j (by omega)
    · have he : w.evict = w := by
        rw [Wrap.evict.eq_def]
        split
        · rfl
        · rw [if_neg hlt]
      rw [he]
      exact ⟨hc, id, by omega, rfl, rfl, rfl, fun _ => rfl, Nat.le_refl _, 0, hl, fun j hj => absurd hj (Nat.not_lt_zero j)⟩

/-! ### The calls -/

theorem markOne_fold {truth : Nat → Nat → List UInt8} {tmp : DataBinSet} (ht : Honest truth tmp) (keys : List (Nat × Nat)) :
    ∀ {w : Wrap} {b : Bool}, Core truth w → (∀ c i, tmp.isComplete c i = true → Held truth w c i) →
      Core truth (keys.foldl (markOne tmp) (w, b)).1 ∧
      (keys.foldl (markOne tmp) (w, b)).1 = { w with cache := (keys.foldl (markOne tmp) (w, b)).1.cache } ∧
      ((keys.foldl (markOne tmp) (w, b)).2 = false → (keys.foldl (markOne tmp) (w, b)).1.cache = w.cache ∧ b = false) ∧
      (∀ i, KeyOk 0 i → (keys.foldl (markOne tmp) (w, b)).1.cache.has 0 i = w.cache.has 0 i) := by
  induction keys with
  | nil => intro w b hc _; exact ⟨hc, rfl, fun h => ⟨rfl, h⟩, fun _ _ => rfl⟩
  | cons kv keys ih =>
    intro w b hc hh
    rw [List.foldl_cons]
    have hsame : ∀ s, markOne tmp (w, b) kv = s → s = (w, b) ∨
        (s = ({ w with cache := w.cache.mark kv.1 kv.2 }, true) ∧ kv.1 ≠ 0 ∧ kv.1 ≠ 1 ∧ tmp.isComplete kv.1 kv.2 = true) := by
      intro s hs
      rw [markOne] at hs
      by_cases c1 : kv.1 = 0 ∨ kv.1 = 1
      · rw [if_pos c1] at hs; exact Or.inl hs.symm
      rw [if_neg c1] at hs
      by_cases c2 : tmp.isComplete kv.1 kv.2 = false
      · rw [if_pos c2] at hs; exact Or.inl hs.symm
      rw [if_neg c2] at hs
      simp only at hs
      by_cases c3 : w.cache.has kv.1 kv.2 = true
      · rw [if_pos c3] at hs; exact Or.inl hs.symm
      rw [if_neg c3] at hs
      exact Or.inr ⟨hs.symm, fun h => c1 (Or.inl h), fun h => c1 (Or.inr h), by simpa using c2⟩
    rcases hsame _ rfl with h | ⟨h, h0, h1, hcm⟩
    · rw [h]; exact ih hc hh
    · rw [h]
      have hk := (ht _ _ _ (ht.held hcm)).1
      have hcore : Core truth { w with cache := w.cache.mark kv.1 kv.2 } := by
        refine ⟨⟨hc.links.nids, hc.links.keys, hc.links.fresh, hc.links.idx, hc.links.bytes⟩, hc.honest, hc.size, ?_, ?_, ?_⟩
        · intro c i hi hhas
          rcases (mark_has _ hk hi).1 hhas with hhas | ⟨rfl, rfl⟩
          · exact hc.held c i hi hhas
          · exact hh _ _ hcm
        · intro i hi
          show (w.cache.mark kv.1 kv.2).has 0 i = true ↔ _
          rw [mark_has _ hk hi, ← hc.tracked i hi]
          constructor
          · rintro (h | ⟨h, -⟩)
            · exact h
            · exact absurd h h0
          · exact Or.inl
        · intro i hi
          show (w.cache.mark kv.1 kv.2).has 1 i = false
          rw [Bool.eq_false_iff]
          intro h'
          rcases (mark_has _ hk hi).1 h' with h' | h'
          · rw [hc.no_ext i hi] at h'; cases h'
          · exact h1 h'.1
      obtain ⟨a1, a2, a3, a4⟩ := ih (b := true) hcore hh
      refine ⟨a1, a2, fun hf => ?_, fun i hi => ?_⟩
      · exact absurd (a3 hf).2 (by simp)
      · rw [a4 i hi]
        show (w.cache.mark kv.1 kv.2).has 0 i = _
        rw [Bool.eq_iff_iff, mark_has _ hk hi]
        constructor
        · rintro (h | ⟨h, -⟩)
          · exact h
          · exact absurd h h0
        · exact Or.inl

theorem land_inv {truth : Nat → Nat → List UInt8} {w : Wrap} (hi : Inv truth w) {tmp : DataBinSet} {keys : List (Nat × Nat)}
    (ht : Honest truth tmp) (he : Enum keys tmp) : ∃ w', w.land tmp keys = some w' ∧ Inv truth w' := by
  have hc0 : Core truth { w with set := w.set.mergeFrom tmp } :=
    ⟨⟨hi.links.nids, hi.links.keys, hi.links.fresh, hi.links.idx, hi.links.bytes⟩, hi.honest.merge ht, hi.size,
      fun c i hk hh => merge_held ht (Or.inl (hi.held c i hk hh)) hi.honest, hi.tracked, hi.no_ext⟩
  have hh0 : ∀ c i, tmp.isComplete c i = true → Held truth { w with set := w.set.mergeFrom tmp } c i :=
    fun c i hcm => merge_held ht (Or.inr (ht.held hcm)) hi.honest
  obtain ⟨a1, a2, a3, a4⟩ := markOne_fold ht keys (b := false) hc0 hh0
  generalize hs : keys.foldl (markOne tmp) ({ w with set := w.set.mergeFrom tmp }, false) = s at a1 a2 a3 a4
  obtain ⟨w1, b1⟩ := s
  simp only at a1 a2 a3 a4
  have w1set : w1.set = w.set.mergeFrom tmp := by rw [a2]
  have w1track : w1.track = w.track := by rw [a2]
  have w1lru : w1.lru = w.lru := by rw [a2]
  have w1bytes : w1.bytes = w.bytes := by rw [a2]
  have w1budget : w1.budget = w.budget := by rw [a2]
  have w1str : w1.str = w.str := by rw [a2]
  rw [Wrap.land]
  simp only
  rw [hs]
  simp only
  rw [Wrap.ingest]
  cases htr : w.track with
  | false =>
    rw [if_pos (by rw [w1track, htr])]
    refine ⟨_, rfl, ?_⟩
    have base : ∀ st, (st = none ∨ st = some w1.cache) → Inv truth { w1 with str := st } := by
      intro st hst
      refine ⟨⟨⟨a1.links.nids, a1.links.keys, a1.links.fresh, a1.links.idx, a1.links.bytes⟩, a1.honest, a1.size, a1.held, a1.tracked,
        a1.no_ext⟩, fun _ => by show w1.lru = []; rw [w1lru]; exact hi.off htr, ?_, ?_, hst⟩
      · intro h
        replace h : w1.track = true := h
        rw [w1track, htr] at h; cases h
      · show w1.bytes ≤ w1.budget
        rw [w1bytes, w1budget]; exact hi.budget
    cases hb : b1 with
    | true => exact base none (Or.inl rfl)
    | false =>
      have := base w1.str (by
        rw [w1str, (a3 hb).1]
        exact hi.str)
      exact this
  | true =>
    rw [if_neg (by rw [w1track, htr]; decide)]
    obtain ⟨w2, b2, e1, e2, e3, e4, e5, e6, e7, e8, e9, e10⟩ := ingestAll_core ht keys (b := false) a1
      (fun c i hcm => by show w1.set.bins c i = _; rw [w1set]; exact hh0 c i hcm)
    rw [e1]
    have hfull : Full truth w2 := by
      intro i hk hh hne
      replace hh : w2.set.bins 0 i = _ := hh
      rw [e3, w1set] at hh
      have hcm : (w.set.mergeFrom tmp).isComplete 0 i = true := by rw [DataBinSet.isComplete, hh]
      rcases merge_complete hcm with h | h
      · refine e9 i hk ?_
        rw [a4 i hk]
        exact hi.full htr i hk (hi.honest.held h) hne
      · refine e10 i ((he 0 i).2 ?_) h hne
        rw [ht.held h]; simp
    cases hb2 : b2 with
    | true =>
      obtain ⟨f1, f2, f3, f4, f5, f6, -, -, -⟩ := evict_spec (truth := truth) w2.lru rfl e2
      refine ⟨_, rfl, ?_⟩
      simp only [if_true, Bool.or_true]
      refine ⟨⟨⟨f1.links.nids, f1.links.keys, f1.links.fresh, f1.links.idx, f1.links.bytes⟩, f1.honest, f1.size, f1.held, f1.tracked,
        f1.no_ext⟩, ?_, fun _ => f2 hfull, ?_, Or.inl rfl⟩
      · intro h
        replace h : w2.evict.track = false := h
        rw [f5, e4, w1track, htr] at h; cases h
      · show w2.evict.bytes ≤ w2.evict.budget
        rw [f4]; exact f3
    | false =>
      refine ⟨_, rfl, ?_⟩
      simp only [Bool.or_false, Bool.false_eq_true, if_false]
      have base : ∀ st, (st = none ∨ st = some w2.cache) → Inv truth { w2 with str := st } := by
        intro st hst
        refine ⟨⟨⟨e2.links.nids, e2.links.keys, e2.links.fresh, e2.links.idx, e2.links.bytes⟩, e2.honest, e2.size, e2.held, e2.tracked,
          e2.no_ext⟩, ?_, fun _ => hfull, ?_, hst⟩
        · intro h
          replace h : w2.track = false := h
          rw [e4, w1track, htr] at h; cases h
        · show w2.bytes ≤ w2.budget
          rw [e8 rfl hb2, e5, w1bytes, w1budget]; exact hi.budget
      cases hb : b1 with
      | true => exact base none (Or.inl rfl)
      | false =>
        have := base w2.str (by
          rw [e6, w1str, (e7 hb2).1, (a3 hb).1]
          exact hi.str)
        exact this

theorem backfillAll_core {truth : Nat → Nat → List UInt8} (keys : List (Nat × Nat)) :
    ∀ {w : Wrap}, Core truth w →
      ∃ w', backfillAll keys w = some w' ∧ Core truth w' ∧ w'.set = w.set ∧ w'.track = w.track ∧ w'.budget = w.budget ∧
        (∀ i, KeyOk 0 i → w.cache.has 0 i = true → w'.cache.has 0 i = true) ∧
        (∀ i, (0, i) ∈ keys → Held truth w 0 i → truth 0 i ≠ [] → w'.cache.has 0 i = true) := by
  induction keys with
  | nil => intro w hc; exact ⟨w, rfl, hc, rfl, rfl, rfl, fun _ _ h => h, fun i hi => (List.not_mem_nil hi).elim⟩
  | cons kv keys ih =>
    intro w hc
    rw [backfillAll, backfillOne]
    have skip : ∀ (_ : ∀ i, kv = (0, i) → Held truth w 0 i → truth 0 i ≠ [] → False),
        ∃ w', ((some w).bind (backfillAll keys)) = some w' ∧ Core truth w' ∧ w'.set = w.set ∧ w'.track = w.track ∧
        w'.budget = w.budget ∧
        (∀ i, KeyOk 0 i → w.cache.has 0 i = true → w'.cache.has 0 i = true) ∧
        (∀ i, (0, i) ∈ kv :: keys → Held truth w 0 i → truth 0 i ≠ [] → w'.cache.has 0 i = true) := by
      intro hno
      obtain ⟨w', h1, h2, h3, h4, h5, h6, h7⟩ := ih hc
      refine ⟨w', h1, h2, h3, h4, h5, h6, ?_⟩
      intro i hi hh hne
      rcases List.mem_cons.1 hi with hi | hi
      · exact (hno i hi.symm hh hne).elim
      · exact h7 i hi hh hne
    by_cases c1 : kv.1 ≠ 0
    · rw [if_pos c1]
      exact skip (by rintro i rfl; exact absurd rfl c1)
    rw [if_neg c1]
    have h0 : kv.1 = 0 := by simpa using c1
    rw [h0]
    by_cases c2 : w.set.isComplete 0 kv.2 = false
    · rw [if_pos c2]
      refine skip ?_
      rintro i rfl hh
      rw [DataBinSet.isComplete, hh] at c2; cases c2
    rw [if_neg c2]
    rw [Bool.not_eq_false] at c2
    have hheld : Held truth w 0 kv.2 := hc.honest.held c2
    have hk := (hc.honest _ _ _ hheld).1
    rw [held_get hheld]
    by_cases c3 : truth 0 kv.2 = []
    · rw [if_pos c3]
      refine skip ?_
      rintro i rfl _ hne
      exact hne c3
    rw [if_neg c3]
    have hm : ∀ c j, KeyOk c j → ((w.cache.mark 0 kv.2).has c j = true ↔ w.cache.has c j = true ∨ (c = 0 ∧ j = kv.2)) := by
      intro c j hj
      rw [mark_has _ hk hj]
      constructor
      · rintro (h | ⟨rfl, rfl⟩)
        · exact Or.inl h
        · exact Or.inr ⟨rfl, rfl⟩
      · rintro (h | ⟨rfl, rfl⟩)
        · exact Or.inl h
        · exact Or.inr ⟨rfl, rfl⟩
    obtain ⟨w1, e1, e2, e3, e4, e5, e6, e7⟩ := markTouch_core hc hk hheld c3 hm
    obtain ⟨w', h1, h2, h3, h4, h5, h6, h7⟩ := ih e2
    rw [e1]
    refine ⟨w', h1, h2, h3.trans e4, h4.trans e5, h5.trans e6, ?_, ?_⟩
    · intro i hi hw
      refine h6 i hi ?_
      rw [e3]
      exact (hm 0 i hi).2 (Or.inl hw)
    · intro i hi hh hne
      rcases List.mem_cons.1 hi with hi | hi
      · have hi' : i = kv.2 := by rw [← hi]
        subst hi'
        refine h6 _ hk ?_
        rw [e3]
        exact (hm 0 _ hk).2 (Or.inr ⟨rfl, rfl⟩)
      · exact h7 i hi (by show w1.set.bins 0 i = _; rw [e4]; exact hh) hne

theorem foldl_unmark {l : List Node} (hk : ∀ n ∈ l, KeyOk 0 n.key) :
    ∀ (m : CacheModel) {c i : Nat}, KeyOk c i →
      (l.foldl (fun m n => m.unmark 0 n.key) m).has c i = (m.has c i && decide (¬ (c = 0 ∧ ∃ n ∈ l, n.key = i))) := by
  induction l with
  | nil => intro m c i _; simp
  | cons n l ih =>
    intro m c i hi
    rw [List.foldl_cons, ih (fun n hn => hk n (List.mem_cons_of_mem _ hn)) _ hi,
      unmark_has _ (hk n (List.mem_cons_self ..)) hi, Bool.and_assoc]
    congr 1
    rw [Bool.eq_iff_iff]
    simp only [Bool.and_eq_true, decide_eq_true_eq, List.mem_cons, exists_eq_or_imp]
    constructor
    · rintro ⟨h1, h2⟩ ⟨rfl, h⟩
      rcases h with h | h
      · exact h1 ⟨rfl, h⟩
      · exact h2 ⟨rfl, h⟩
    · intro h
      exact ⟨fun h1 => h ⟨h1.1.symm, Or.inl h1.2⟩, fun h2 => h ⟨h2.1, Or.inr h2.2⟩⟩

/-- After clearing: nothing tracked, no precinct advertised. -/
theorem clear_core {truth : Nat → Nat → List UInt8} {w : Wrap} (hc : Core truth w) :
    Core truth w.clearLru ∧ ∀ i, KeyOk 0 i → w.clearLru.cache.has 0 i = false := by
  have hk : ∀ n ∈ w.lru, KeyOk 0 n.key := fun n hn => (hc.size n hn).1
  have h0 : ∀ i, KeyOk 0 i → w.clearLru.cache.has 0 i = false := by
    intro i hi
    show (w.lru.foldl (fun m n => m.unmark 0 n.key) w.cache).has 0 i = false
    rw [foldl_unmark hk _ hi, Bool.eq_false_iff]
    intro h
    rw [Bool.and_eq_true, decide_eq_true_eq] at h
    exact h.2 ⟨rfl, (hc.tracked i hi).1 h.1⟩
  refine ⟨⟨⟨List.nodup_nil, List.nodup_nil, fun n hn => (List.not_mem_nil hn).elim, ?_, rfl⟩, hc.honest,
    fun n hn => (List.not_mem_nil hn).elim, ?_, ?_, ?_⟩, h0⟩
  · intro k nid
    constructor
    · intro h; cases h
    · rintro ⟨n, hn, -⟩
      exact (List.not_mem_nil hn).elim
  · intro c i hi hh
    replace hh : (w.lru.foldl (fun m n => m.unmark 0 n.key) w.cache).has c i = true := hh
    rw [foldl_unmark hk _ hi, Bool.and_eq_true] at hh
    exact hc.held c i hi hh.1
  · intro i hi
    rw [h0 i hi]
    constructor
    · intro h; cases h
    · rintro ⟨n, hn, -⟩
      exact (List.not_mem_nil hn).elim
  · intro i hi
    show (w.lru.foldl (fun m n => m.unmark 0 n.key) w.cache).has 1 i = false
    rw [foldl_unmark hk _ hi, hc.no_ext i hi, Bool.false_and]

theorem setTrack_inv {truth : Nat → Nat → List UInt8} {w : Wrap} (hi : Inv truth w) {want : Bool} {keys : List (Nat × Nat)}
    (he : Enum keys w.set) : ∃ w', w.setTrack want keys = some w' ∧ Inv truth w' := by
  rw [Wrap.setTrack]
  by_cases h1 : want = w.track
  · rw [if_pos h1]; exact ⟨w, rfl, hi⟩
  rw [if_neg h1]
  cases want with
  | true =>
    rw [if_pos rfl]
    have hc : Core truth { w with track := true } :=
      ⟨⟨hi.links.nids, hi.links.keys, hi.links.fresh, hi.links.idx, hi.links.bytes⟩, hi.honest, hi.size, hi.held, hi.tracked, hi.no_ext⟩
    obtain ⟨w1, e1, e2, e3, e4, e5, e6, e7⟩ := backfillAll_core (truth := truth) keys hc
    rw [e1]
    obtain ⟨f1, f2, f3, f4, f5, f6, -, -, -⟩ := evict_spec (truth := truth) w1.lru rfl e2
    have hfull : Full truth w1 := by
      intro i hk hh hne
      replace hh : w1.set.bins 0 i = _ := hh
      rw [e3] at hh
      refine e7 i ((he 0 i).2 ?_) hh hne
      show w.set.bins 0 i ≠ none
      replace hh : w.set.bins 0 i = _ := hh
      rw [hh]; simp
    refine ⟨_, rfl, ⟨⟨⟨f1.links.nids, f1.links.keys, f1.links.fresh, f1.links.idx, f1.links.bytes⟩, f1.honest, f1.size, f1.held,
      f1.tracked, f1.no_ext⟩, ?_, fun _ => f2 hfull, ?_, Or.inl rfl⟩⟩
    · intro h
      replace h : w1.evict.track = false := h
      rw [f5, e4] at h; cases h
    · show w1.evict.bytes ≤ w1.evict.budget
      rw [f4]; exact f3
  | false =>
    rw [if_neg (by decide)]
    have hc : Core truth { w with track := false } :=
      ⟨⟨hi.links.nids, hi.links.keys, hi.links.fresh, hi.links.idx, hi.links.bytes⟩, hi.honest, hi.size, hi.held, hi.tracked, hi.no_ext⟩
    obtain ⟨f1, -⟩ := clear_core hc
    exact ⟨_, rfl, ⟨⟨⟨f1.links.nids, f1.links.keys, f1.links.fresh, f1.links.idx, f1.links.bytes⟩, f1.honest, f1.size, f1.held,
      f1.tracked, f1.no_ext⟩, fun _ => rfl, (fun h => by cases h), Nat.zero_le _, Or.inl rfl⟩⟩

theorem setBudget_inv {truth : Nat → Nat → List UInt8} {w : Wrap} (hi : Inv truth w) (b : Nat) : Inv truth (w.setBudget b) := by
  have hc : Core truth { w with budget := b } :=
    ⟨⟨hi.links.nids, hi.links.keys, hi.links.fresh, hi.links.idx, hi.links.bytes⟩, hi.honest, hi.size, hi.held, hi.tracked, hi.no_ext⟩
  rw [Wrap.setBudget]
  simp only
  by_cases htr : w.track = true
  · rw [if_pos htr]
    obtain ⟨f1, f2, f3, f4, f5, f6, f7, f8, -⟩ := evict_spec (truth := truth) ({ w with budget := b } : Wrap).lru rfl hc
    have hf := f2 (hi.full htr)
    generalize ({ w with budget := b } : Wrap).evict = v at *
    simp only at f3 f4 f5 f6 f7 f8
    have base : ∀ st, (st = none ∨ st = some v.cache) → Inv truth { v with str := st } := by
      intro st hst
      refine ⟨⟨⟨f1.links.nids, f1.links.keys, f1.links.fresh, f1.links.idx, f1.links.bytes⟩, f1.honest, f1.size, f1.held,
        f1.tracked, f1.no_ext⟩, ?_, fun _ => hf, ?_, hst⟩
      · intro h
        replace h : v.track = false := h
        rw [f5, htr] at h; cases h
      · show v.bytes ≤ v.budget
        rw [f4]; exact f3
    by_cases hb : v.bytes ≠ w.bytes
    · rw [if_pos hb]; exact base none (Or.inl rfl)
    · rw [if_neg hb]
      have := base v.str (by
        rw [f6, f7 (not_not.1 hb)]
        exact hi.str)
      exact this
  · rw [if_neg htr]
    have hoff := hi.off (Bool.eq_false_iff.2 htr)
    refine ⟨hc, fun _ => hoff, fun h => absurd h htr, ?_, hi.str⟩
    show w.bytes ≤ b
    rw [hi.links.bytes, hoff]
    exact Nat.zero_le _

theorem reset_inv {truth : Nat → Nat → List UInt8} {w : Wrap} (hi : Inv truth w) : Inv truth w.reset := by
  rw [Wrap.reset]
  simp only
  have hhon : Honest truth { bins := fun c i => if c = 0 ∨ c = 1 then none else w.set.bins c i } := by
    intro c i e he
    replace he : (if c = 0 ∨ c = 1 then none else w.set.bins c i) = some e := he
    by_cases h : c = 0 ∨ c = 1
    · rw [if_pos h] at he; cases he
    · rw [if_neg h] at he; exact hi.honest c i e he
  have heldOther : ∀ c i, KeyOk c i → ¬ c = 0 → w.cache.has c i = true →
      (if c = 0 ∨ c = 1 then none else w.set.bins c i) = some ⟨truth c i, true⟩ := by
    intro c i hk h0 hh
    have h1 : c ≠ 1 := by
      rintro rfl
      rw [hi.no_ext i hk] at hh; cases hh
    rw [if_neg (by omega)]
    exact hi.held c i hk hh
  have hk : ∀ n ∈ w.lru, KeyOk 0 n.key := fun n hn => (hi.size n hn).1
  by_cases h : w.track = true ∧ w.lru ≠ []
  · rw [if_pos h]
    obtain ⟨f1, f0⟩ := clear_core hi.toCore
    refine ⟨⟨⟨f1.links.nids, f1.links.keys, f1.links.fresh, f1.links.idx, f1.links.bytes⟩, hhon, f1.size, ?_, f1.tracked, f1.no_ext⟩,
      fun _ => rfl, fun _ => ?_, Nat.zero_le _, Or.inl rfl⟩
    · intro c i hki hh
      replace hh : w.clearLru.cache.has c i = true := hh
      have h0 : ¬ c = 0 := by
        rintro rfl
        rw [f0 i hki] at hh; cases hh
      refine heldOther c i hki h0 ?_
      replace hh : (w.lru.foldl (fun m n => m.unmark 0 n.key) w.cache).has c i = true := hh
      rw [foldl_unmark hk _ hki, Bool.and_eq_true] at hh
      exact hh.1
    · intro i _ hh
      replace hh : (if (0 : Nat) = 0 ∨ (0 : Nat) = 1 then none else w.set.bins 0 i) = some _ := hh
      rw [if_pos (Or.inl rfl)] at hh; cases hh
  · rw [if_neg h]
    have hnil : w.lru = [] := by
      cases htr : w.track with
      | false => exact hi.off htr
      | true => exact not_not.1 fun hne => h ⟨htr, hne⟩
    have hno : ∀ i, KeyOk 0 i → w.cache.has 0 i = false := by
      intro i hki
      rw [Bool.eq_false_iff]
      intro hh
      obtain ⟨n, hn, -⟩ := (hi.tracked i hki).1 hh
      rw [hnil] at hn
      exact (List.not_mem_nil hn).elim
    refine ⟨⟨⟨hi.links.nids, hi.links.keys, hi.links.fresh, hi.links.idx, hi.links.bytes⟩, hhon, hi.size, ?_, hi.tracked, hi.no_ext⟩,
      hi.off, fun _ => ?_, hi.budget, hi.str⟩
    · intro c i hki hh
      refine heldOther c i hki ?_ hh
      rintro rfl
      rw [hno i hki] at hh; cases hh
    · intro i _ hh
      replace hh : (if (0 : Nat) = 0 ∨ (0 : Nat) = 1 then none else w.set.bins 0 i) = some _ := hh
      rw [if_pos (Or.inl rfl)] at hh; cases hh

theorem create_inv {truth : Nat → Nat → List UInt8} {tmp : DataBinSet} {keys : List (Nat × Nat)} (ht : Honest truth tmp) :
    Inv truth (Wrap.create tmp keys) := by
  have hh : Honest truth (({} : DataBinSet).mergeFrom tmp) := Honest.merge (by intro c i e he; cases he) ht
  have key : ∀ (ks : List (Nat × Nat)) (m : CacheModel),
      (∀ c i, KeyOk c i → m.has c i = true → c ≠ 0 ∧ c ≠ 1 ∧ tmp.isComplete c i = true) →
      ∀ c i, KeyOk c i → (ks.foldl (fun m kv =>
        if kv.1 = 0 ∨ kv.1 = 1 then m else if tmp.isComplete kv.1 kv.2 then m.mark kv.1 kv.2 else m) m).has c i = true →
        c ≠ 0 ∧ c ≠ 1 ∧ tmp.isComplete c i = true := by
    intro ks
    induction ks with
    | nil => intro m hm; exact hm
    | cons kv ks ih =>
      intro m hm
      rw [List.foldl_cons]
      refine ih _ ?_
      intro c i hk hhas
      by_cases c1 : kv.1 = 0 ∨ kv.1 = 1
      · rw [if_pos c1] at hhas; exact hm c i hk hhas
      rw [if_neg c1] at hhas
      by_cases c2 : tmp.isComplete kv.1 kv.2 = true
      · rw [if_pos c2] at hhas
        rcases (mark_has _ (ht _ _ _ (ht.held c2)).1 hk).1 hhas with h | ⟨rfl, rfl⟩
        · exact hm c i hk h
        · exact ⟨fun h => c1 (Or.inl h), fun h => c1 (Or.inr h), c2⟩
      · rw [if_neg c2] at hhas; exact hm c i hk hhas
  have hkey := key keys {} (by intro c i _ h; cases h)
  refine ⟨⟨⟨List.nodup_nil, List.nodup_nil, fun n hn => (List.not_mem_nil hn).elim, ?_, rfl⟩, hh,
    fun n hn => (List.not_mem_nil hn).elim, ?_, ?_, ?_⟩, fun _ => rfl, (fun h => by cases h), Nat.zero_le _, Or.inl rfl⟩
  · intro k nid
    constructor
    · intro h; cases h
    · rintro ⟨n, hn, -⟩
      exact (List.not_mem_nil hn).elim
  · intro c i hk hhas
    exact merge_held ht (Or.inr (ht.held (hkey c i hk hhas).2.2)) (by intro c i e he; cases he)
  · intro i hk
    constructor
    · intro h; exact absurd rfl (hkey 0 i hk h).1
    · rintro ⟨n, hn, -⟩
      exact (List.not_mem_nil hn).elim
  · intro i hk
    rw [Bool.eq_false_iff]
    intro h
    exact absurd rfl (hkey 1 i hk h).2.1

theorem step_inv {truth : Nat → Nat → List UInt8} {w : Wrap} (hi : Inv truth w) {op : WrapOp} (ho : OpOk truth w op) :
    ∃ w', w.step op = some w' ∧ Inv truth w' := by
  cases op with
  | land tmp keys => exact land_inv hi ho.1 ho.2
  | setTrack want keys => exact setTrack_inv hi ho
  | setBudget b => exact ⟨_, rfl, setBudget_inv hi b⟩
  | reset => exact ⟨_, rfl, reset_inv hi⟩
  | advertise =>
    refine ⟨_, rfl, ?_⟩
    rw [Wrap.advertise]
    cases hs : w.str with
    | some m => exact hi
    | none =>
      exact ⟨⟨⟨hi.links.nids, hi.links.keys, hi.links.fresh, hi.links.idx, hi.links.bytes⟩, hi.honest, hi.size, hi.held, hi.tracked,
        hi.no_ext⟩, hi.off, hi.full, hi.budget, Or.inr rfl⟩

theorem reach_inv {truth : Nat → Nat → List UInt8} {w : Wrap} (h : Reach truth w) : Inv truth w := by
  induction h with
  | create ht _ => exact create_inv ht
  | step _ ho hs ih =>
    obtain ⟨w', h1, h2⟩ := step_inv ih ho
    rw [hs] at h1
    rw [Option.some.inj h1]
    exact h2

/-! ### The property -/

/-- C40, what is advertised: after any sequence of responses, budget changes, switches and resets, a bin the client says it has
is in its store, complete, with the bytes of the true bin. -/
theorem C40_advertised_is_held_partial (truth : Nat → Nat → List UInt8) (w : Wrap) (h : Reach truth w) (c i : Nat) (hk : KeyOk c i)
    (ha : w.advertise.1.has c i = true) : w.set.isComplete c i = true ∧ w.set.get c i = truth c i := by
  have hi := reach_inv h
  have hc : w.advertise.1 = w.cache := by
    rw [Wrap.advertise]
    rcases hi.str with e | e <;> rw [e]
  rw [hc] at ha
  have := hi.held c i hk ha
  rw [DataBinSet.isComplete, DataBinSet.get, this]
  exact ⟨rfl, rfl⟩

/-- C40, the other direction: while precincts are tracked, a complete precinct in the store is advertised (unless it has no
bytes), so that it is not sent again. -/
theorem C40_held_is_advertised_partial (truth : Nat → Nat → List UInt8) (w : Wrap) (h : Reach truth w) (ht : w.track = true) (i : Nat)
    (hk : KeyOk 0 i) (hc : w.set.isComplete 0 i = true) (hne : w.set.get 0 i ≠ []) : w.advertise.1.has 0 i = true := by
  have hi := reach_inv h
  have he : w.advertise.1 = w.cache := by
    rw [Wrap.advertise]
    rcases hi.str with e | e <;> rw [e]
  have hb := hi.honest.held hc
  rw [he]
  refine hi.full ht i hk hb ?_
  rwa [DataBinSet.get, hb] at hne

/-- C40, accounting: the byte count is the sum over the tracked precincts — each listed once — of the bytes held for them, and
it is within the budget after every call. -/
theorem C40_accounting_partial (truth : Nat → Nat → List UInt8) (w : Wrap) (h : Reach truth w) :
    (w.lru.map Node.key).Nodup ∧ w.bytes = (w.lru.map fun n => (w.set.get 0 n.key).length).sum ∧ w.bytes ≤ w.budget ∧
      ∀ i, KeyOk 0 i → (w.advertise.1.has 0 i = true ↔ i ∈ w.lru.map Node.key) := by
  have hi := reach_inv h
  have he : w.advertise.1 = w.cache := by
    rw [Wrap.advertise]
    rcases hi.str with e | e <;> rw [e]
  refine ⟨hi.links.keys, ?_, hi.budget, ?_⟩
  · rw [hi.links.bytes]
    congr 1
    refine List.map_congr_left ?_
    intro n hn
    have hs := hi.size n hn
    have := hi.held 0 n.key hs.1 ((hi.tracked n.key hs.1).2 ⟨n, hn, rfl⟩)
    rw [DataBinSet.get, this]
    exact hs.2.1
  · intro i hk
    rw [he, hi.tracked i hk, List.mem_map]

/-- C40, no dangling iterators: every call that the surroundings can make returns. -/
theorem C40_calls_defined (truth : Nat → Nat → List UInt8) (w : Wrap) (h : Reach truth w) (op : WrapOp) (ho : OpOk truth w op) :
    ∃ w', w.step op = some w' := by
  obtain ⟨w', h1, -⟩ := step_inv (reach_inv h) ho
  exact ⟨w', h1⟩

/-- C40, least recently used: eviction drops the oldest precincts and no more of them than needed — before each one dropped the
rest was over the budget. -/
theorem C40_evicts_oldest (truth : Nat → Nat → List UInt8) (w : Wrap) (h : Reach truth w) (b : Nat) (ht : w.track = true) :
    ∃ k, (w.setBudget b).lru = w.lru.drop k ∧ ∀ j < k, b < ((w.lru.drop j).map fun n => (w.set.get 0 n.key).length).sum := by
  have hi := reach_inv h
  have hc : Core truth { w with budget := b } :=
    ⟨⟨hi.links.nids, hi.links.keys, hi.links.fresh, hi.links.idx, hi.links.bytes⟩, hi.honest, hi.size, hi.held, hi.tracked, hi.no_ext⟩
  obtain ⟨-, -, -, -, -, -, -, -, k, hk, hj⟩ := evict_spec (truth := truth) ({ w with budget := b } : Wrap).lru rfl hc
  refine ⟨k, ?_, ?_⟩
  · rw [← hk, Wrap.setBudget]
    simp only
    rw [if_pos ht]
    split <;> rfl
  · intro j hjk
    have := hj j hjk
    have e : (w.lru.drop j).map (fun n => (w.set.get 0 n.key).length) = (w.lru.drop j).map Node.size := by
      refine List.map_congr_left ?_
      intro n hn
      have hn := List.mem_of_mem_drop hn
      have hs := hi.size n hn
      have := hi.held 0 n.key hs.1 ((hi.tracked n.key hs.1).2 ⟨n, hn, rfl⟩)
      rw [DataBinSet.get, this]
      exact hs.2.1.symm
    rw [e]
    exact this

/-! ### The order of the list -/

theorem markTouch_keys {truth : Nat → Nat → List UInt8} {w w' : Wrap} (hc : Core truth w) {m : CacheModel} {i b : Nat}
    (h : ({ w with cache := m }).touch i b = some w') : w'.lru.map Node.key = (w.lru.map Node.key).filter (· ≠ i) ++ [i] := by
  have hl : Links { w with cache := m } := ⟨hc.links.nids, hc.links.keys, hc.links.fresh, hc.links.idx, hc.links.bytes⟩
  obtain ⟨w1, h1, -, h3, -⟩ := touch_spec hl i b
  rw [h] at h1
  rw [Option.some.inj h1, h3, List.map_append, List.filter_map]
  congr 2
  refine List.filter_congr ?_
  intro n _
  simp [bne, Function.comp]
  rfl

/-- The precincts of a response in the order of their arrival, the last time each. -/
theorem ingestAll_keys {truth : Nat → Nat → List UInt8} {tmp : DataBinSet} (ht : Honest truth tmp) (keys : List (Nat × Nat)) :
    ∀ {w w' : Wrap} {b b' : Bool}, Core truth w → (∀ c i, tmp.isComplete c i = true → Held truth w c i) →
      ingestAll tmp keys (w, b) = some (w', b') →
      ∃ T : List Nat, (∀ i, i ∈ T ↔ (0, i) ∈ keys ∧ tmp.isComplete 0 i = true ∧ truth 0 i ≠ []) ∧
        w'.lru.map Node.key = (w.lru.map Node.key).filter (· ∉ T) ++ T := by
  induction keys with
  | nil =>
    intro w w' b b' _ _ h
    rw [ingestAll, Option.some.injEq, Prod.mk.injEq] at h
    refine ⟨[], fun i => ⟨fun h => (List.not_mem_nil h).elim, fun h => (List.not_mem_nil h.1).elim⟩, ?_⟩
    rw [← h.1]
    simp
  | cons kv keys ih =>
    intro w w' b b' hc hh h
    rw [ingestAll, ingestOne] at h
    have skip : (∀ i, kv = (0, i) → tmp.isComplete 0 i = true → truth 0 i ≠ [] → False) →
        ingestAll tmp keys (w, b) = some (w', b') →
        ∃ T : List Nat, (∀ i, i ∈ T ↔ (0, i) ∈ kv :: keys ∧ tmp.isComplete 0 i = true ∧ truth 0 i ≠ []) ∧
        w'.lru.map Node.key = (w.lru.map Node.key).filter (· ∉ T) ++ T := by
      intro hno h
      obtain ⟨T, h1, h2⟩ := ih hc hh h
      refine ⟨T, fun i => ?_, h2⟩
      rw [h1]
      constructor
      · rintro ⟨a, b, c⟩
        exact ⟨List.mem_cons_of_mem _ a, b, c⟩
      · rintro ⟨a, b, c⟩
        rcases List.mem_cons.1 a with a | a
        · exact (hno i a.symm b c).elim
        · exact ⟨a, b, c⟩
    by_cases c1 : kv.1 ≠ 0 ∧ kv.1 ≠ 1
    · rw [if_pos c1] at h
      exact skip (by rintro i rfl; exact absurd rfl c1.1) h
    rw [if_neg c1] at h
    by_cases c2 : tmp.isComplete kv.1 kv.2 = false
    · rw [if_pos c2] at h
      refine skip ?_ h
      rintro i rfl hcm
      rw [c2] at hcm; cases hcm
    rw [if_neg c2] at h
    rw [Bool.not_eq_false] at c2
    have htm := ht.held c2
    have hk := ht _ _ _ htm
    have h0 : kv.1 = 0 := by
      have := hk.2.1
      omega
    rw [h0] at c2 htm hk
    have hheld := hh 0 kv.2 c2
    rw [held_get hheld] at h
    by_cases c3 : truth 0 kv.2 = []
    · rw [if_pos c3] at h
      refine skip ?_ h
      rintro i rfl _ hne
      exact hne c3
    rw [if_neg c3] at h
    have go : ∀ (m : CacheModel) (b1 : Bool),
        (∀ c j, KeyOk c j → (m.has c j = true ↔ w.cache.has c j = true ∨ (c = 0 ∧ j = kv.2))) →
        ((({ w with cache := m }).touch kv.2 (truth 0 kv.2).length).map fun w => (w, b1)).bind (ingestAll tmp keys) =
          some (w', b') →
        ∃ T : List Nat, (∀ i, i ∈ T ↔ (0, i) ∈ kv :: keys ∧ tmp.isComplete 0 i = true ∧ truth 0 i ≠ []) ∧
        w'.lru.map Node.key = (w.lru.map Node.key).filter (· ∉ T) ++ T := by
      intro m b1 hm h
      obtain ⟨w1, e1, e2, -, e4, -⟩ := markTouch_core hc hk.1 hheld c3 hm
      have hkeys := markTouch_keys hc e1
      rw [e1] at h
      obtain ⟨T, h1, h2⟩ := ih e2 (fun c i hci => by show w1.set.bins c i = _; rw [e4]; exact hh c i hci) h
      have hmem : ∀ i, (0, i) ∈ kv :: keys ↔ i = kv.2 ∨ (0, i) ∈ keys := by
        intro i
        rw [List.mem_cons]
        refine or_congr_left ⟨fun e => by rw [← e], fun e => ?_⟩
        rw [e, ← h0]
      by_cases hT : kv.2 ∈ T
      · refine ⟨T, fun i => ?_, ?_⟩
        · rw [h1, hmem]
          constructor
          · rintro ⟨a, b, c⟩
            exact ⟨Or.inr a, b, c⟩
          · rintro ⟨a | a, b, c⟩
            · rw [a]; exact (h1 _).1 hT
            · exact ⟨a, b, c⟩
        · rw [h2, hkeys, List.filter_append, List.filter_filter]
          have : [kv.2].filter (· ∉ T) = [] := by simp [hT]
          rw [this, List.append_nil]
          congr 1
          refine List.filter_congr ?_
          intro k _
          rw [Bool.eq_iff_iff]
          simp only [Bool.and_eq_true, decide_eq_true_eq]
          exact ⟨fun h => h.1, fun h => ⟨h, fun e => h (by rw [e]; exact hT)⟩⟩
      · refine ⟨kv.2 :: T, fun i => ?_, ?_⟩
        · rw [List.mem_cons, h1, hmem]
          constructor
          · rintro (a | ⟨a, b, c⟩)
            · rw [a]; exact ⟨Or.inl rfl, c2, c3⟩
            · exact ⟨Or.inr a, b, c⟩
          · rintro ⟨a | a, b, c⟩
            · exact Or.inl a
            · exact Or.inr ⟨a, b, c⟩
        · rw [h2, hkeys, List.filter_append, List.filter_filter]
          have : [kv.2].filter (· ∉ T) = [kv.2] := by simp [hT]
          rw [this, List.append_assoc]
          congr 1
          refine List.filter_congr ?_
          intro k _
          rw [Bool.eq_iff_iff]
          simp only [Bool.and_eq_true, decide_eq_true_eq, List.mem_cons, not_or]
          exact ⟨fun h => ⟨h.2, h.1⟩, fun h => ⟨h.2, h.1⟩⟩
    by_cases c4 : w.cache.has 0 kv.2 = true
    · rw [if_pos c4] at h
      refine go w.cache b ?_ h
      intro c j hj
      constructor
      · exact Or.inl
      · rintro (h | ⟨rfl, rfl⟩)
        · exact h
        · exact c4
    · rw [if_neg c4] at h
      refine go (w.cache.mark 0 kv.2) true ?_ h
      intro c j hj
      rw [mark_has _ hk.1 hj]
      constructor
      · rintro (h | ⟨rfl, rfl⟩)
        · exact Or.inl h
        · exact Or.inr ⟨rfl, rfl⟩
      · rintro (h | ⟨rfl, rfl⟩)
        · exact Or.inl h
        · exact Or.inr ⟨rfl, rfl⟩

/-- C40, least recently used: a response moves the precincts it completes — sent for the first time or again — behind all
others, which keep their order; then the oldest are evicted, no more of them than needed. -/
theorem C40_recent_last (truth : Nat → Nat → List UInt8) (w w' : Wrap) (h : Reach truth w) (htr : w.track = true) (tmp : DataBinSet)
    (keys : List (Nat × Nat)) (ht : Honest truth tmp) (he : Enum keys tmp) (hl : w.land tmp keys = some w') :
    ∃ (T : List Nat) (k : Nat), (∀ i, i ∈ T ↔ tmp.isComplete 0 i = true ∧ truth 0 i ≠ []) ∧
      w'.lru.map Node.key = ((w.lru.map Node.key).filter (· ∉ T) ++ T).drop k ∧
      ∀ j < k, w.budget < ((((w.lru.map Node.key).filter (· ∉ T) ++ T).drop j).map fun i => (truth 0 i).length).sum := by
  have hi := reach_inv h
  have hc0 : Core truth { w with set := w.set.mergeFrom tmp } :=
    ⟨⟨hi.links.nids, hi.links.keys, hi.links.fresh, hi.links.idx, hi.links.bytes⟩, hi.honest.merge ht, hi.size,
      fun c i hk hh => merge_held ht (Or.inl (hi.held c i hk hh)) hi.honest, hi.tracked, hi.no_ext⟩
  have hh0 : ∀ c i, tmp.isComplete c i = true → Held truth { w with set := w.set.mergeFrom tmp } c i :=
    fun c i hcm => merge_held ht (Or.inr (ht.held hcm)) hi.honest
  obtain ⟨a1, a2, -, -⟩ := markOne_fold ht keys (b := false) hc0 hh0
  rw [Wrap.land] at hl
  simp only at hl
  generalize hs : keys.foldl (markOne tmp) ({ w with set := w.set.mergeFrom tmp }, false) = s at a1 a2 hl
  obtain ⟨w1, b1⟩ := s
  simp only at a1 a2 hl
  have w1set : w1.set = w.set.mergeFrom tmp := by rw [a2]
  have w1track : w1.track = w.track := by rw [a2]
  have w1lru : w1.lru = w.lru := by rw [a2]
  have w1budget : w1.budget = w.budget := by rw [a2]
  rw [Wrap.ingest, if_neg (by rw [w1track, htr]; decide)] at hl
  have hh1 : ∀ c i, tmp.isComplete c i = true → Held truth w1 c i :=
    fun c i hcm => by show w1.set.bins c i = _; rw [w1set]; exact hh0 c i hcm
  obtain ⟨w2, b2, e1, e2, -, -, e5, -⟩ := ingestAll_core ht keys (b := false) a1 hh1
  obtain ⟨T, t1, t2⟩ := ingestAll_keys ht keys a1 hh1 e1
  rw [e1] at hl
  have hT : ∀ i, i ∈ T ↔ tmp.isComplete 0 i = true ∧ truth 0 i ≠ [] := by
    intro i
    rw [t1]
    refine ⟨fun h => h.2, fun h => ⟨(he 0 i).2 ?_, h⟩⟩
    rw [ht.held h.1]; simp
  rw [w1lru] at t2
  have hsz : ∀ j, ((w2.lru.map Node.key).drop j).map (fun i => (truth 0 i).length) = (w2.lru.drop j).map Node.size := by
    intro j
    rw [← List.map_drop, List.map_map]
    refine List.map_congr_left ?_
    intro n hn
    exact (e2.size n (List.mem_of_mem_drop hn)).2.1.symm
  have hw' : w'.lru = if b2 = true then w2.evict.lru else w2.lru := by
    simp only [Option.map_some, Option.some.injEq] at hl
    rw [← hl]
    cases b2 <;> cases b1 <;> rfl
  cases hb2 : b2 with
  | true =>
    obtain ⟨-, -, -, -, -, -, -, -, k, f9, f10⟩ := evict_spec (truth := truth) w2.lru rfl e2
    refine ⟨T, k, hT, ?_, ?_⟩
    · rw [hw', if_pos hb2, f9, List.map_drop, t2]
    · intro j hj
      rw [← t2, hsz, ← w1budget, ← e5]
      exact f10 j hj
  | false =>
    refine ⟨T, 0, hT, ?_, fun j hj => absurd hj (Nat.not_lt_zero j)⟩
    rw [hw', if_neg (by rw [hb2]; decide), ← t2]
    rfl

/-! ### Any server -/

/-- The contexts that arise whatever the responses are and in whatever way the sets are listed. -/
inductive ReachAny : Wrap → Prop where
  | create (tmp : DataBinSet) (keys : List (Nat × Nat)) : ReachAny (Wrap.create tmp keys)
  | step {w w' : Wrap} (op : WrapOp) : ReachAny w → w.step op = some w' → ReachAny w'

theorem links_of {w v : Wrap} (h : Links w) (h1 : v.lru = w.lru) (h2 : v.fresh = w.fresh) (h3 : v.idx = w.idx)
    (h4 : v.bytes = w.bytes) : Links v :=
  ⟨by rw [h1]; exact h.nids, by rw [h1]; exact h.keys, by rw [h1, h2]; exact h.fresh, by rw [h1, h3]; exact h.idx,
    by rw [h1, h4]; exact h.bytes⟩

theorem removeFirst_links {w : Wrap} (h : Links w) {n : Node} {rest : List Node} (hl : w.lru = n :: rest) :
    Links (w.removeFirst n rest) := by
  have hsub : ∀ m ∈ rest, m ∈ w.lru := fun m hm => by rw [hl]; exact List.mem_cons_of_mem _ hm
  have h1 := h.nids
  have h2 := h.keys
  have h5 := h.bytes
  rw [hl, List.map_cons, List.nodup_cons] at h1 h2
  rw [hl, List.map_cons, List.sum_cons] at h5
  have hne : ∀ m ∈ rest, m.key ≠ n.key := fun m hm e => h2.1 (by rw [← e]; exact List.mem_map_of_mem hm)
  refine ⟨h1.2, h2.2, fun m hm => h.fresh m (hsub m hm), ?_, ?_⟩
  · intro k nid
    show (if k = n.key then none else w.idx k) = some nid ↔ ∃ m ∈ rest, m.key = k ∧ m.nid = nid
    by_cases e : k = n.key
    · rw [if_pos e]
      constructor
      · intro h; cases h
      · rintro ⟨m, hm, e1, -⟩
        exact absurd (by rw [e1, e]) (hne m hm)
    · rw [if_neg e, h.idx, hl]
      constructor
      · rintro ⟨m, hm, e1, e2⟩
        rcases List.mem_cons.1 hm with rfl | hm
        · exact absurd e1.symm e
        · exact ⟨m, hm, e1, e2⟩
      · rintro ⟨m, hm, e1, e2⟩
        exact ⟨m, List.mem_cons_of_mem _ hm, e1, e2⟩
  · show w.bytes - n.size = (rest.map Node.size).sum
    omega

theorem evict_links (l : List Node) : ∀ {w : Wrap}, w.lru = l → Links w →
    Links w.evict ∧ w.evict.bytes ≤ w.budget ∧ w.evict.budget = w.budget := by
  induction l with
  | nil =>
    intro w hl h
    have he : w.evict = w := by
      rw [Wrap.evict.eq_def]
      split
      · rfl
      · rename_i h; rw [hl] at h; cases h
    have hb := h.bytes
    rw [hl] at hb
    rw [he]
    refine ⟨h, ?_, rfl⟩
    rw [hb]
    exact Nat.zero_le _
  | cons n rest ih =>
    intro w hl h
    by_cases hlt : w.budget < w.bytes
    · have he : w.evict = (w.removeFirst n rest).evict := by
        rw [Wrap.evict.eq_def]
        split
        · rename_i h; rw [hl] at h; cases h
        · rename_i n' rest' h
          rw [hl] at h
          obtain ⟨rfl, rfl⟩ := List.cons.inj h
          rw [if_pos hlt]
      rw [he]
      exact ih (w := w.removeFirst n rest) rfl (removeFirst_links h hl)
    · have he : w.evict = w := by
        rw [Wrap.evict.eq_def]
        split
        · rfl
        · rw [if_neg hlt]
      rw [he]
      exact ⟨h, by omega, rfl⟩

theorem ingestAll_links {tmp : DataBinSet} (keys : List (Nat × Nat)) : ∀ {w : Wrap} {b : Bool}, Links w →
    ∃ w' b', ingestAll tmp keys (w, b) = some (w', b') ∧ Links w' := by
  induction keys with
  | nil => intro w b h; exact ⟨w, b, rfl, h⟩
  | cons kv keys ih =>
    intro w b h
    rw [ingestAll]
    have : ∃ w1 b1, ingestOne tmp (w, b) kv = some (w1, b1) ∧ Links w1 := by
      rw [ingestOne]
      by_cases c1 : kv.1 ≠ 0 ∧ kv.1 ≠ 1
      · rw [if_pos c1]; exact ⟨w, b, rfl, h⟩
      rw [if_neg c1]
      by_cases c2 : tmp.isComplete kv.1 kv.2 = false
      · rw [if_pos c2]; exact ⟨w, b, rfl, h⟩
      rw [if_neg c2]
      simp only
      by_cases c3 : w.set.get 0 kv.2 = []
      · rw [if_pos c3]; exact ⟨w, b, rfl, h⟩
      rw [if_neg c3]
      by_cases c4 : w.cache.has 0 kv.2 = true
      · rw [if_pos c4]
        obtain ⟨w1, e1, e2, -⟩ := touch_spec h kv.2 (w.set.get 0 kv.2).length
        rw [e1]
        exact ⟨w1, b, rfl, e2⟩
      · rw [if_neg c4]
        obtain ⟨w1, e1, e2, -⟩ := touch_spec (w := { w with cache := w.cache.mark 0 kv.2 }) (links_of h rfl rfl rfl rfl) kv.2
          (w.set.get 0 kv.2).length
        rw [e1]
        exact ⟨w1, true, rfl, e2⟩
    obtain ⟨w1, b1, e1, e2⟩ := this
    rw [e1]
    exact ih e2

theorem backfillAll_links (keys : List (Nat × Nat)) : ∀ {w : Wrap}, Links w → ∃ w', backfillAll keys w = some w' ∧ Links w' := by
  induction keys with
  | nil => intro w h; exact ⟨w, rfl, h⟩
  | cons kv keys ih =>
    intro w h
    rw [backfillAll]
    have : ∃ w1, backfillOne w kv = some w1 ∧ Links w1 := by
      rw [backfillOne]
      by_cases c1 : kv.1 ≠ 0
      · rw [if_pos c1]; exact ⟨w, rfl, h⟩
      rw [if_neg c1]
      by_cases c2 : w.set.isComplete kv.1 kv.2 = false
      · rw [if_pos c2]; exact ⟨w, rfl, h⟩
      rw [if_neg c2]
      by_cases c3 : w.set.get kv.1 kv.2 = []
      · rw [if_pos c3]; exact ⟨w, rfl, h⟩
      rw [if_neg c3]
      obtain ⟨w1, e1, e2, -⟩ := touch_spec (w := { w with cache := w.cache.mark kv.1 kv.2 }) (links_of h rfl rfl rfl rfl) kv.2
          (w.set.get kv.1 kv.2).length
      exact ⟨w1, e1, e2⟩
    obtain ⟨w1, e1, e2⟩ := this
    rw [e1]
    exact ih e2

theorem markOne_links {tmp : DataBinSet} (keys : List (Nat × Nat)) : ∀ {w : Wrap} {b : Bool}, Links w →
    Links (keys.foldl (markOne tmp) (w, b)).1 := by
  induction keys with
  | nil => intro w b h; exact h
  | cons kv keys ih =>
    intro w b h
    rw [List.foldl_cons]
    have : Links (markOne tmp (w, b) kv).1 := by
      rw [markOne]
      split_ifs
      · exact h
      · exact h
      · exact h
      · exact links_of h rfl rfl rfl rfl
    exact ih this

theorem clear_links {w : Wrap} : Links w.clearLru := by
  refine ⟨List.nodup_nil, List.nodup_nil, fun n hn => (List.not_mem_nil hn).elim, ?_, rfl⟩
  intro k nid
  constructor
  · intro h; cases h
  · rintro ⟨n, hn, -⟩
    exact (List.not_mem_nil hn).elim

theorem step_links {w : Wrap} (h : Links w) (op : WrapOp) : ∃ w', w.step op = some w' ∧ Links w' := by
  cases op with
  | land tmp keys =>
    show ∃ w', w.land tmp keys = some w' ∧ Links w'
    rw [Wrap.land]
    simp only
    have h1 : Links (keys.foldl (markOne tmp) ({ w with set := w.set.mergeFrom tmp }, false)).1 :=
      markOne_links keys (links_of h rfl rfl rfl rfl)
    generalize keys.foldl (markOne tmp) ({ w with set := w.set.mergeFrom tmp }, false) = s at h1
    obtain ⟨w1, b1⟩ := s
    simp only at h1
    have h2 : ∃ w2 b2, w1.ingest tmp keys = some (w2, b2) ∧ Links w2 := by
      rw [Wrap.ingest]
      by_cases c : w1.track = false
      · rw [if_pos c]; exact ⟨w1, false, rfl, h1⟩
      · rw [if_neg c]
        obtain ⟨w2, b2, e1, e2⟩ := ingestAll_links (tmp := tmp) keys (b := false) h1
        rw [e1]
        cases b2 with
        | true => exact ⟨_, _, rfl, (evict_links _ rfl e2).1⟩
        | false => exact ⟨_, _, rfl, e2⟩
    obtain ⟨w2, b2, e1, e2⟩ := h2
    rw [e1]
    refine ⟨_, rfl, ?_⟩
    simp only
    split
    · exact links_of e2 rfl rfl rfl rfl
    · exact e2
  | setTrack want keys =>
    show ∃ w', w.setTrack want keys = some w' ∧ Links w'
    rw [Wrap.setTrack]
    by_cases c1 : want = w.track
    · rw [if_pos c1]; exact ⟨w, rfl, h⟩
    rw [if_neg c1]
    cases want with
    | true =>
      rw [if_pos rfl]
      obtain ⟨w1, e1, e2⟩ := backfillAll_links keys (w := { w with track := true }) (links_of h rfl rfl rfl rfl)
      rw [e1]
      exact ⟨_, rfl, links_of (evict_links _ rfl e2).1 rfl rfl rfl rfl⟩
    | false =>
      rw [if_neg (by decide)]
      exact ⟨_, rfl, links_of (clear_links (w := { w with track := false })) rfl rfl rfl rfl⟩
  | setBudget b =>
    refine ⟨_, rfl, ?_⟩
    have hb : Links { w with budget := b } := links_of h rfl rfl rfl rfl
    rw [Wrap.setBudget]
    simp only
    split_ifs
    · exact links_of (evict_links _ rfl hb).1 rfl rfl rfl rfl
    · exact (evict_links _ rfl hb).1
    · exact hb
  | reset =>
    refine ⟨_, rfl, ?_⟩
    rw [Wrap.reset]
    simp only
    split_ifs
    · exact links_of (clear_links (w := w)) rfl rfl rfl rfl
    · exact links_of h rfl rfl rfl rfl
  | advertise =>
    refine ⟨_, rfl, ?_⟩
    rw [Wrap.advertise]
    cases w.str with
    | some m => exact h
    | none => exact links_of h rfl rfl rfl rfl

theorem reachAny_links {w : Wrap} (h : ReachAny w) : Links w := by
  induction h with
  | create tmp keys =>
    refine ⟨List.nodup_nil, List.nodup_nil, fun n hn => (List.not_mem_nil hn).elim, ?_, rfl⟩
    intro k nid
    constructor
    · intro h; cases h
    · rintro ⟨n, hn, -⟩
      exact (List.not_mem_nil hn).elim
  | step op _ hs ih =>
    obtain ⟨w', h1, h2⟩ := step_links ih op
    rw [hs] at h1
    rw [Option.some.inj h1]
    exact h2

/-- C40 with any server: whatever is received, no call follows a dangling iterator, the index points to exactly the listed
precincts — each listed once — and the byte count is the sum of their recorded sizes. -/
theorem C40_any_server (w : Wrap) (h : ReachAny w) :
    (∀ op, ∃ w', w.step op = some w') ∧ (w.lru.map Node.key).Nodup ∧ (∀ i, w.idx i ≠ none ↔ i ∈ w.lru.map Node.key) ∧
      w.bytes = (w.lru.map Node.size).sum := by
  have hl := reachAny_links h
  refine ⟨fun op => (step_links hl op).imp fun _ h => h.1, hl.keys, fun i => ?_, hl.bytes⟩
  rw [List.mem_map]
  constructor
  · intro hi
    obtain ⟨nid, hn⟩ := Option.ne_none_iff_exists'.1 hi
    obtain ⟨n, h1, h2, -⟩ := (hl.idx i nid).1 hn
    exact ⟨n, h1, h2⟩
  · rintro ⟨n, h1, h2⟩
    rw [(hl.idx i n.nid).2 ⟨n, h1, h2, rfl⟩]
    simp

/-- C40 with any server: eviction ends within the budget. -/
theorem C40_evict_within_budget (w : Wrap) (h : ReachAny w) (b : Nat) (ht : w.track = true) : (w.setBudget b).bytes ≤ b := by
  have := evict_links _ rfl (w := { w with budget := b }) (links_of (reachAny_links h) rfl rfl rfl rfl)
  rw [Wrap.setBudget]
  simp only
  rw [if_pos ht]
  split
  · exact this.2.1
  · exact this.2.1

/-! ### Cases -/

/-- A set with the given bins. -/
def setOf (l : List ((Nat × Nat) × Entry)) : DataBinSet := { bins := fun c i => l.lookup (c, i) }

/-- Two precincts of three bytes, tracked, with a budget of four: the older one is evicted, from all three places. -/
def wrapSample : Option Wrap :=
  ((Wrap.create (setOf [((6, 0), ⟨[1], true⟩)]) [(6, 0)]).setTrack true [(6, 0)]).bind fun w =>
    (w.land (setOf [((0, 4), ⟨[1, 2, 3], true⟩), ((0, 9), ⟨[4, 5, 6], true⟩)]) [(0, 4), (0, 9)]).map fun w => w.setBudget 4

example : wrapSample.map (fun w => (w.lru.map Node.key, w.bytes, w.cache.has 0 4, w.cache.has 0 9)) =
    some ([9], 3, false, true) := by decide +kernel

example : wrapSample.map (fun w => ((w.set.bins 0 4).isSome, w.set.get 0 9, w.cache.has 6 0)) =
    some (false, [4, 5, 6], true) := by decide +kernel

/-- The true bins of that case. -/
def truthSample (c i : Nat) : List UInt8 :=
  if c = 0 ∧ i = 4 then [1, 2, 3] else if c = 0 ∧ i = 9 then [4, 5, 6] else if c = 6 then [1] else []

theorem honest_setOf {truth : Nat → Nat → List UInt8} {l : List ((Nat × Nat) × Entry)}
    (h : ∀ x ∈ l, KeyOk x.1.1 x.1.2 ∧ x.1.1 ≠ 1 ∧ x.2.bytes <+: truth x.1.1 x.1.2 ∧ (x.2.isLast = true → x.2.bytes = truth x.1.1 x.1.2)) :
    Honest truth (setOf l) := by
  intro c i e he
  replace he : l.lookup (c, i) = some e := he
  have : ((c, i), e) ∈ l := by
    rw [List.lookup_eq_some_iff] at he
    obtain ⟨l1, l2, rfl, -⟩ := he
    simp
  exact h _ this

theorem enum_setOf {l : List ((Nat × Nat) × Entry)} {keys : List (Nat × Nat)} (hk : l.map Prod.fst = keys) : Enum keys (setOf l) := by
  subst hk
  intro c i
  show _ ↔ l.lookup (c, i) ≠ none
  rw [Ne, List.lookup_eq_none_iff]
  constructor
  · intro h hh
    obtain ⟨x, hx, e⟩ := List.mem_map.1 h
    have := hh x hx
    rw [e] at this
    simp at this
  · intro h
    by_contra hc
    refine h fun x hx => ?_
    rw [bne_iff_ne]
    intro e
    exact hc (by rw [e]; exact List.mem_map_of_mem hx)

/-- The hypotheses are met: a context with an evicted and an advertised precinct is reachable. -/
example : ∃ w, Reach truthSample w ∧ w.track = true ∧ w.lru.map Node.key = [9] := by
  have h1 : Reach truthSample (Wrap.create (setOf [((6, 0), ⟨[1], true⟩)]) [(6, 0)]) := by
    refine Reach.create (honest_setOf ?_) (enum_setOf rfl)
    intro x hx
    rw [List.mem_singleton.1 hx]
    exact ⟨⟨by decide, by decide⟩, by decide, by decide, fun _ => by decide⟩
  obtain ⟨w2, e2⟩ := Option.isSome_iff_exists.1 (show ((Wrap.create (setOf [((6, 0), ⟨[1], true⟩)]) [(6, 0)]).setTrack true
    [(6, 0)]).isSome = true by decide +kernel)
  have h2 : Reach truthSample w2 := by
    refine h1.step (op := .setTrack true [(6, 0)]) ?_ e2
    intro c i
    rw [enum_setOf (l := [((6, 0), ⟨[1], true⟩)]) (keys := [(6, 0)]) rfl c i]
    show _ ↔ (match (setOf [((6, 0), ⟨[1], true⟩)]).bins c i with
      | none => none
      | some o => some o) ≠ none
    cases (setOf [((6, 0), ⟨[1], true⟩)]).bins c i <;> simp
  obtain ⟨w3, e3⟩ := C40_calls_defined _ w2 h2
    (.land (setOf [((0, 4), ⟨[1, 2, 3], true⟩), ((0, 9), ⟨[4, 5, 6], true⟩)]) [(0, 4), (0, 9)]) (by
      refine ⟨honest_setOf ?_, enum_setOf rfl⟩
      intro x hx
      simp only [List.mem_cons, List.not_mem_nil, or_false] at hx
      rcases hx with rfl | rfl
      · exact ⟨⟨by decide, by decide⟩, by decide, by decide, fun _ => by decide⟩
      · exact ⟨⟨by decide, by decide⟩, by decide, by decide, fun _ => by decide⟩)
  have h3 : Reach truthSample w3 := by
    refine h2.step (op := .land (setOf [((0, 4), ⟨[1, 2, 3], true⟩), ((0, 9), ⟨[4, 5, 6], true⟩)]) [(0, 4), (0, 9)]) ⟨honest_setOf ?_, enum_setOf rfl⟩ e3
    intro x hx
    simp only [List.mem_cons, List.not_mem_nil, or_false] at hx
    rcases hx with rfl | rfl
    · exact ⟨⟨by decide, by decide⟩, by decide, by decide, fun _ => by decide⟩
    · exact ⟨⟨by decide, by decide⟩, by decide, by decide, fun _ => by decide⟩
  have hw : wrapSample = some (w3.setBudget 4) := by
    rw [wrapSample, e2]
    show (w2.land _ _).map _ = _
    replace e3 : w2.land _ _ = some w3 := e3
    rw [e3]; rfl
  have hk : wrapSample.map (fun w => (w.track, w.lru.map Node.key)) = some (true, [9]) := by decide +kernel
  rw [hw, Option.map_some, Option.some.injEq, Prod.mk.injEq] at hk
  exact ⟨_, h3.step (op := .setBudget 4) trivial rfl, hk.1, hk.2⟩

/-- C40 fails if a server sends extended precincts: the completeness of an extended precinct is taken for that of the precinct
with the same identifier, of which only two bytes are there. -/
theorem C40_ext_precinct_confused :
    (((Wrap.create (setOf [((0, 4), ⟨[1, 2], false⟩)]) [(0, 4)]).setTrack true [(0, 4)]).bind fun w =>
      w.land (setOf [((1, 4), ⟨[7], true⟩)]) [(1, 4)]).map (fun w => (w.advertise.1.has 0 4, w.set.isComplete 0 4)) =
      some (true, false) := by decide +kernel

/-- C40 fails if a server sends more bytes for a precinct it has completed before: the longer, incomplete bin replaces the
complete one, which is still advertised; and the bytes grow over the budget without eviction. -/
theorem C40_longer_bin_replaces :
    (((Wrap.create (setOf [((0, 4), ⟨[1, 2], true⟩)]) [(0, 4)]).setTrack true [(0, 4)]).bind fun w =>
      w.land (setOf [((0, 4), ⟨[1, 2, 3], false⟩)]) [(0, 4)]).map (fun w => (w.advertise.1.has 0 4, w.set.isComplete 0 4)) =
      some (true, false) := by decide +kernel

end Verif.Jpip
