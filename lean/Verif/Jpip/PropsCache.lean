import Verif.Jpip.CacheFormat
/-
Property theorems C09, C10: cache-model strings and bookkeeping.
-/
namespace Verif.Jpip

/-! ## C10 -/

/-- A bookkeeping call. -/
inductive CacheOp where
  | mark (c i : Nat)
  | markPartial (c i bytes : Nat)
  | unmark (c i : Nat)

def CacheOp.Ok : CacheOp → Prop
  | .mark c i => KeyOk c i
  | .markPartial c i _ => KeyOk c i
  | .unmark c i => KeyOk c i

def CacheModel.step (m : CacheModel) : CacheOp → CacheModel
  | .mark c i => m.mark c i
  | .markPartial c i b => m.markPartial c i b
  | .unmark c i => m.unmark c i

/-- Specification: the statements about bin `(c,i)` made since it was last discarded, oldest first
(`none` = "held in full", `some b` = "held up to `b` bytes"). -/
def sinceUnmark (c i : Nat) (ops : List CacheOp) : List (Option Nat) :=
  ops.foldl (fun acc op =>
    match op with
    | .mark c' i' => if c' = c ∧ i' = i then acc ++ [none] else acc
    | .markPartial c' i' b => if c' = c ∧ i' = i then acc ++ [some b] else acc
    | .unmark c' i' => if c' = c ∧ i' = i then [] else acc) []

/-- C10.  After any history of calls, a bin is reported held in full exactly if it was marked since it was
last discarded, and otherwise its byte count is the largest partial holding stated since then (0 if
none); calls about other bins play no role. -/
theorem C10_cache_model_is_per_bin_map (ops : List CacheOp) (hops : ∀ op ∈ ops, op.Ok) (c i : Nat)
    (h : KeyOk c i) :
    let m := ops.foldl CacheModel.step {}
    (m.has c i = (sinceUnmark c i ops).contains none) ∧
    (m.has c i = false →
      m.receivedBytes c i = ((sinceUnmark c i ops).map fun o => o.getD 0).foldl max 0) := by
  have key : ∀ (ops : List CacheOp), (∀ op ∈ ops, op.Ok) → ∀ (m : CacheModel) (acc : List (Option Nat)),
      m.has c i = acc.contains none →
      (m.has c i = false → m.receivedBytes c i = (acc.map fun o => o.getD 0).foldl max 0) →
      ((ops.foldl CacheModel.step m).has c i = (ops.foldl (fun acc op =>
        match op with
        | .mark c' i' => if c' = c ∧ i' = i then acc ++ [none] else acc
        | .markPartial c' i' b => if c' = c ∧ i' = i then acc ++ [some b] else acc
        | .unmark c' i' => if c' = c ∧ i' = i then [] else acc) acc).contains none) ∧
      ((ops.foldl CacheModel.step m).has c i = false → (ops.foldl CacheModel.step m).receivedBytes c i =
        ((ops.foldl (fun acc op =>
        match op with
        | .mark c' i' => if c' = c ∧ i' = i then acc ++ [none] else acc
        | .markPartial c' i' b => if c' = c ∧ i' = i then acc ++ [some b] else acc
        | .unmark c' i' => if c' = c ∧ i' = i then [] else acc) acc).map fun o => o.getD 0).foldl max 0) := by
    intro ops
    induction ops with
    | nil => intro _ m acc h1 h2; exact ⟨h1, h2⟩
    | cons op ops ih =>
      intro ho m acc h1 h2
      simp only [List.foldl_cons]
      have hop := ho op (by simp)
      apply ih (fun o h => ho o (by simp [h]))
      · cases op with
        | mark c' i' =>
          simp only [CacheModel.step]
          rw [(mark_obs m hop h).1, h1]
          split
          · rename_i he; simp [he]
          · rename_i he; rw [decide_eq_false he]; simp
        | markPartial c' i' b =>
          simp only [CacheModel.step]
          rw [(markPartial_obs m b hop h).1, h1]
          split
          · simp
          · rfl
        | unmark c' i' =>
          simp only [CacheModel.step]
          rw [(unmark_obs m hop h).1, h1]
          split
          · rename_i he; simp [he]
          · rename_i he; rw [decide_eq_false he]; simp
      · cases op with
        | mark c' i' =>
          simp only [CacheModel.step]
          rw [(mark_obs m hop h).1, (mark_obs m hop h).2]
          intro hf
          simp only [Bool.or_eq_false_iff, decide_eq_false_iff_not] at hf
          rw [if_neg hf.2]
          exact h2 hf.1
        | markPartial c' i' b =>
          simp only [CacheModel.step]
          rw [(markPartial_obs m b hop h).1, (markPartial_obs m b hop h).2]
          intro hf
          by_cases he : c' = c ∧ i' = i
          · rw [if_pos ⟨he.1, he.2, hf⟩, if_pos he, h2 hf]
            simp [List.foldl_append]
          · rw [if_neg (fun x => he ⟨x.1, x.2.1⟩), if_neg he, h2 hf]
        | unmark c' i' =>
          simp only [CacheModel.step]
          rw [(unmark_obs m hop h).1, (unmark_obs m hop h).2]
          intro hf
          by_cases he : c' = c ∧ i' = i
          · rw [if_pos he, if_pos he]; rfl
          · rw [if_neg he, if_neg he]
            rw [decide_eq_false he] at hf
            exact h2 (by simpa using hf)
  exact key ops hops {} [] (by rfl) (by intro; rfl)

example : (∀ op ∈ [CacheOp.mark 0 5, .markPartial 6 0 100, .unmark 0 5, .markPartial 0 5 9, .markPartial 0 5 4],
    op.Ok) ∧ sinceUnmark 0 5 [CacheOp.mark 0 5, .markPartial 6 0 100, .unmark 0 5, .markPartial 0 5 9,
      .markPartial 0 5 4] = [some 9, some 4] := by
  constructor
  · intro op h
    simp at h
    rcases h with rfl | rfl | rfl | rfl | rfl <;> (unfold CacheOp.Ok KeyOk; decide)
  · rfl

/-- Disagreement (C10 for ids of 2^56 and above): the packed key merges such a bin with a bin of another
class, so marking precinct 2^57 declares tile-header 0 held. -/
theorem C10_large_ids_collide :
    (({} : CacheModel).mark 0 (2 ^ 57)).has 2 0 = true := by decide +kernel

/-! ## C09 -/

/-- `es` lists the contents of the model's hash map, in some order. -/
def CacheModel.Entries (m : CacheModel) (es : List (Nat × CacheEntry)) : Prop :=
  (es.map Prod.fst).Nodup ∧ ∀ k e, m.bins k = some e ↔ (k, e) ∈ es

theorem groupStmts_cover (g : ClassGroup) {pfx : List Char} (hp : classPrefix g.cls = some pfx)
    (h6 : g.cls = 6 → (∀ i ∈ g.completeIds, i = 0) ∧ (∀ p ∈ g.partials, p.1 = 0)) (c i : Nat) :
    ((∃ s ∈ groupStmts g, s.Covers c i ∧ s.pb = none) ↔ g.cls = c ∧ i ∈ g.completeIds) ∧
    (∀ v, (∃ s ∈ groupStmts g, s.Covers c i ∧ s.pb = some v) ↔ g.cls = c ∧ (i, v) ∈ g.partials) := by
  unfold groupStmts
  simp only [hp]
  by_cases h : g.cls = kMsgClassMainHeader
  · obtain ⟨z1, z2⟩ := h6 h
    simp only [h, if_true]
    constructor
    · constructor
      · rintro ⟨s, hs, hc, hpb⟩
        simp only [List.mem_append, List.mem_map] at hs
        rcases hs with hs | ⟨p, -, rfl⟩
        · split at hs
          · simp at hs
          · rename_i hne
            simp at hs; subst hs
            obtain ⟨c1, c2, c3⟩ := hc
            simp at c1 c2 c3
            subst c1; subst c3
            refine ⟨rfl, ?_⟩
            cases hl : g.completeIds with
            | nil => simp [hl] at hne
            | cons x xs =>
              have := z1 x (by simp [hl])
              subst this; simp
        · simp at hpb
      · rintro ⟨rfl, hi⟩
        have := z1 i hi; subst this
        refine ⟨⟨6, 0, 1, false, none, false⟩, ?_, ⟨rfl, by simp, by simp⟩, rfl⟩
        rw [if_neg (by intro he; rw [List.isEmpty_iff] at he; simp [he] at hi)]
        simp
    · intro v
      constructor
      · rintro ⟨s, hs, hc, hpb⟩
        simp only [List.mem_append, List.mem_map] at hs
        rcases hs with hs | ⟨p, hpm, rfl⟩
        · split at hs
          · simp at hs
          · simp at hs; subst hs; simp at hpb
        · rw [List.mem_insertionSort] at hpm
          obtain ⟨c1, c2, c3⟩ := hc
          simp at c1 c2 c3 hpb
          subst c1; subst c3; subst hpb
          have := z2 p hpm
          refine ⟨rfl, ?_⟩
          rw [← this]; exact hpm
      · rintro ⟨rfl, hi⟩
        have := z2 _ hi
        simp at this; subst this
        refine ⟨⟨6, 0, 1, false, some v, false⟩, ?_, ⟨rfl, by simp, by simp⟩, rfl⟩
        simp only [List.mem_append, List.mem_map]
        exact Or.inr ⟨(0, v), (List.mem_insertionSort _).2 hi, rfl⟩
  · simp only [h, if_false]
    obtain ⟨r1, r2, r3⟩ := runs_spec (g.completeIds.insertionSort (· ≤ ·))
    constructor
    · constructor
      · rintro ⟨s, hs, hc, hpb⟩
        simp only [List.mem_append, List.mem_map] at hs
        rcases hs with ⟨r, hr, rfl⟩ | ⟨p, -, rfl⟩
        · obtain ⟨c1, c2, c3⟩ := hc
          simp only at c1 c2 c3
          have := (r2 r hr).1
          exact ⟨c1, (List.mem_insertionSort _).1 ((r1 i).1 ⟨r, hr, c2, by omega⟩)⟩
        · simp at hpb
      · rintro ⟨rfl, hi⟩
        obtain ⟨r, hr, h1, h2⟩ := (r1 i).2 ((List.mem_insertionSort _).2 hi)
        refine ⟨⟨g.cls, r.1, r.2 - r.1 + 1, false, none, true⟩, ?_, ⟨rfl, h1, by simp only; omega⟩, rfl⟩
        simp only [List.mem_append, List.mem_map]
        exact Or.inl ⟨r, hr, rfl⟩
    · intro v
      constructor
      · rintro ⟨s, hs, hc, hpb⟩
        simp only [List.mem_append, List.mem_map] at hs
        rcases hs with ⟨r, hr, rfl⟩ | ⟨p, hpm, rfl⟩
        · simp at hpb
        · rw [List.mem_insertionSort] at hpm
          obtain ⟨c1, c2, c3⟩ := hc
          simp only [Option.some.injEq] at c1 c2 c3 hpb
          have : i = p.1 := by omega
          subst this; subst hpb
          exact ⟨c1, hpm⟩
      · rintro ⟨rfl, hi⟩
        refine ⟨⟨g.cls, i, 1, false, some v, true⟩, ?_, ⟨rfl, by simp, by simp⟩, rfl⟩
        simp only [List.mem_append, List.mem_map]
        exact Or.inr ⟨(i, v), (List.mem_insertionSort _).2 hi, rfl⟩

theorem foldl_max_const (l : List Nat) (b a : Nat) (h : ∀ x ∈ l, x = b) (ha : a ≤ b) :
    l.foldl max a = if l = [] then a else b := by
  induction l generalizing a with
  | nil => simp
  | cons x xs ih =>
    have hx := h x (by simp)
    subst hx
    rw [List.foldl_cons, show max a x = x by omega, ih x (fun y hy => h y (by simp [hy])) (by omega)]
    simp

/-- What the parsed string says about a bin, in terms of the entries formatted. -/
theorem parse_format_obs (es : List (Nat × CacheEntry))
    (hk : ∀ p ∈ es, p.1 < 2 ^ 64 ∧ p.2.bytes < 2 ^ 64)
    (hmain : ∀ p ∈ es, keyCls p.1 = 6 → keyId p.1 = 0) (hlen : es.length ≤ 2 ^ 22) (c i : Nat) (h : KeyOk c i) :
    let m := CacheModel.parse (formatModel es)
    (m.has c i = true ↔ (classPrefix c).isSome = true ∧
      ∃ p ∈ es, p.2.complete = true ∧ keyCls p.1 = c ∧ keyId p.1 = i) ∧
    (m.has c i = false → ∀ b, (∀ p ∈ es, p.2.complete = false → 0 < p.2.bytes → keyCls p.1 = c →
        keyId p.1 = i → p.2.bytes = b) →
      m.receivedBytes c i = if (classPrefix c).isSome = true ∧
        ∃ p ∈ es, p.2.complete = false ∧ 0 < p.2.bytes ∧ keyCls p.1 = c ∧ keyId p.1 = i then b else 0) := by
  obtain ⟨b1, b2, b3⟩ := buildGroups_spec es
  have hid : ∀ k, keyId k < 2 ^ 56 := by
    intro k
    unfold keyId
    have e : (0x00FFFFFFFFFFFFFF : Nat) = 2 ^ 56 - 1 := by norm_num
    rw [e, Nat.and_two_pow_sub_one_eq_mod]; omega
  have hok : ∀ g ∈ buildGroups es, g.Ok := by
    intro g hg
    constructor
    · intro j hj
      obtain ⟨p, -, -, -, rfl⟩ := (b1 g.cls j).1 ⟨g, hg, rfl, hj⟩
      exact hid _
    · rintro ⟨j, v⟩ hj
      obtain ⟨p, hp, -, -, -, rfl, rfl⟩ := (b2 g.cls j v).1 ⟨g, hg, rfl, hj⟩
      exact ⟨hid _, (hk p hp).2⟩
  have hz : ∀ g ∈ buildGroups es, g.cls = 6 → (∀ i ∈ g.completeIds, i = 0) ∧ (∀ p ∈ g.partials, p.1 = 0) := by
    intro g hg h6
    constructor
    · intro j hj
      obtain ⟨p, hp, -, hc, rfl⟩ := (b1 g.cls j).1 ⟨g, hg, rfl, hj⟩
      exact hmain p hp (hc.trans h6)
    · rintro ⟨j, v⟩ hj
      obtain ⟨p, hp, -, -, hc, rfl, rfl⟩ := (b2 g.cls j v).1 ⟨g, hg, rfl, hj⟩
      exact hmain p hp (hc.trans h6)
  let gs := buildGroups es
  have hpt : ∀ gs : List ClassGroup, (∀ g ∈ gs, g.Ok) →
      (gs.flatMap groupTokens).map parseToken = (gs.flatMap groupStmts).map some ∧
      (((gs.flatMap groupStmts).filter (·.countsBudget)).map (·.count)).sum ≤ groupCount gs := by
    intro gs
    induction gs with
    | nil => intro _; simp [groupCount]
    | cons g gs ih =>
      intro hgs
      obtain ⟨q1, q2, q3, q4⟩ := groupTokens_parse g (hgs g (by simp))
      obtain ⟨r1, r2⟩ := ih (fun g hg => hgs g (by simp [hg]))
      simp only [List.flatMap_cons, List.map_append, q1, r1, List.filter_append, List.sum_append, true_and]
      simp only [groupCount, List.map_cons, List.sum_cons] at r2 ⊢
      omega
  obtain ⟨hparse, hsum⟩ := hpt gs hok
  have hgood : ∀ s ∈ gs.flatMap groupStmts, s.Good := by
    intro s hs
    obtain ⟨g, hg, hs⟩ := List.mem_flatMap.1 hs
    exact (groupTokens_parse g (hok g hg)).2.2.1 s hs
  have hcomma : ∀ t ∈ gs.flatMap groupTokens, ',' ∉ t := by
    intro t ht
    obtain ⟨g, hg, ht⟩ := List.mem_flatMap.1 ht
    exact (groupTokens_parse g (hok g hg)).2.1 t ht
  have hm : CacheModel.parse (formatModel es) = ({} : CacheModel).applyTokens kMaxModelBinOps (gs.flatMap groupTokens) := by
    unfold CacheModel.parse CacheModel.apply formatModel
    by_cases he : gs.flatMap groupTokens = []
    · rw [show (buildGroups es).flatMap groupTokens = [] from he]
      rfl
    · rw [splitCommas_join _ he hcomma]
  have hobs := applyTokens_obs (gs.flatMap groupTokens) (gs.flatMap groupStmts) hparse hgood {} kMaxModelBinOps
    (by unfold kMaxModelBinOps; exact Nat.le_trans hsum (Nat.le_trans b3 hlen)) h
  intro m
  have hm' : m = ({} : CacheModel).applyTokens kMaxModelBinOps (gs.flatMap groupTokens) := hm
  rw [← hm'] at hobs
  have hgne : ∀ g ∈ gs, ∀ s ∈ groupStmts g, ∃ pfx, classPrefix g.cls = some pfx := by
    intro g hg s hs
    unfold groupStmts at hs
    cases hp : classPrefix g.cls with
    | none => simp [hp] at hs
    | some pfx => exact ⟨pfx, rfl⟩
  have hC : (∃ s ∈ gs.flatMap groupStmts, s.Covers c i ∧ s.pb = none) ↔
      (classPrefix c).isSome = true ∧ CMem gs c i := by
    constructor
    · rintro ⟨s, hs, hcv⟩
      obtain ⟨g, hg, hs⟩ := List.mem_flatMap.1 hs
      obtain ⟨pfx, hp⟩ := hgne g hg s hs
      have := (groupStmts_cover g hp (hz g hg) c i).1.1 ⟨s, hs, hcv⟩
      exact ⟨by rw [← this.1, hp]; rfl, g, hg, this⟩
    · rintro ⟨hsome, g, hg, hgc⟩
      obtain ⟨pfx, hp⟩ := Option.isSome_iff_exists.1 hsome
      rw [← hgc.1] at hp
      obtain ⟨s, hs, hcv⟩ := (groupStmts_cover g hp (hz g hg) c i).1.2 hgc
      exact ⟨s, List.mem_flatMap.2 ⟨g, hg, hs⟩, hcv⟩
  have hP : ∀ v, (∃ s ∈ gs.flatMap groupStmts, s.Covers c i ∧ s.pb = some v) ↔
      (classPrefix c).isSome = true ∧ PMem gs c i v := by
    intro v
    constructor
    · rintro ⟨s, hs, hcv⟩
      obtain ⟨g, hg, hs⟩ := List.mem_flatMap.1 hs
      obtain ⟨pfx, hp⟩ := hgne g hg s hs
      have := ((groupStmts_cover g hp (hz g hg) c i).2 v).1 ⟨s, hs, hcv⟩
      exact ⟨by rw [← this.1, hp]; rfl, g, hg, this⟩
    · rintro ⟨hsome, g, hg, hgc⟩
      obtain ⟨pfx, hp⟩ := Option.isSome_iff_exists.1 hsome
      rw [← hgc.1] at hp
      obtain ⟨s, hs, hcv⟩ := ((groupStmts_cover g hp (hz g hg) c i).2 v).2 hgc
      exact ⟨s, List.mem_flatMap.2 ⟨g, hg, hs⟩, hcv⟩
  constructor
  · rw [hobs.1]
    have : ({} : CacheModel).has c i = false := rfl
    rw [this, Bool.false_or, List.any_eq_true]
    simp only [decide_eq_true_eq]
    rw [hC, b1 c i]
  · intro hf b hb
    rw [hobs.2 hf]
    have hr0 : ({} : CacheModel).receivedBytes c i = 0 := rfl
    rw [hr0]
    have hnone : ¬ ∃ s ∈ gs.flatMap groupStmts, s.Covers c i ∧ s.pb = none := by
      intro hex
      rw [hobs.1] at hf
      have : ({} : CacheModel).has c i = false := rfl
      rw [this, Bool.false_or] at hf
      rw [List.any_eq_false] at hf
      obtain ⟨s, hs, hcv⟩ := hex
      have := hf s hs
      simp at this
      exact this hcv.1 hcv.2
    have hall : ∀ x ∈ ((gs.flatMap groupStmts).filter fun s => s.Covers c i).map fun s => s.pb.getD 0, x = b := by
      intro x hx
      obtain ⟨s, hs, rfl⟩ := List.mem_map.1 hx
      rw [List.mem_filter] at hs
      have hcv : s.Covers c i := by simpa using hs.2
      cases hpb : s.pb with
      | none => exact absurd ⟨s, hs.1, hcv, hpb⟩ hnone
      | some v =>
        obtain ⟨-, hpm⟩ := (hP v).1 ⟨s, hs.1, hcv, hpb⟩
        obtain ⟨p, hp, p1, p2, p3, p4, p5⟩ := (b2 c i v).1 hpm
        simp only [Option.getD_some]
        rw [← p5]; exact hb p hp p1 p2 p3 p4
    rw [foldl_max_const _ b 0 hall (by omega)]
    by_cases hex : (classPrefix c).isSome = true ∧
        ∃ p ∈ es, p.2.complete = false ∧ 0 < p.2.bytes ∧ keyCls p.1 = c ∧ keyId p.1 = i
    · rw [if_pos hex, if_neg]
      obtain ⟨hs, p, hp, p1, p2, p3, p4⟩ := hex
      obtain ⟨s, hs, hcv, hpb⟩ := (hP p.2.bytes).2 ⟨hs, (b2 c i _).2 ⟨p, hp, p1, p2, p3, p4, rfl⟩⟩
      intro hnil
      have : p.2.bytes ∈ ((gs.flatMap groupStmts).filter fun s => s.Covers c i).map fun s => s.pb.getD 0 :=
        List.mem_map.2 ⟨s, List.mem_filter.2 ⟨hs, by simpa using hcv⟩, by rw [hpb]; rfl⟩
      rw [hnil] at this; simp at this
    · rw [if_neg hex, if_pos]
      by_contra hne
      obtain ⟨x, xs, hx⟩ := List.exists_cons_of_ne_nil hne
      obtain ⟨s, hs, -⟩ := List.mem_map.1 (show x ∈ ((gs.flatMap groupStmts).filter fun s => s.Covers c i).map
        fun s => s.pb.getD 0 by rw [hx]; simp)
      rw [List.mem_filter] at hs
      have hcv : s.Covers c i := by simpa using hs.2
      cases hpb : s.pb with
      | none => exact absurd ⟨s, hs.1, hcv, hpb⟩ hnone
      | some v =>
        obtain ⟨q1, hpm⟩ := (hP v).1 ⟨s, hs.1, hcv, hpb⟩
        obtain ⟨p, hp, p1, p2, p3, p4, p5⟩ := (b2 c i v).1 hpm
        exact hex ⟨q1, p, hp, p1, p2, p3, p4⟩

theorem key_at {k c i : Nat} (hk : k < 2 ^ 64) (h : KeyOk c i) :
    (keyCls k = c ∧ keyId k = i) ↔ k = cacheKey c i := by
  constructor
  · rintro ⟨rfl, rfl⟩; exact (cacheKey_of_split hk).2.symm
  · rintro rfl; exact cacheKey_split h

/-- C09.  The model string a client formats from its cache (in any hash-map iteration order), parsed by
the server, tells the server exactly what the client holds: for each precinct, tile-header, main-header
and metadata bin it is held in full for the server iff for the client, and otherwise the byte counts
agree. -/
theorem C09_model_string_roundtrip (m : CacheModel) (es : List (Nat × CacheEntry)) (hm : m.Entries es)
    (hk : ∀ p ∈ es, p.1 < 2 ^ 64 ∧ p.2.bytes < 2 ^ 64)
    (hmain : ∀ p ∈ es, keyCls p.1 = 6 → keyId p.1 = 0) (hlen : es.length ≤ 2 ^ 22)
    (c i : Nat) (hc : c = 0 ∨ c = 2 ∨ c = 6 ∨ c = 8) (hi : i < 2 ^ 56) :
    let m' := CacheModel.parse (formatModel es)
    m'.has c i = m.has c i ∧ (m.has c i = false → m'.receivedBytes c i = m.receivedBytes c i) := by
  have h : KeyOk c i := ⟨by omega, hi⟩
  have hpfx : (classPrefix c).isSome = true := by rcases hc with rfl | rfl | rfl | rfl <;> rfl
  intro m'
  obtain ⟨o1, o2⟩ := parse_format_obs es hk hmain hlen c i h
  have hhas : m'.has c i = m.has c i := by
    rw [Bool.eq_iff_iff, o1]
    constructor
    · rintro ⟨-, p, hp, p1, p2⟩
      have hkey := (key_at (hk p hp).1 h).1 p2
      have := (hm.2 p.1 p.2).2 hp
      rw [hkey] at this
      unfold CacheModel.has; rw [this]; exact p1
    · intro hh
      unfold CacheModel.has at hh
      split at hh
      · simp at hh
      · rename_i e he
        have hmem := (hm.2 _ _).1 he
        exact ⟨hpfx, _, hmem, hh, (key_at (hk _ hmem).1 h).2 rfl⟩
  refine ⟨hhas, fun hf => ?_⟩
  have hf' : m'.has c i = false := hhas.trans hf
  have := o2 hf' (m.receivedBytes c i) (by
    intro p hp p1 p2 p3 p4
    have hkey := (key_at (hk p hp).1 h).1 ⟨p3, p4⟩
    have := (hm.2 p.1 p.2).2 hp
    rw [hkey] at this
    unfold CacheModel.receivedBytes; rw [this])
  rw [show m'.receivedBytes c i = _ from this]
  split
  · rfl
  · rename_i hne
    unfold CacheModel.receivedBytes CacheModel.has at *
    cases he : m.bins (cacheKey c i) with
    | none => rfl
    | some e =>
      rw [he] at hf
      simp only at hf ⊢
      by_contra hb
      have hmem := (hm.2 _ _).1 he
      exact hne ⟨hpfx, _, hmem, hf, by simp only; omega, (key_at (hk _ hmem).1 h).2 rfl⟩

/-- C09.  Bins of classes the grammar has no descriptor for are simply not mentioned: the server treats them
as not held (so it re-sends; nothing is withheld). -/
theorem C09_other_classes_not_claimed (m : CacheModel) (es : List (Nat × CacheEntry)) (hm : m.Entries es)
    (hk : ∀ p ∈ es, p.1 < 2 ^ 64 ∧ p.2.bytes < 2 ^ 64)
    (hmain : ∀ p ∈ es, keyCls p.1 = 6 → keyId p.1 = 0) (hlen : es.length ≤ 2 ^ 22)
    (c i : Nat) (hc : c < 2 ^ 8) (hn : ¬ (c = 0 ∨ c = 2 ∨ c = 6 ∨ c = 8)) (hi : i < 2 ^ 56) :
    (CacheModel.parse (formatModel es)).has c i = false ∧
    (CacheModel.parse (formatModel es)).receivedBytes c i = 0 := by
  have h : KeyOk c i := ⟨hc, hi⟩
  have hpfx : ¬ (classPrefix c).isSome = true := by
    intro hs
    obtain ⟨pfx, hp⟩ := Option.isSome_iff_exists.1 hs
    rcases classPrefix_cases hp with ⟨h, -⟩ | ⟨h, -⟩ | ⟨h, -⟩ | ⟨h, -⟩ <;> omega
  obtain ⟨o1, o2⟩ := parse_format_obs es hk hmain hlen c i h
  have hf : (CacheModel.parse (formatModel es)).has c i = false := by
    cases hx : (CacheModel.parse (formatModel es)).has c i
    · rfl
    · exact absurd (o1.1 hx).1 hpfx
  refine ⟨hf, ?_⟩
  have := o2 hf (m.receivedBytes c i) (by
    intro p hp p1 p2 p3 p4
    have hkey := (key_at (hk p hp).1 h).1 ⟨p3, p4⟩
    have := (hm.2 p.1 p.2).2 hp
    rw [hkey] at this
    unfold CacheModel.receivedBytes; rw [this])
  rw [this, if_neg (fun x => hpfx x.1)]

/-- Every model reachable through the API has such an entry list, no longer than the number of calls. -/
theorem C09_entries_exist (ops : List CacheOp) :
    ∃ es, (ops.foldl CacheModel.step {}).Entries es ∧ es.length ≤ ops.length := by
  have key : ∀ (ops : List CacheOp) (m : CacheModel) (es : List (Nat × CacheEntry)), m.Entries es →
      ∃ es', (ops.foldl CacheModel.step m).Entries es' ∧ es'.length ≤ es.length + ops.length := by
    intro ops
    induction ops with
    | nil => intro m es h; exact ⟨es, h, by simp⟩
    | cons op ops ih =>
      intro m es h
      have hput : ∀ k e, ∃ es', (m.put k e).Entries es' ∧ es'.length ≤ es.length + 1 := by
        intro k e
        refine ⟨(k, e) :: es.filter (fun p => p.1 ≠ k), ⟨?_, ?_⟩, ?_⟩
        · simp only [List.map_cons, List.nodup_cons]
          constructor
          · simp
          · exact h.1.sublist (List.filter_sublist.map _)
        · intro k' e'
          simp only [CacheModel.put, List.mem_cons, Prod.mk.injEq, List.mem_filter]
          by_cases hk : k' = k
          · subst hk; simp [eq_comm]
          · simp [hk, h.2]
        · simp only [List.length_cons]
          have := List.length_filter_le (fun p : Nat × CacheEntry => decide (p.1 ≠ k)) es
          omega
      have hstep : ∃ es', (m.step op).Entries es' ∧ es'.length ≤ es.length + 1 := by
        cases op with
        | mark c i => exact hput _ _
        | markPartial c i b =>
          simp only [CacheModel.step, CacheModel.markPartial]
          split
          · exact hput _ _
          · exact hput _ _
        | unmark c i =>
          refine ⟨es.filter (fun p => p.1 ≠ cacheKey c i), ⟨?_, ?_⟩, ?_⟩
          · exact h.1.sublist (List.filter_sublist.map _)
          · intro k' e'
            simp only [CacheModel.step, CacheModel.unmark, List.mem_filter]
            by_cases hk : k' = cacheKey c i
            · subst hk; simp
            · simp [hk, h.2]
          · have := List.length_filter_le (fun p : Nat × CacheEntry => decide (p.1 ≠ cacheKey c i)) es
            omega
      obtain ⟨es1, h1, l1⟩ := hstep
      obtain ⟨es2, h2, l2⟩ := ih _ es1 h1
      exact ⟨es2, h2, by simp only [List.length_cons]; omega⟩
  obtain ⟨es, h1, h2⟩ := key ops {} [] ⟨by simp, by simp⟩
  exact ⟨es, h1, by simpa using h2⟩

/-- A cache with complete runs, an isolated complete bin, a partial bin and the main header: the hypotheses of
`C09_model_string_roundtrip` hold for it and the string is the expected one. -/
example : let es : List (Nat × CacheEntry) := [(cacheKey 0 7, ⟨0, true⟩), (cacheKey 6 0, ⟨0, true⟩),
      (cacheKey 0 3, ⟨0, true⟩), (cacheKey 0 9, ⟨120, false⟩), (cacheKey 0 4, ⟨0, true⟩)]
    (es.map Prod.fst).Nodup ∧ (∀ p ∈ es, p.1 < 2 ^ 64 ∧ p.2.bytes < 2 ^ 64) ∧
    (∀ p ∈ es, keyCls p.1 = 6 → keyId p.1 = 0) ∧
    formatModel es = "P3-4,P7,P9:120,Hm".toList := by
  decide +kernel

/-- Disagreement: a single statement naming id 2^64-1 (also spelled "P-1") makes the id loop wrap around
and run until the operation budget is spent, so the server records the first four million precincts as held by
the client and would withhold them. -/
theorem C09_id_overflow_floods_model (j : Nat) (hj : j < 2 ^ 22 - 1) :
    (CacheModel.parse "P-1".toList).has 0 j = true := by
  have hs : splitCommas "P-1".toList = ["P-1".toList] := by decide
  have hp : parseToken "P-1".toList = some ⟨0, 2 ^ 64 - 1, 2 ^ 64, false, none, true⟩ := by rfl
  unfold CacheModel.parse CacheModel.apply
  rw [hs]
  have hx : ({} : CacheModel).exec ⟨0, 2 ^ 64 - 1, 2 ^ 64, false, none, true⟩ kMaxModelBinOps =
      (({} : CacheModel).rangeOps false none 0 (2 ^ 64 - 1) ((2 ^ 22 - 1) + 1), none) := by
    unfold CacheModel.exec
    rw [if_pos rfl, if_neg (by decide)]
    rfl
  simp only [CacheModel.applyTokens, hp, hx]
  rw [CacheModel.rangeOps]
  have hr := rangeOps_obs (2 ^ 22 - 1) ((({} : CacheModel).binOp false none 0 (2 ^ 64 - 1))) none (c := 0)
    (i := (2 ^ 64 - 1 + 1) % 2 ^ 64) (c' := 0) (i' := j) (by norm_num) (by norm_num) ⟨by norm_num, by omega⟩
  rw [hr.1]
  have : (2 ^ 64 - 1 + 1) % 2 ^ 64 = 0 := by norm_num
  rw [this]
  simp only [Nat.zero_le, true_and, Nat.zero_add, and_true, decide_eq_true hj, Bool.or_true]

end Verif.Jpip
