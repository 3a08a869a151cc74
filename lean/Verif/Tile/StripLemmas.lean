import Verif.Tile.Strip
import Verif.Tile.PropsGeometry
/-
Lemmas about the strip-wise decoding of a subband.
-/
namespace Verif.Tile.Strip

variable {α : Type}

/-- A code-block that exists. -/
def Valid (B : Band α) (i : Id) : Prop := i.1 < B.np ∧ i.2.1 < (B.pb i.1).ncy ∧ i.2.2 < (B.pb i.1).ncx

/-- What the tile geometry guarantees of a subband. -/
structure Sound (B : Band α) : Prop where
  cbh : 0 < B.cbh
  rows : ∀ i, Valid B i → (B.get i).ys = (max (B.pb i.1).ys.1 (B.cbh * (i.2.1 + (B.pb i.1).ys.1 / B.cbh)),
    min (B.pb i.1).ys.2 (B.cbh * (i.2.1 + 1 + (B.pb i.1).ys.1 / B.cbh)))
  some : ∀ i, Valid B i → (B.get i).ys.1 < (B.get i).ys.2
  inY : ∀ i, Valid B i → B.ys.1 ≤ (B.pb i.1).ys.1 ∧ (B.pb i.1).ys.2 ≤ B.ys.2
  inX : ∀ i, Valid B i → B.xs.1 ≤ (B.get i).xs.1 ∧ (B.get i).xs.2 ≤ B.xs.1 + B.stride
  disj : ∀ i j, Valid B i → Valid B j → ∀ y x, Has (B.get i).ys y → Has (B.get i).xs x →
    Has (B.get j).ys y → Has (B.get j).xs x → i = j

/-! ### The blocks of a strip -/

theorem mem_blkRows (P : PBand α) (y0 y1 : Nat) : ∀ L : List Nat,
    L.Pairwise (fun a b => (P.blk a 0).ys.1 ≤ (P.blk b 0).ys.1) → ∀ r,
    r ∈ blkRows P y0 y1 L ↔ r ∈ L ∧ y0 < (P.blk r 0).ys.2 ∧ (P.blk r 0).ys.1 < y1 := by
  intro L
  induction L with
  | nil => intro _ r; simp [blkRows]
  | cons a L ih =>
    intro hp r
    rw [List.pairwise_cons] at hp
    have ih := ih hp.2 r
    unfold blkRows
    split
    · rename_i h
      rw [ih, List.mem_cons]
      constructor
      · rintro ⟨h1, h2⟩; exact ⟨.inr h1, h2⟩
      · rintro ⟨rfl | h1, h2⟩
        · omega
        · exact ⟨h1, h2⟩
    · split
      · rename_i h1 h2
        simp only [List.not_mem_nil, List.mem_cons, false_iff]
        rintro ⟨rfl | h3, h4, h5⟩
        · omega
        · have := hp.1 r h3; omega
      · rename_i h1 h2
        rw [List.mem_cons, ih, List.mem_cons]
        constructor
        · rintro (rfl | ⟨h3, h4⟩)
          · exact ⟨.inl rfl, by omega, by omega⟩
          · exact ⟨.inr h3, h4⟩
        · rintro ⟨rfl | h3, h4⟩
          · exact .inl rfl
          · exact .inr ⟨h3, h4⟩

theorem blkRows_sublist (P : PBand α) (y0 y1 : Nat) : ∀ L : List Nat, (blkRows P y0 y1 L).Sublist L := by
  intro L
  induction L with
  | nil => exact List.Sublist.refl _
  | cons a L ih =>
    unfold blkRows
    split
    · exact ih.cons _
    · split
      · exact List.nil_sublist _
      · exact ih.cons_cons _

theorem get_row (B : Band α) (h : Sound B) {p r c : Nat} (hv : Valid B (p, r, c)) :
    (B.get (p, r, c)).ys = ((B.pb p).blk r 0).ys := by
  have h0 : Valid B (p, r, 0) := ⟨hv.1, hv.2.1, by have := hv.2.2; simp only at this ⊢; omega⟩
  rw [h.rows _ hv]
  exact (h.rows _ h0).symm

theorem rows_mono (c : Nat) {r r' a : Nat} (h : r ≤ r') : max a (c * (r + a / c)) ≤ max a (c * (r' + a / c)) := by
  have : c * (r + a / c) ≤ c * (r' + a / c) := Nat.mul_le_mul_left _ (by omega)
  omega

theorem mem_precIds (B : Band α) (h : Sound B) {y0 y1 p : Nat} (hp : p < B.np) (i : Id) :
    i ∈ precIds B y0 y1 p ↔ i.1 = p ∧ Valid B i ∧ y0 < (B.get i).ys.2 ∧ (B.get i).ys.1 < y1 := by
  obtain ⟨p', r, c⟩ := i
  unfold precIds
  dsimp only
  by_cases hn : (B.pb p).ncx = 0 ∨ (B.pb p).ncy = 0
  · rw [if_pos hn]
    simp only [List.not_mem_nil, false_iff]
    rintro ⟨rfl, hv, -⟩
    have h1 := hv.2.1; have h2 := hv.2.2
    simp only at h1 h2
    omega
  rw [if_neg hn]
  have hn : 0 < (B.pb p).ncx ∧ 0 < (B.pb p).ncy := by omega
  by_cases ho : (B.pb p).ys.2 ≤ y0 ∨ y1 ≤ (B.pb p).ys.1
  · rw [if_pos ho]
    simp only [List.not_mem_nil, false_iff]
    rintro ⟨rfl, hv, h1, h2⟩
    have e := h.rows _ hv
    rw [e] at h1 h2
    simp only at h1 h2
    omega
  rw [if_neg ho]
  have v0 : ∀ r', r' < (B.pb p).ncy → Valid B (p, r', 0) := fun r' hr => ⟨hp, hr, hn.1⟩
  have hpw : (List.range' (firstRow (B.pb p) B.cbh y0) ((B.pb p).ncy - firstRow (B.pb p) B.cbh y0)).Pairwise
      (fun a b => ((B.pb p).blk a 0).ys.1 ≤ ((B.pb p).blk b 0).ys.1) := by
    refine List.Pairwise.imp_of_mem ?_ (List.pairwise_lt_range' (s := firstRow (B.pb p) B.cbh y0) (n := (B.pb p).ncy - firstRow (B.pb p) B.cbh y0) (step := 1))
    intro a b ha hb hab
    rw [List.mem_range'_1] at ha hb
    have e1 := h.rows _ (v0 a (by omega))
    have e2 := h.rows _ (v0 b (by omega))
    unfold Band.get at e1 e2
    simp only at e1 e2
    rw [e1, e2]
    exact rows_mono _ (by omega)
  rw [List.mem_flatMap]
  constructor
  · rintro ⟨r', hr', hm⟩
    rw [List.mem_map] at hm
    obtain ⟨c', hc', e⟩ := hm
    rw [List.mem_range] at hc'
    simp only [Prod.mk.injEq] at e
    obtain ⟨rfl, rfl, rfl⟩ := e
    rw [mem_blkRows _ _ _ _ hpw, List.mem_range'_1] at hr'
    have hv : Valid B (p, r', c') := ⟨hp, by show r' < (B.pb p).ncy; omega, hc'⟩
    refine ⟨rfl, hv, ?_⟩
    rw [get_row B h hv]
    exact hr'.2
  · rintro ⟨rfl, hv, h1⟩
    rw [get_row B h hv] at h1
    refine ⟨r, ?_, List.mem_map.2 ⟨c, List.mem_range.2 hv.2.2, rfl⟩⟩
    rw [mem_blkRows _ _ _ _ hpw, List.mem_range'_1]
    have hr : r < (B.pb p').ncy := hv.2.1
    refine ⟨⟨?_, by omega⟩, h1⟩
    unfold firstRow
    split
    · rename_i hy
      by_contra hlt
      rw [Nat.not_le] at hlt
      have e := h.rows _ (v0 r hr)
      unfold Band.get at e
      simp only at e
      rw [e] at h1
      simp only at h1
      have h3 : (r + 1) * B.cbh ≤ y0 - (B.pb p').ys.1 := by
        have := (Nat.le_div_iff_mul_le h.cbh).1 (Nat.succ_le_of_lt hlt)
        exact this
      have h4 := Nat.mul_div_le (B.pb p').ys.1 B.cbh
      have h5 : B.cbh * (r + 1 + (B.pb p').ys.1 / B.cbh) = (r + 1) * B.cbh + B.cbh * ((B.pb p').ys.1 / B.cbh) := by ring
      omega
    · exact Nat.zero_le _

/-- The blocks decoded for a strip are exactly those that meet it. -/
theorem mem_stripIds (B : Band α) (h : Sound B) {y0 y1 : Nat} (i : Id) :
    i ∈ stripIds B y0 y1 ↔ Valid B i ∧ y0 < (B.get i).ys.2 ∧ (B.get i).ys.1 < y1 := by
  unfold stripIds
  rw [List.mem_flatMap]
  constructor
  · rintro ⟨p, hp, hi⟩
    rw [List.mem_range] at hp
    exact ((mem_precIds B h hp i).1 hi).2
  · rintro ⟨hv, h1⟩
    exact ⟨i.1, List.mem_range.2 hv.1, (mem_precIds B h hv.1 i).2 ⟨rfl, hv, h1⟩⟩

theorem nodup_precIds (B : Band α) (y0 y1 p : Nat) : (precIds B y0 y1 p).Nodup := by
  unfold precIds
  dsimp only
  split
  · exact List.nodup_nil
  · split
    · exact List.nodup_nil
    · rw [List.nodup_flatMap]
      constructor
      · intro r _
        exact List.Nodup.map (fun a b e => by simpa using e) List.nodup_range
      · refine List.Pairwise.imp_of_mem ?_ ((blkRows_sublist _ _ _ _).nodup List.nodup_range')
        intro a b _ _ hab x hx hy
        rw [List.mem_map] at hx hy
        obtain ⟨c, _, rfl⟩ := hx
        obtain ⟨d, _, e⟩ := hy
        simp only [Prod.mk.injEq] at e
        exact hab e.2.1.symm

theorem nodup_stripIds (B : Band α) (y0 y1 : Nat) : (stripIds B y0 y1).Nodup := by
  unfold stripIds
  rw [List.nodup_flatMap]
  refine ⟨fun p _ => nodup_precIds B y0 y1 p, ?_⟩
  refine List.Pairwise.imp_of_mem ?_ List.nodup_range
  intro a b _ _ hab x hx hy
  have key : ∀ q, x ∈ precIds B y0 y1 q → x.1 = q := by
    intro q hq
    unfold precIds at hq
    dsimp only at hq
    split at hq
    · simp at hq
    · split at hq
      · simp at hq
      · rw [List.mem_flatMap] at hq
        obtain ⟨r, _, hm⟩ := hq
        rw [List.mem_map] at hm
        obtain ⟨c, _, rfl⟩ := hm
        rfl
  exact hab ((key a hx).symm.trans (key b hy))

/-! ### Decoding a strip -/

/-- The sample of a code-block at a point of the subband; zero when the block has no data. -/
def Blk.sample [Zero α] (b : Blk α) (y x : Nat) : α :=
  match b.data with
  | none => 0
  | some v => v (y - b.ys.1) (x - b.xs.1)

/-- A buffer holds, from row `y0` on, the samples of a code-block. -/
def Holds [Zero α] (B : Band α) (y0 : Nat) (m : Ring α) (i : Id) : Prop :=
  ∀ y x, Has (B.get i).ys y → Has (B.get i).xs x → m (y - y0) (x - B.xs.1) = (B.get i).sample y x

/-- A point in the rectangle of a block. -/
def InBlk (B : Band α) (i : Id) (y x : Nat) : Prop := Has (B.get i).ys y ∧ Has (B.get i).xs x

theorem doBlock_ok [Zero α] (B : Band α) (h : Sound B) {y0 : Nat} {m : Ring α} {dn : List Id} {i : Id} (hv : Valid B i)
    (h1 : y0 ≤ (B.get i).ys.1) (h2 : (B.get i).ys.2 ≤ y0 + (B.cbh + 1)) (hd : i ∉ dn) :
    ∃ m' dn', doBlock B y0 (m, dn) i = .ok (m', dn') ∧ Holds B y0 m' i ∧
      (∀ y x, y0 ≤ y → B.xs.1 ≤ x → ¬ InBlk B i y x → m' (y - y0) (x - B.xs.1) = m (y - y0) (x - B.xs.1)) ∧
      (∀ j, j ∈ dn' → j = i ∨ j ∈ dn) := by
  have hx := h.inX i hv
  have key : ∀ v : Nat → Nat → α, putBlock B y0 (B.get i) v m = .ok (fun r c =>
      if (B.get i).ys.1 ≤ y0 + r ∧ y0 + r < (B.get i).ys.2 ∧ (B.get i).xs.1 ≤ B.xs.1 + c ∧ B.xs.1 + c < (B.get i).xs.2
      then v (y0 + r - (B.get i).ys.1) (B.xs.1 + c - (B.get i).xs.1) else m r c) := by
    intro v
    unfold putBlock
    rw [if_neg (by omega)]
  have hin : ∀ (v : Nat → Nat → α) y x, Has (B.get i).ys y → Has (B.get i).xs x →
      (if (B.get i).ys.1 ≤ y0 + (y - y0) ∧ y0 + (y - y0) < (B.get i).ys.2 ∧ (B.get i).xs.1 ≤ B.xs.1 + (x - B.xs.1) ∧
        B.xs.1 + (x - B.xs.1) < (B.get i).xs.2
      then v (y0 + (y - y0) - (B.get i).ys.1) (B.xs.1 + (x - B.xs.1) - (B.get i).xs.1) else m (y - y0) (x - B.xs.1)) =
      v (y - (B.get i).ys.1) (x - (B.get i).xs.1) := by
    intro v y x hy hx'
    have a1 := hy.1; have a2 := hy.2; have a3 := hx'.1; have a4 := hx'.2
    have e1 : y0 + (y - y0) = y := by omega
    have e2 : B.xs.1 + (x - B.xs.1) = x := by omega
    rw [e1, e2, if_pos ⟨a1, a2, a3, a4⟩]
  have hout : ∀ (v : Nat → Nat → α) y x, y0 ≤ y → B.xs.1 ≤ x → ¬ InBlk B i y x →
      (if (B.get i).ys.1 ≤ y0 + (y - y0) ∧ y0 + (y - y0) < (B.get i).ys.2 ∧ (B.get i).xs.1 ≤ B.xs.1 + (x - B.xs.1) ∧
        B.xs.1 + (x - B.xs.1) < (B.get i).xs.2
      then v (y0 + (y - y0) - (B.get i).ys.1) (B.xs.1 + (x - B.xs.1) - (B.get i).xs.1) else m (y - y0) (x - B.xs.1)) =
      m (y - y0) (x - B.xs.1) := by
    intro v y x hy hx' hn
    have e1 : y0 + (y - y0) = y := by omega
    have e2 : B.xs.1 + (x - B.xs.1) = x := by omega
    rw [e1, e2, if_neg]
    rintro ⟨a, b, c, d⟩
    exact hn ⟨⟨a, b⟩, ⟨c, d⟩⟩
  unfold doBlock
  cases hdat : (B.get i).data with
  | none =>
    dsimp only
    rw [key]
    refine ⟨_, _, rfl, ?_, ?_, fun j hj => .inr hj⟩
    · intro y x hy hx'
      dsimp only
      rw [hin (fun _ _ => 0) y x hy hx']
      unfold Blk.sample; rw [hdat]
    · intro y x hy hx' hn
      exact hout (fun _ _ => 0) y x hy hx' hn
  | some v =>
    dsimp only
    rw [if_neg hd, key]
    refine ⟨_, _, rfl, ?_, ?_, fun j hj => List.mem_cons.1 hj⟩
    · intro y x hy hx'
      dsimp only
      rw [hin v y x hy hx']
      unfold Blk.sample; rw [hdat]
    · intro y x hy hx' hn
      exact hout v y x hy hx' hn

theorem fold_ok [Zero α] (B : Band α) (h : Sound B) {y0 : Nat} : ∀ (L : List Id) (m : Ring α) (dn : List Id), L.Nodup →
    (∀ i, i ∈ L → Valid B i ∧ y0 ≤ (B.get i).ys.1 ∧ (B.get i).ys.2 ≤ y0 + (B.cbh + 1) ∧ i ∉ dn) →
    ∃ m' dn', L.foldlM (doBlock B y0) (m, dn) = .ok (m', dn') ∧ (∀ i, i ∈ L → Holds B y0 m' i) ∧
      (∀ y x, y0 ≤ y → B.xs.1 ≤ x → (∀ i, i ∈ L → ¬ InBlk B i y x) →
        m' (y - y0) (x - B.xs.1) = m (y - y0) (x - B.xs.1)) ∧
      (∀ j, j ∈ dn' → j ∈ L ∨ j ∈ dn) := by
  intro L
  induction L with
  | nil =>
    intro m dn _ _
    exact ⟨m, dn, rfl, by simp, fun _ _ _ _ _ => rfl, fun j hj => .inr hj⟩
  | cons i L ih =>
    intro m dn hnd hall
    rw [List.nodup_cons] at hnd
    obtain ⟨hv, a1, a2, a3⟩ := hall i (List.mem_cons_self ..)
    obtain ⟨m1, dn1, e1, p1, q1, r1⟩ := doBlock_ok B h (m := m) hv a1 a2 a3
    obtain ⟨m2, dn2, e2, p2, q2, r2⟩ := ih m1 dn1 hnd.2 (by
      intro j hj
      obtain ⟨b1, b2, b3, b4⟩ := hall j (List.mem_cons_of_mem _ hj)
      refine ⟨b1, b2, b3, ?_⟩
      intro hc
      rcases r1 j hc with rfl | hc
      · exact hnd.1 hj
      · exact b4 hc)
    refine ⟨m2, dn2, ?_, ?_, ?_, ?_⟩
    · rw [List.foldlM_cons, e1]
      exact e2
    · intro j hj
      rcases List.mem_cons.1 hj with rfl | hj
      · intro y x hy hx
        have hxx := h.inX _ hv
        have b1 := hy.1; have b2 := hx.1
        rw [q2 y x (by omega) (by omega), p1 y x hy hx]
        intro k hk hin
        have := h.disj _ k hv (hall k (List.mem_cons_of_mem _ hk)).1 y x hy hx hin.1 hin.2
        subst this
        exact hnd.1 hk
      · exact p2 j hj
    · intro y x hy hx hn
      rw [q2 y x hy hx (fun k hk => hn k (List.mem_cons_of_mem _ hk)),
        q1 y x hy hx (hn i (List.mem_cons_self ..))]
    · intro j hj
      rcases r2 j hj with hj | hj
      · exact .inl (List.mem_cons_of_mem _ hj)
      · rcases r1 j hj with rfl | hj
        · exact .inl (List.mem_cons_self ..)
        · exact .inr hj

/-- No code-block has rows in two strips. -/
def NoStraddle (B : Band α) : Prop :=
  ∀ i, Valid B i → ∀ k, ¬ ((B.get i).ys.1 < B.ys.1 + k * B.cbh ∧ B.ys.1 + k * B.cbh < (B.get i).ys.2)

/-- Strip number `k`. -/
def strip (B : Band α) (k : Nat) : Span := (B.ys.1 + k * B.cbh, min (B.ys.1 + k * B.cbh + B.cbh) B.ys.2)

/-- The blocks that begin before a row. -/
def Before (B : Band α) (dn : List Id) (y : Nat) : Prop := ∀ i, i ∈ dn → Valid B i ∧ (B.get i).ys.1 < y

theorem ys_in (B : Band α) (h : Sound B) {i : Id} (hv : Valid B i) : B.ys.1 ≤ (B.get i).ys.1 ∧ (B.get i).ys.2 ≤ B.ys.2 := by
  have e := h.rows i hv
  have := h.inY i hv
  rw [e]
  simp only
  omega

theorem core_ok [Zero α] (B : Band α) (h : Sound B) (hs : NoStraddle B) {sched : List Id → List Id}
    (hsc : ∀ l, (sched l).Perm l) (k : Nat) (m : Ring α) (dn : List Id)
    (hd : Before B dn (strip B k).1) :
    ∃ m' dn', core B sched (strip B k).1 (strip B k).2 (m, dn) = .ok (m', dn') ∧
      (∀ i, Valid B i → (∃ y, Has (B.get i).ys y ∧ Has (strip B k) y) → Holds B (strip B k).1 m' i) ∧
      Before B dn' (strip B k).2 := by
  have hmem : ∀ i, i ∈ sched (stripIds B (strip B k).1 (strip B k).2) ↔ _ :=
    fun i => (hsc _).mem_iff.trans (mem_stripIds B h i)
  obtain ⟨m', dn', e, p, -, q⟩ := fold_ok B h (y0 := (strip B k).1) (sched (stripIds B (strip B k).1 (strip B k).2)) m dn
    ((hsc _).nodup_iff.2 (nodup_stripIds B _ _)) (by
      intro i hi
      obtain ⟨hv, h1, h2⟩ := (hmem i).1 hi
      have s1 := hs i hv k
      have s2 := hs i hv (k + 1)
      have e : (k + 1) * B.cbh = k * B.cbh + B.cbh := by ring
      have := ys_in B h hv
      have hso := h.some i hv
      unfold strip at h1 h2 hd ⊢
      simp only at h1 h2 hd ⊢
      refine ⟨hv, by omega, ?_, ?_⟩
      · rw [e] at s2; omega
      · intro hc
        have := (hd i hc).2
        omega)
  refine ⟨m', dn', e, ?_, ?_⟩
  · intro i hv ⟨y, hy, hk⟩
    refine p i ((hmem i).2 ⟨hv, ?_, ?_⟩)
    · have := hy.2; have := hk.1; omega
    · have := hy.1; have := hk.2; omega
  · intro i hi
    rcases q i hi with hi | hi
    · obtain ⟨hv, _, h2⟩ := (hmem i).1 hi
      exact ⟨hv, h2⟩
    · obtain ⟨hv, h2⟩ := hd i hi
      refine ⟨hv, ?_⟩
      have := ys_in B h hv
      have := h.some i hv
      unfold strip at h2 ⊢
      simp only at h2 ⊢
      omega

/-! ### Asking for rows -/

/-- Every block of a strip is in the buffer. -/
def Full [Zero α] (B : Band α) (m : Ring α) (k : Nat) : Prop :=
  ∀ i, Valid B i → (∃ y, Has (B.get i).ys y ∧ Has (strip B k) y) → Holds B (strip B k).1 m i

/-- The state while strip `k` is being read. -/
structure Inv [Zero α] (B : Band α) (s : St α) (k : Nat) : Prop where
  cur : s.strip = some (strip B k)
  ring : Full B s.ring k
  ahead : (s.prefetch = none ∧ Before B s.done (strip B k).2) ∨
    (s.prefetch = some (strip B (k + 1)) ∧ (strip B k).2 = (strip B (k + 1)).1 ∧ Full B s.pre (k + 1) ∧
      Before B s.done (strip B (k + 1)).2)

theorem strip_next (B : Band α) (k : Nat) (h : (strip B k).2 < B.ys.2) : (strip B k).2 = (strip B (k + 1)).1 := by
  unfold strip at h ⊢
  simp only at h ⊢
  have e : (k + 1) * B.cbh = k * B.cbh + B.cbh := by ring
  omega

theorem trigger_ok [Zero α] (B : Band α) (h : Sound B) (hs : NoStraddle B) {sched : List Id → List Id}
    (hsc : ∀ l, (sched l).Perm l) (pool : Bool) {k : Nat} {s : St α} (h1 : s.strip = some (strip B k))
    (h2 : Full B s.ring k) (h3 : s.prefetch = none) (h4 : Before B s.done (strip B k).2) :
    ∃ s', trigger B sched pool (strip B k).2 s = .ok s' ∧ Inv B s' k := by
  unfold trigger
  by_cases hc : s.prefetch ≠ none ∨ B.ys.2 ≤ (strip B k).2 ∨ pool = false
  · rw [if_pos hc]
    exact ⟨s, rfl, h1, h2, .inl ⟨h3, h4⟩⟩
  · rw [if_neg hc]
    have hn : (strip B k).2 < B.ys.2 := by
      by_contra hge; exact hc (.inr (.inl (by omega)))
    have e := strip_next B k hn
    have e2 : min ((strip B k).2 + B.cbh) B.ys.2 = (strip B (k + 1)).2 := by rw [e]; rfl
    obtain ⟨m', dn', ec, p, q⟩ := core_ok B h hs hsc (k + 1) s.pre s.done (by rw [← e]; exact h4)
    dsimp only
    rw [e2, e, ec]
    exact ⟨_, rfl, h1, h2, .inr ⟨rfl, e, p, q⟩⟩

theorem stripOf (B : Band α) (h : Sound B) {r : Nat} (hr : Has B.ys r) :
    Has (strip B ((r - B.ys.1) / B.cbh)) r := by
  have a := hr.1; have b := hr.2
  have h1 := Nat.div_mul_le_self (r - B.ys.1) B.cbh
  have h2 := Nat.lt_div_mul_add h.cbh (a := r - B.ys.1)
  unfold strip Has
  simp only
  omega

theorem strip_unique (B : Band α) {r k k' : Nat} (h1 : Has (strip B k) r) (h2 : Has (strip B k') r) : k = k' := by
  unfold strip Has at h1 h2
  simp only at h1 h2
  by_contra hne
  rcases Nat.lt_or_gt_of_ne hne with h | h
  · have : (k + 1) * B.cbh ≤ k' * B.cbh := Nat.mul_le_mul_right _ h
    rw [Nat.add_mul, Nat.one_mul] at this
    omega
  · have : (k' + 1) * B.cbh ≤ k * B.cbh := Nat.mul_le_mul_right _ h
    rw [Nat.add_mul, Nat.one_mul] at this
    omega

theorem decodeStrip_ok [Zero α] (B : Band α) (h : Sound B) (hs : NoStraddle B) {sched : List Id → List Id}
    (hsc : ∀ l, (sched l).Perm l) (pool : Bool) {r : Nat} {s : St α} {k : Nat} (hk : Has (strip B k) r)
    (h3 : s.prefetch = none) (h4 : Before B s.done (strip B k).1) :
    ∃ s', decodeStrip B sched pool r s = .ok s' ∧ Inv B s' k := by
  have hr : Has B.ys r := by
    unfold strip Has at hk; unfold Has; simp only at hk; omega
  have ek : (r - B.ys.1) / B.cbh = k := strip_unique B (stripOf B h hr) hk
  unfold decodeStrip
  dsimp only
  rw [ek]
  obtain ⟨m', dn', ec, p, q⟩ := core_ok B h hs hsc k s.ring s.done h4
  have ec' : core B sched (B.ys.1 + k * B.cbh) (min (B.ys.1 + k * B.cbh + B.cbh) B.ys.2) (s.ring, s.done) =
    .ok (m', dn') := ec
  rw [ec']
  exact trigger_ok B h hs hsc pool (s := { s with ring := m', done := dn', strip := some (strip B k) }) rfl p h3 q

/-- The row that was asked for. -/
def RowOk [Zero α] (B : Band α) (r : Nat) (v : Nat → α) : Prop :=
  ∀ i, Valid B i → ∀ x, Has (B.get i).ys r → Has (B.get i).xs x → v (x - B.xs.1) = (B.get i).sample r x

theorem inSpan_iff (r : Nat) (s : Span) : inSpan r (some s) = true ↔ Has s r := by
  unfold inSpan Has; simp

theorem row_done [Zero α] (B : Band α) {s : St α} {k r : Nat} (h : Inv B s k) (hr : Has (strip B k) r) :
    (match s.strip with
      | none => .error .oob
      | some t => if t.1 ≤ r ∧ r - t.1 < B.cbh + 1 then .ok (s.ring (r - t.1), s) else .error .oob :
        Except Bad ((Nat → α) × St α)) = .ok (s.ring (r - (strip B k).1), s) ∧ RowOk B r (s.ring (r - (strip B k).1)) := by
  constructor
  · rw [h.cur]
    dsimp only
    rw [if_pos]
    unfold strip Has at hr
    unfold strip
    simp only at hr ⊢
    omega
  · intro i hv x hy hx
    exact h.ring i hv ⟨r, hy, hr⟩ r x hy hx

theorem rowPtr_first [Zero α] (B : Band α) (h : Sound B) (hs : NoStraddle B) {sched : List Id → List Id}
    (hsc : ∀ l, (sched l).Perm l) (pool : Bool) (m m' : Ring α) {r : Nat} (hr : Has B.ys r) :
    ∃ v s' k, rowPtr B sched pool r (St.init m m') = .ok (v, s') ∧ RowOk B r v ∧ Inv B s' k ∧ Has (strip B k) r := by
  have hk := stripOf B h hr
  obtain ⟨s', e, hi⟩ := decodeStrip_ok B h hs hsc pool (s := St.init m m') hk rfl (by intro i hi; simp [St.init] at hi)
  have ⟨e2, ok⟩ := row_done B hi hk
  refine ⟨_, s', _, ?_, ok, hi, hk⟩
  unfold rowPtr
  rw [if_neg (by simp [St.init, inSpan]), if_neg (by simp [St.init, inSpan])]
  have e' : decodeStrip B sched pool r { (St.init m m') with prefetch := none } = .ok s' := e
  rw [e']
  exact e2

theorem rowPtr_next [Zero α] (B : Band α) (h : Sound B) (hs : NoStraddle B) {sched : List Id → List Id}
    (hsc : ∀ l, (sched l).Perm l) (pool : Bool) {s : St α} {k r r' : Nat} (hi : Inv B s k) (hr : Has (strip B k) r)
    (hn : r' = r ∨ r' = r + 1) (hr' : Has B.ys r') :
    ∃ v s' k', rowPtr B sched pool r' s = .ok (v, s') ∧ RowOk B r' v ∧ Inv B s' k' ∧ Has (strip B k') r' := by
  by_cases hin : Has (strip B k) r'
  · have ⟨e2, ok⟩ := row_done B hi hin
    refine ⟨_, s, k, ?_, ok, hi, hin⟩
    unfold rowPtr
    rw [if_pos (by rw [hi.cur, inSpan_iff]; exact hin)]
    exact e2
  · have hend : r' = (strip B k).2 := by
      have a := hr.1; have b := hr.2
      unfold Has at hin
      omega
    have hlt : (strip B k).2 < B.ys.2 := by rw [← hend]; exact hr'.2
    have en := strip_next B k hlt
    have hin' : Has (strip B (k + 1)) r' := by
      have hc := h.cbh
      have e : (strip B (k + 1)).2 = min ((strip B (k + 1)).1 + B.cbh) B.ys.2 := rfl
      unfold Has
      rw [e]
      omega
    have hno : inSpan r' s.strip = false := by
      cases hb : inSpan r' s.strip with
      | false => rfl
      | true => rw [hi.cur, inSpan_iff] at hb; exact absurd hb hin
    rcases hi.ahead with ⟨a1, a2⟩ | ⟨a1, a2, a3, a4⟩
    · obtain ⟨s', e, hi'⟩ := decodeStrip_ok B h hs hsc pool (s := { s with prefetch := none }) hin' rfl (by
        rw [← en]; exact a2)
      have ⟨e2, ok⟩ := row_done B hi' hin'
      refine ⟨_, s', _, ?_, ok, hi', hin'⟩
      unfold rowPtr
      rw [hno, a1]
      simp only [inSpan, Bool.false_eq_true, if_false]
      rw [e]
      exact e2
    · obtain ⟨s', e, hi'⟩ := trigger_ok B h hs hsc pool
        (s := { s with ring := s.pre, pre := s.ring, strip := s.prefetch, prefetch := none }) (k := k + 1) a1 a3 rfl a4
      have ⟨e2, ok⟩ := row_done B hi' hin'
      refine ⟨_, s', _, ?_, ok, hi', hin'⟩
      unfold rowPtr
      rw [hno, if_neg (by simp), if_pos (by rw [a1, inSpan_iff]; exact hin')]
      have e' : (s.prefetch.getD (0, 0)).2 = (strip B (k + 1)).2 := by rw [a1]; rfl
      rw [e', e]
      exact e2

theorem readRows_from [Zero α] (B : Band α) (h : Sound B) (hs : NoStraddle B) {sched : List Id → List Id}
    (hsc : ∀ l, (sched l).Perm l) (pool : Bool) : ∀ (rs : List Nat) (s : St α) (k r : Nat), Inv B s k →
    Has (strip B k) r → (r :: rs).IsChain (fun a b => b = a ∨ b = a + 1) → (∀ q, q ∈ rs → Has B.ys q) →
    ∃ vs, readRows B sched pool rs s = .ok vs ∧ List.Forall₂ (RowOk B) rs vs := by
  intro rs
  induction rs with
  | nil => intro s k r _ _ _ _; exact ⟨[], rfl, .nil⟩
  | cons q rs ih =>
    intro s k r hi hr hc hall
    rw [List.isChain_cons_cons] at hc
    obtain ⟨v, s', k', e, ok, hi', hr'⟩ := rowPtr_next B h hs hsc pool hi hr hc.1 (hall q (List.mem_cons_self ..))
    obtain ⟨vs, e2, oks⟩ := ih s' k' q hi' hr' hc.2 (fun x hx => hall x (List.mem_cons_of_mem _ hx))
    refine ⟨v :: vs, ?_, .cons ok oks⟩
    unfold readRows
    rw [e]
    show (do let t ← readRows B sched pool rs s'; .ok (v :: t)) = _
    rw [e2]
    rfl

theorem readRows_ok [Zero α] (B : Band α) (h : Sound B) (hs : NoStraddle B) {sched : List Id → List Id}
    (hsc : ∀ l, (sched l).Perm l) (pool : Bool) (m m' : Ring α) (rs : List Nat)
    (hc : rs.IsChain (fun a b => b = a ∨ b = a + 1)) (hall : ∀ q, q ∈ rs → Has B.ys q) :
    ∃ vs, readRows B sched pool rs (St.init m m') = .ok vs ∧ List.Forall₂ (RowOk B) rs vs := by
  cases rs with
  | nil => exact ⟨[], rfl, .nil⟩
  | cons q rs =>
    obtain ⟨v, s', k, e, ok, hi, hr⟩ := rowPtr_first B h hs hsc pool m m' (hall q (List.mem_cons_self ..))
    obtain ⟨vs, e2, oks⟩ := readRows_from B h hs hsc pool rs s' k q hi hr hc
      (fun x hx => hall x (List.mem_cons_of_mem _ hx))
    refine ⟨v :: vs, ?_, .cons ok oks⟩
    unfold readRows
    rw [e]
    show (do let t ← readRows B sched pool rs s'; .ok (v :: t)) = _
    rw [e2]
    rfl

/-! ### A code-block that has rows in two strips -/

theorem fold_bad [Zero α] (B : Band α) {y0 : Nat} {i : Id} (hi : (B.get i).ys.1 < y0) : ∀ (L : List Id) (s t : Ring α × List Id),
    i ∈ L → L.foldlM (doBlock B y0) s ≠ .ok t := by
  intro L
  induction L with
  | nil => intro s t h; simp at h
  | cons j L ih =>
    intro s t h e
    rw [List.foldlM_cons] at e
    rcases List.mem_cons.1 h with rfl | h
    · have hp : ∀ v, putBlock B y0 (B.get i) v s.1 = .error .oob := by
        intro v; unfold putBlock; rw [if_pos (.inl hi)]
      have : ∃ b, doBlock B y0 s i = .error b := by
        unfold doBlock
        cases (B.get i).data with
        | none => dsimp only; rw [hp]; exact ⟨_, rfl⟩
        | some v =>
          dsimp only
          split
          · exact ⟨_, rfl⟩
          · rw [hp]; exact ⟨_, rfl⟩
      obtain ⟨b, eb⟩ := this
      rw [eb] at e
      cases e
    · cases hd : doBlock B y0 s j with
      | error b => rw [hd] at e; cases e
      | ok u => rw [hd] at e; exact ih u t h e

theorem core_bad [Zero α] (B : Band α) (h : Sound B) {sched : List Id → List Id} (hsc : ∀ l, (sched l).Perm l) {k : Nat}
    {i : Id} (hv : Valid B i) (h1 : (B.get i).ys.1 < (strip B k).1) (h2 : (strip B k).1 < (B.get i).ys.2)
    (s t : Ring α × List Id) : core B sched (strip B k).1 (strip B k).2 s ≠ .ok t := by
  refine fold_bad B h1 _ s t ((hsc _).mem_iff.2 ((mem_stripIds B h i).2 ⟨hv, h2, ?_⟩))
  have := ys_in B h hv
  have e : (strip B k).2 = min ((strip B k).1 + B.cbh) B.ys.2 := rfl
  have := h.cbh
  rw [e]
  omega

/-- The strips in the buffers are not strip `k0`. -/
def Avoids (B : Band α) (k0 : Nat) (o : Option Span) : Prop := o = none ∨ ∃ k, k ≠ k0 ∧ o = some (strip B k)

theorem trigger_avoids [Zero α] (B : Band α) {sched : List Id → List Id} (pool : Bool) {k0 k : Nat}
    (hbad : ∀ s t, core (α := α) B sched (strip B k0).1 (strip B k0).2 s ≠ .ok t) {s s' : St α}
    (h2 : Avoids B k0 s.prefetch)
    (e : trigger B sched pool (strip B k).2 s = .ok s') : s'.strip = s.strip ∧ Avoids B k0 s'.prefetch := by
  unfold trigger at e
  by_cases hc : s.prefetch ≠ none ∨ B.ys.2 ≤ (strip B k).2 ∨ pool = false
  · rw [if_pos hc] at e
    cases e
    exact ⟨rfl, h2⟩
  · rw [if_neg hc] at e
    have hn : (strip B k).2 < B.ys.2 := by
      by_contra hge; exact hc (.inr (.inl (by omega)))
    have en := strip_next B k hn
    have e2 : min ((strip B k).2 + B.cbh) B.ys.2 = (strip B (k + 1)).2 := by rw [en]; rfl
    dsimp only at e
    rw [e2, en] at e
    cases hcore : core B sched (strip B (k + 1)).1 (strip B (k + 1)).2 (s.pre, s.done) with
    | error b => rw [hcore] at e; cases e
    | ok t =>
      rw [hcore] at e
      cases e
      refine ⟨rfl, .inr ⟨k + 1, ?_, rfl⟩⟩
      intro hk
      rw [hk] at hcore
      exact hbad _ _ hcore

theorem rowPtr_avoids [Zero α] (B : Band α) (h : Sound B) {sched : List Id → List Id} (pool : Bool) {k0 r : Nat}
    (hbad : ∀ s t, core (α := α) B sched (strip B k0).1 (strip B k0).2 s ≠ .ok t) {s s' : St α} {v : Nat → α}
    (hr : Has B.ys r) (h1 : Avoids B k0 s.strip) (h2 : Avoids B k0 s.prefetch)
    (e : rowPtr B sched pool r s = .ok (v, s')) :
    Avoids B k0 s'.strip ∧ Avoids B k0 s'.prefetch ∧ ¬ Has (strip B k0) r := by
  have fin : ∀ u : St α, (match u.strip with
      | none => .error .oob
      | some t => if t.1 ≤ r ∧ r - t.1 < B.cbh + 1 then .ok (u.ring (r - t.1), u) else .error .oob :
        Except Bad ((Nat → α) × St α)) = .ok (v, s') → s' = u := by
    intro u hu
    split at hu
    · cases hu
    · split at hu
      · cases hu; rfl
      · cases hu
  have ne : ∀ {k}, k ≠ k0 → Has (strip B k) r → ¬ Has (strip B k0) r := fun hk h1 h2 => hk (strip_unique B h1 h2)
  unfold rowPtr at e
  by_cases c1 : inSpan r s.strip = true
  · rw [if_pos c1] at e
    have := fin s e
    subst this
    rcases h1 with h1 | ⟨k, hk, h1⟩
    · rw [h1] at c1; simp [inSpan] at c1
    · refine ⟨.inr ⟨k, hk, h1⟩, h2, ne hk ?_⟩
      rw [h1, inSpan_iff] at c1
      exact c1
  · rw [if_neg c1] at e
    by_cases c2 : inSpan r s.prefetch = true
    · rw [if_pos c2] at e
      rcases h2 with h2 | ⟨k, hk, h2⟩
      · rw [h2] at c2; simp [inSpan] at c2
      · rw [h2] at e
        simp only [Option.getD_some] at e
        cases ht : trigger B sched pool (strip B k).2
            { s with ring := s.pre, pre := s.ring, strip := some (strip B k), prefetch := none } with
        | error b => rw [ht] at e; cases e
        | ok u =>
          rw [ht] at e
          have := fin u e
          subst this
          have := trigger_avoids B pool hbad (.inl rfl) ht
          refine ⟨.inr ⟨k, hk, this.1⟩, this.2, ne hk ?_⟩
          rw [h2, inSpan_iff] at c2
          exact c2
    · rw [if_neg c2] at e
      cases hd : decodeStrip B sched pool r { s with prefetch := none } with
      | error b => rw [hd] at e; cases e
      | ok u =>
        rw [hd] at e
        have := fin u e
        subst this
        unfold decodeStrip at hd
        dsimp only at hd
        have hk := stripOf B h hr
        generalize (r - B.ys.1) / B.cbh = k at hd hk
        cases hcore : core B sched (strip B k).1 (strip B k).2 (s.ring, s.done) with
        | error b =>
          have hcore' : core B sched (B.ys.1 + k * B.cbh) (min (B.ys.1 + k * B.cbh + B.cbh) B.ys.2) (s.ring, s.done) =
            .error b := hcore
          rw [hcore'] at hd; cases hd
        | ok t =>
          have hcore' : core B sched (B.ys.1 + k * B.cbh) (min (B.ys.1 + k * B.cbh + B.cbh) B.ys.2) (s.ring, s.done) =
            .ok t := hcore
          rw [hcore'] at hd
          have hne : k ≠ k0 := by
            intro hk0; rw [hk0] at hcore; exact hbad _ _ hcore
          have := trigger_avoids B pool (k := k) hbad
            (s := { s with prefetch := none, ring := t.1, done := t.2, strip := some (strip B k) }) (.inl rfl) hd
          exact ⟨.inr ⟨k, hne, this.1⟩, this.2, ne hne hk⟩

theorem readRows_bad [Zero α] (B : Band α) (h : Sound B) {sched : List Id → List Id} (pool : Bool) {k0 : Nat}
    (hbad : ∀ s t, core (α := α) B sched (strip B k0).1 (strip B k0).2 s ≠ .ok t) : ∀ (rs : List Nat) (s : St α) vs,
    (∀ q, q ∈ rs → Has B.ys q) → Avoids B k0 s.strip → Avoids B k0 s.prefetch →
    readRows B sched pool rs s = .ok vs → ∀ q, q ∈ rs → ¬ Has (strip B k0) q := by
  intro rs
  induction rs with
  | nil => intro s vs _ _ _ _ q hq; simp at hq
  | cons r rs ih =>
    intro s vs hall h1 h2 e q hq
    unfold readRows at e
    cases hp : rowPtr B sched pool r s with
    | error b => rw [hp] at e; cases e
    | ok t =>
      obtain ⟨v, s'⟩ := t
      rw [hp] at e
      have e : (do let t ← readRows B sched pool rs s'; .ok (v :: t)) = Except.ok vs := e
      have ⟨a1, a2, a3⟩ := rowPtr_avoids B h pool hbad (hall r (List.mem_cons_self ..)) h1 h2 hp
      cases hrest : readRows B sched pool rs s' with
      | error b => rw [hrest] at e; cases e
      | ok t =>
        rcases List.mem_cons.1 hq with rfl | hq
        · exact a3
        · exact ih s' t (fun x hx => hall x (List.mem_cons_of_mem _ hx)) a1 a2 hrest q hq

end Verif.Tile.Strip
