import Verif.Jpip.PropsWalker
/-
C38, continued: for any byte string, what the walker reports was reached by stepping over whole marker segments.
-/
namespace Verif.Jpip

/-- From `i` to `j` over marker segments none of which is one of `stop`: a delimiter takes two bytes, any other marker
its two bytes and the length that follows, which is at least 2 and stays inside the buffer.  (What the two bytes mean is
fixed only for markers, 0xFF00 and above.) -/
inductive Skip (d : List UInt8) (stop : List Nat) : Nat → Nat → Prop
  | refl (i : Nat) : Skip d stop i i
  | bare {i j m : Nat} (hm : u16At d i = some m) (hs : m ∉ stop) (hd : 0xFF00 ≤ m → Delimiter m) (h : Skip d stop (i + 2) j) :
      Skip d stop i j
  | seg {i j m l : Nat} (hm : u16At d i = some m) (hs : m ∉ stop) (hd : 0xFF00 ≤ m → ¬ Delimiter m) (hl : u16At d (i + 2) = some l)
      (h2 : 2 ≤ l) (hin : i + 2 + l ≤ d.length) (h : Skip d stop (i + 2 + l) j) : Skip d stop i j

/-- A reported tile-part is one: an SOT segment with the reported numbers, whole header segments, SOD; it ends where Psot
says, but not after the buffer. -/
structure TilePartLoc.Real (d : List UInt8) (tp : TilePartLoc) : Prop where
  sot : u16At d tp.sot = some 0xFF90
  len : u16At d (tp.sot + 2) = some 10
  tile : u16At d (tp.sot + 4) = some tp.tile
  psot : ∃ n, u32At d (tp.sot + 6) = some n ∧ tp.bodyEnd = if n = 0 then d.length else min (tp.sot + n) d.length
  idx : d[tp.sot + 10]?.map UInt8.toNat = some tp.idx
  cnt : d[tp.sot + 11]?.map UInt8.toNat = some tp.cnt
  hdr : Skip d [0xFF93] (tp.sot + 12) tp.headerEnd
  sod : u16At d tp.headerEnd = some 0xFF93
  body : tp.bodyOff = tp.headerEnd + 2

/-- The tile-parts between the offsets `i` and `j`: each is reached from the end of the one before. -/
inductive PartsFrom (d : List UInt8) : Nat → List TilePartLoc → Nat → Prop
  | nil (i : Nat) : PartsFrom d i [] i
  | cons {i j : Nat} {tp : TilePartLoc} {tps : List TilePartLoc} (hs : Skip d [0xFFD9, 0xFF90] i tp.sot) (hp : tp.Real d)
      (h : PartsFrom d tp.bodyEnd tps j) : PartsFrom d i (tp :: tps) j

theorem Skip.trans {d : List UInt8} {stop : List Nat} {i j k : Nat} (h : Skip d stop i j) (h' : Skip d stop j k) :
    Skip d stop i k := by
  induction h with
  | refl i => exact h'
  | bare a b c _ ih => exact .bare a b c (ih h')
  | seg a b c e f g _ ih => exact .seg a b c e f g (ih h')

theorem PartsFrom.snoc {d : List UInt8} {i j : Nat} {tps : List TilePartLoc} (h : PartsFrom d i tps j) (tp : TilePartLoc)
    (hs : Skip d [0xFFD9, 0xFF90] j tp.sot) (hp : tp.Real d) : PartsFrom d i (tps ++ [tp]) tp.bodyEnd := by
  induction h with
  | nil i => exact .cons hs hp (.nil _)
  | cons a b _ ih => exact .cons a b (ih hs)

theorem noLength_cases (m : Nat) (h : m < 65536) :
    (noLength m = true → 0xFF00 ≤ m → Delimiter m) ∧ (noLength m = false → 0xFF00 ≤ m → ¬ Delimiter m) := by
  constructor
  · exact fun a b => (noLength_iff m b h).1 a
  · intro a b c
    rw [(noLength_iff m b h).2 c] at a
    simp at a

theorem u16At_lt (d : List UInt8) (i m : Nat) (h : u16At d i = some m) : m < 65536 := by
  unfold u16At at h
  cases ha : d[i]? with
  | none => rw [ha] at h; simp at h
  | some a =>
    cases hb : d[i + 1]? with
    | none => rw [ha, hb] at h; simp at h
    | some b =>
      rw [ha, hb] at h
      simp only [Option.bind_eq_bind, Option.bind_some, Option.pure_def, Option.some.injEq] at h
      have := a.toNat_lt
      have := b.toNat_lt
      omega

theorem findSod_skip (d : List UInt8) (f j k : Nat) (h : findSod d f j = some (some k)) :
    Skip d [0xFF93] j k ∧ u16At d k = some 0xFF93 := by
  induction f generalizing j with
  | zero => simp [findSod] at h
  | succ f ih =>
    rw [findSod] at h
    by_cases h1 : j + 2 ≤ d.length
    swap
    · rw [if_neg h1] at h; simp at h
    rw [if_pos h1] at h
    obtain ⟨m, hm⟩ := u16At_some d j h1
    have hlt := u16At_lt d j m hm
    simp only [hm, Option.bind_eq_bind, Option.bind_some] at h
    by_cases h2 : m = mSOD
    · rw [if_pos h2] at h
      cases h
      exact ⟨.refl _, by rw [hm, h2]; rfl⟩
    rw [if_neg h2] at h
    have hst : m ∉ [0xFF93] := by simpa [mSOD] using h2
    by_cases h3 : noLength m = true
    · rw [if_pos h3] at h
      obtain ⟨a, b⟩ := ih _ h
      exact ⟨.bare hm hst ((noLength_cases m hlt).1 h3) a, b⟩
    rw [if_neg h3] at h
    by_cases h4 : d.length < j + 4
    · rw [if_pos h4] at h; simp at h
    rw [if_neg h4] at h
    obtain ⟨l, hl⟩ := u16At_some d (j + 2) (by omega)
    simp only [hl, Option.bind_some] at h
    by_cases h5 : l < 2 ∨ d.length < j + 2 + l
    · rw [if_pos h5] at h; simp at h
    rw [if_neg h5] at h
    rw [not_or] at h5
    obtain ⟨a, b⟩ := ih _ h
    exact ⟨.seg hm hst ((noLength_cases m hlt).2 (by simpa using h3)) hl (by omega) (by omega) a, b⟩

/-- What is known of a layout when the walk stands at `i`. -/
structure WalkInv (d : List UInt8) (seen : Bool) (lay : Layout) (k : Nat) : Prop where
  parts : PartsFrom d 2 lay.parts k
  first : ∀ tp, lay.parts.head? = some tp → lay.mainEnd = tp.sot
  unseen : seen = false → lay.parts = []
  started : seen = true → lay.parts ≠ []

theorem walkLoop_sound (d : List UInt8) (f i k : Nat) (seen : Bool) (lay r : Layout) (hI : WalkInv d seen lay k)
    (hk : Skip d [0xFFD9, 0xFF90] k i) (he : lay.eoc = d.length) (h : walkLoop d f i seen lay = some r) :
    ∃ k, PartsFrom d 2 r.parts k ∧ (∀ tp, r.parts.head? = some tp → r.mainEnd = tp.sot) ∧
      (r.eoc = d.length ∨ Skip d [0xFFD9, 0xFF90] k r.eoc ∧ u16At d r.eoc = some 0xFFD9) := by
  induction f generalizing i k seen lay with
  | zero => simp [walkLoop] at h
  | succ f ih =>
    have stop : ∀ lay', lay'.parts = lay.parts → (∀ tp, lay'.parts.head? = some tp → lay'.mainEnd = tp.sot) → lay'.eoc = lay.eoc →
        some lay' = some r → ∃ k, PartsFrom d 2 r.parts k ∧ (∀ tp, r.parts.head? = some tp → r.mainEnd = tp.sot) ∧
        (r.eoc = d.length ∨ Skip d [0xFFD9, 0xFF90] k r.eoc ∧ u16At d r.eoc = some 0xFFD9) := by
      intro lay' e1 e2 e3 e
      cases e
      exact ⟨k, e1 ▸ hI.parts, e2, .inl (e3.trans he)⟩
    have stop0 := stop lay rfl hI.first rfl
    rw [walkLoop] at h
    by_cases h1 : i + 2 ≤ d.length
    swap
    · rw [if_neg h1] at h; exact stop0 h
    rw [if_pos h1] at h
    obtain ⟨m, hm⟩ := u16At_some d i h1
    have hlt := u16At_lt d i m hm
    simp only [hm, Option.bind_eq_bind, Option.bind_some] at h
    by_cases h2 : m = mEOC
    · rw [if_pos h2] at h
      cases h
      exact ⟨k, hI.parts, hI.first, .inr ⟨hk, by rw [hm, h2]; rfl⟩⟩
    rw [if_neg h2] at h
    by_cases h3 : m = mSOT
    · rw [if_pos h3] at h
      by_cases h4 : d.length < i + 12
      · rw [if_pos h4] at h; exact stop0 h
      rw [if_neg h4] at h
      obtain ⟨lsot, e1⟩ := u16At_some d (i + 2) (by omega)
      simp only [e1, Option.bind_some] at h
      by_cases h5 : lsot = 10
      swap
      · rw [if_pos h5] at h; exact stop0 h
      rw [if_neg (by simpa using h5)] at h
      obtain ⟨isot, e2⟩ := u16At_some d (i + 4) (by omega)
      obtain ⟨psot, e3⟩ := u32At_some d (i + 6) (by omega)
      have g1 := List.getElem?_eq_getElem (l := d) (i := i + 10) (by omega)
      have g2 := List.getElem?_eq_getElem (l := d) (i := i + 11) (by omega)
      simp only [e2, e3, g1, g2, Option.bind_some] at h
      obtain ⟨o, e4, -⟩ := findSod_some d (d.length + 1) (i + 12) (by omega) (by omega)
      rw [e4] at h
      simp only [Option.bind_some] at h
      have hlay : ∃ lay', lay' = (if seen = true then lay else { lay with mainEnd := i }) ∧ lay'.parts = lay.parts ∧
          lay'.eoc = lay.eoc ∧ (∀ tp, lay'.parts.head? = some tp → lay'.mainEnd = tp.sot) ∧
          (lay.parts = [] → lay'.mainEnd = i) := by
        refine ⟨_, rfl, ?_⟩
        cases seen with
        | false =>
          have hp := hI.unseen rfl
          refine ⟨rfl, rfl, ?_, fun _ => rfl⟩
          intro tp htp
          simp [hp] at htp
        | true => exact ⟨rfl, rfl, hI.first, fun hp => absurd hp (hI.started rfl)⟩
      obtain ⟨lay', rfl', p1, p2, p3, p4⟩ := hlay
      rw [← rfl'] at h
      clear rfl'
      cases o with
      | none => exact stop lay' p1 p3 p2 h
      | some j =>
        simp only at h
        obtain ⟨s1, s2⟩ := findSod_skip d _ _ _ e4
        have hend : (if psot ≠ 0 then min (i + psot) d.length else d.length) = if psot = 0 then d.length else min (i + psot) d.length := by
          by_cases h0 : psot = 0 <;> simp [h0]
        rw [hend] at h
        have real : TilePartLoc.Real d ⟨i, j, j + 2, if psot = 0 then d.length else min (i + psot) d.length, isot,
            d[i + 10].toNat, d[i + 11].toNat⟩ :=
          ⟨by rw [hm, h3]; rfl, by rw [e1, h5], e2, ⟨psot, e3, rfl⟩, by simp [g1], by simp [g2], s1, s2, rfl⟩
        refine ih _ _ true _ ⟨?_, ?_, by simp, by simp⟩ (.refl _) (by simp only; rw [p2, he]) h
        · simp only
          rw [p1]
          exact hI.parts.snoc _ hk real
        · intro tp htp
          simp only [p1] at htp ⊢
          cases hc : lay.parts with
          | nil =>
            rw [hc] at htp
            simp only [List.nil_append, List.head?_cons, Option.some.injEq] at htp
            rw [← htp, p4 hc]
          | cons a as =>
            rw [hc] at htp
            exact p3 tp (by rw [p1, hc]; exact htp)
    rw [if_neg h3] at h
    have hst : m ∉ [0xFFD9, 0xFF90] := by
      simp only [List.mem_cons, List.not_mem_nil, or_false, not_or]
      exact ⟨h2, h3⟩
    by_cases h4 : noLength m = true
    · rw [if_pos h4] at h
      exact ih _ k seen lay hI (hk.trans (.bare hm hst ((noLength_cases m hlt).1 h4) (.refl _))) he h
    rw [if_neg h4] at h
    by_cases h5 : d.length < i + 4
    · rw [if_pos h5] at h; exact stop0 h
    rw [if_neg h5] at h
    obtain ⟨l, hl⟩ := u16At_some d (i + 2) (by omega)
    simp only [hl, Option.bind_some] at h
    by_cases h6 : l < 2 ∨ d.length < i + 2 + l
    · rw [if_pos h6] at h; exact stop0 h
    rw [if_neg h6] at h
    rw [not_or] at h6
    exact ih _ k seen lay hI (hk.trans (.seg hm hst ((noLength_cases m hlt).2 (by simpa using h4)) hl (by omega) (by omega) (.refl _))) he h

/-- C38: for any byte string that the walker accepts, the reported tile-parts are real ones, in the order of the
codestream, each reached from the end of the one before (the first from just behind SOC) by stepping over whole marker
segments; the main header ends where the first of them begins; the reported end is the first EOC reached after them, or
the end of the buffer. -/
theorem C38_walk_sound (d : List UInt8) (lay : Layout) (h : walk d = some (some lay)) :
    u16At d 0 = some 0xFF4F ∧ ∃ k, PartsFrom d 2 lay.parts k ∧ (∀ tp, lay.parts.head? = some tp → lay.mainEnd = tp.sot) ∧
      (lay.eoc = d.length ∨ Skip d [0xFFD9, 0xFF90] k lay.eoc ∧ u16At d lay.eoc = some 0xFFD9) := by
  unfold walk at h
  by_cases h1 : d.length < 2
  · rw [if_pos h1] at h; simp at h
  rw [if_neg h1] at h
  obtain ⟨m, hm⟩ := u16At_some d 0 (by omega)
  simp only [hm, Option.bind_eq_bind, Option.bind_some] at h
  by_cases h2 : m = mSOC
  swap
  · rw [if_pos h2] at h; simp at h
  rw [if_neg (by simpa using h2)] at h
  refine ⟨by rw [hm, h2]; rfl, ?_⟩
  cases hw : walkLoop d (d.length + 1) 2 false { eoc := d.length } with
  | none => rw [hw] at h; simp at h
  | some r =>
    rw [hw] at h
    simp only [Option.bind_some, Option.some.injEq] at h
    subst h
    exact walkLoop_sound d _ 2 2 false _ r ⟨.nil _, by simp, fun _ => rfl, by simp⟩ (.refl _) rfl hw

/-- A codestream with a comment, an EPH between segments (skipped as two bytes), one tile-part and EOC. -/
example : (walk [0xFF, 0x4F, 0xFF, 0x64, 0, 3, 9, 0xFF, 0x92, 0xFF, 0x90, 0, 10, 0, 0, 0, 0, 0, 15, 0, 1, 0xFF, 0x93, 5, 0xFF, 0xD9]).map
    (·.map fun lay => (lay.mainEnd, lay.eoc, lay.parts.map fun tp => (tp.bodyOff, tp.bodyEnd))) =
    some (some (9, 24, [(23, 24)])) := by
  decide +kernel

end Verif.Jpip
