import Verif.Ebcot.BlockSafe
/-
Decoding a code-block from arbitrary bytes: the loop over the passes, and the dequantization.
-/
namespace Verif.Ebcot

/-- No byte of the code-block carries into a 0xFF before it. -/
def NoCarryAll (buf : List Nat) (length : Nat) : Prop :=
  ∀ i b, i + 1 < length → buf[i]? = some 0xFF → buf[i + 1]? = some b → b < 0x80 ∨ 0x8F < b

theorem NoCarryAll.seg {buf : List Nat} {n pos len : Nat} (h : NoCarryAll buf n) (hl : pos + len ≤ n) : NoCarry buf pos len :=
  fun i b _ h2 => h i b (by omega)

theorem SymInv.init {raw : Bool} {buf : List Nat} {pos len : Nat} {m : Mq} (h : SymInv raw buf pos len m) : SymInv raw buf pos len (initStates m) := by
  have hc : CtxOk (initStates m).sigma (initStates m).mps := by
    intro k
    simp only [initStates]
    refine ⟨?_, by omega⟩
    split_ifs <;> omega
  refine ⟨hc, ?_⟩
  have := h.2
  cases raw
  · simp only [Bool.false_eq_true, if_false] at this ⊢
    exact ⟨⟨this.inside.lmax, this.inside.lo, this.inside.hi, this.inside.ff⟩, this.t8, this.alo, this.ahi, hc, this.below⟩
  · simp only [if_true] at this ⊢
    exact ⟨this.lmax, this.lo, this.hi, this.t8⟩

/-- The end of the codeword segment, with the bypass and without termination on each pass. -/
def SegEnd (x : CbIn) (z csp : Nat) : Prop :=
  x.cmodes &&& 1 ≠ 0 → x.cmodes &&& 4 = 0 → z = 0 ∧ csp = 0 ∨ z + csp = x.num ∨ (10 ≤ z + csp ∧ (z + csp) % 3 ≠ 2)

/-- What holds between two rounds. -/
structure DInv (x : CbIn) (s : DecSt) : Prop where
  k : s.k = if s.z = 0 then 2 else (s.z + 1) % 3 + 1
  p : s.p + (s.z + 1) / 3 = 30 - x.zbp
  b : BInv x.w x.h x.orient s.b
  ctx : CtxOk s.m.sigma s.m.mps
  csp : s.csp < 256
  pos : s.pos ≤ x.length
  byp : s.byp = true → x.cmodes &&& 1 ≠ 0 ∧ 10 ≤ s.z
  ends : SegEnd x s.z s.csp
  seg : s.csp ≠ 0 → ∃ pos len, pos + len ≤ x.length ∧ SymInv s.byp x.buf pos len s.m
  raw : s.csp ≠ 0 → s.byp = true → s.z % 3 = 1 ∧ s.csp ≤ 2 ∨ s.z % 3 = 2 ∧ s.csp ≤ 1

/-- What holds before a pass. -/
structure PassInv (x : CbIn) (s : DecSt) : Prop where
  k : s.k = (s.z + 2) % 3
  p : s.p + (s.z + 2) / 3 = 30 - x.zbp
  b : BInv x.w x.h x.orient s.b
  csp : s.csp < 256
  pos : s.pos ≤ x.length
  byp : s.byp = true → x.cmodes &&& 1 ≠ 0 ∧ 10 ≤ s.z
  nz : x.cmodes &&& 1 ≠ 0 → s.csp ≠ 0
  ends : SegEnd x s.z s.csp
  seg : ∃ pos len, pos + len ≤ x.length ∧ SymInv s.byp x.buf pos len s.m
  raw : s.byp = true → s.z % 3 = 1 ∧ s.csp ≤ 2 ∨ s.z % 3 = 2 ∧ s.csp ≤ 1

/-- Behind `turn`. -/
structure TurnInv (x : CbIn) (s : DecSt) : Prop where
  k : s.k = (s.z + 2) % 3
  p : s.p + (s.z + 2) / 3 = 30 - x.zbp
  b : BInv x.w x.h x.orient s.b
  ctx : CtxOk s.m.sigma s.m.mps
  csp : s.csp < 256
  pos : s.pos ≤ x.length
  byp : s.byp = true → x.cmodes &&& 1 ≠ 0 ∧ 10 ≤ s.z
  ends : SegEnd x s.z s.csp
  seg : s.csp ≠ 0 → ∃ pos len, pos + len ≤ x.length ∧ SymInv s.byp x.buf pos len s.m
  raw : s.csp ≠ 0 → s.byp = true → s.z % 3 = 1 ∧ s.csp ≤ 2 ∨ s.z % 3 = 2 ∧ s.csp ≤ 1

section
variable {x : CbIn} (hzb : x.zbp ≤ 30) (hnum : x.num ≤ 3 * (31 - x.zbp) - 2) (ho : x.orient < 4) (hpl : x.num ≤ x.passLen.length) (hlen : x.length ≤ x.buf.length)
  (hby : ∀ b ∈ x.buf, b < 256)

include hzb hnum in
theorem turn_inv {s : DecSt} (h : DInv x s) (hz : s.z < x.num) : TurnInv x (turn s) ∧ (turn s).z = s.z := by
  have hk := h.k
  have hp := h.p
  unfold turn
  split_ifs with c
  · have h3 : s.z % 3 = 1 := by rw [c] at hk; split_ifs at hk <;> omega
    refine ⟨⟨?_, ?_, h.b, h.ctx, h.csp, h.pos, h.byp, h.ends, h.seg, h.raw⟩, rfl⟩
    · show 0 = (s.z + 2) % 3; omega
    · show (s.p + 255) % 256 + (s.z + 2) / 3 = 30 - x.zbp; omega
  · have h3 : s.z % 3 ≠ 1 := by intro c3; apply c; rw [hk]; split_ifs <;> omega
    refine ⟨⟨?_, ?_, h.b, h.ctx, h.csp, h.pos, h.byp, h.ends, h.seg, h.raw⟩, rfl⟩
    · rw [hk]; split_ifs <;> omega
    · omega

theorem sumLen_safe {nc : Prop} {l : List Nat} {z : Nat} : ∀ n, z + n ≤ l.length → DSafe nc (sumLen l z n) fun _ => True := by
  intro n
  induction n with
  | zero => intro _; exact DSafe.ok trivial
  | succ n ih =>
    intro hl
    refine (ih (by omega)).bind fun a _ => ?_
    rw [List.getElem?_eq_getElem (by omega)]
    exact DSafe.ok trivial

/-- The number of passes of a segment. -/
theorem segPasses_safe {s : DecSt} (hz : s.z < x.num) (hk : s.k = (s.z + 2) % 3) (hb : s.byp = true → x.cmodes &&& 1 ≠ 0 ∧ 10 ≤ s.z) (he : SegEnd x s.z 0) :
    let c := x.segPasses s
    s.z + c.1 ≤ x.num ∧ (c.2 = true → x.cmodes &&& 1 ≠ 0 ∧ 10 ≤ s.z) ∧ (x.cmodes &&& 1 ≠ 0 → c.1 ≠ 0) ∧ SegEnd x s.z c.1 ∧
      (c.2 = true → s.z % 3 = 1 ∧ c.1 ≤ 2 ∨ s.z % 3 = 2 ∧ c.1 ≤ 1) := by
  have h256 : ((x.maxPasses % 256).toNat : Int) = x.maxPasses % 256 := Int.toNat_of_nonneg (by omega)
  intro c
  have hc : c = x.segPasses s := rfl
  unfold CbIn.segPasses at hc
  unfold SegEnd at he ⊢
  by_cases h1 : x.cmodes &&& 1 = 0
  · have hbf : s.byp = false := by
      by_contra hh
      exact (hb (by simpa using hh)).1 h1
    simp only [h1, ne_eq, not_true, if_false, hbf] at hc
    have e1 := congrArg Prod.fst hc
    have e2 := congrArg Prod.snd hc
    simp only at e1 e2
    clear hc
    refine ⟨?_, fun q => ?_, fun q => ?_, fun q q' => ?_, fun q => ?_⟩ <;> first | (rw [e2] at q; exact absurd q Bool.false_ne_true) | exact absurd h1 q | (split_ifs at e1 <;> omega)
  · simp only [h1, ne_eq, not_false_eq_true, if_true] at hc he
    have he := he trivial
    by_cases h4 : x.cmodes &&& 4 = 0
    · have he := he h4
      simp only [h4, not_true, if_false] at hc
      by_cases h10 : s.z < 10
      · have hbf : s.byp = false := by
          by_contra hh
          have := (hb (by simpa using hh)).2
          omega
        simp only [h10, if_true, hbf] at hc
        have e1 := congrArg Prod.fst hc
        have e2 := congrArg Prod.snd hc
        simp only at e1 e2
        clear hc
        refine ⟨?_, fun q => ?_, fun q => ?_, fun q q' => ?_, fun q => ?_⟩ <;> first | (rw [e2] at q; exact absurd q Bool.false_ne_true) | exact absurd h1 q | (split_ifs at e1 <;> omega)
      · by_cases hk2 : s.k = 2
        · simp only [h10, if_false, hk2, if_true] at hc
          have e1 := congrArg Prod.fst hc
          have e2 := congrArg Prod.snd hc
          simp only at e1 e2
          clear hc
          refine ⟨?_, fun q => ?_, fun q => ?_, fun q q' => ?_, fun q => ?_⟩ <;> first | (rw [e2] at q; exact absurd q Bool.false_ne_true) | exact absurd h1 q | (split_ifs at e1 <;> omega)
        · simp only [h10, if_false, hk2] at hc
          have e1 := congrArg Prod.fst hc
          have e2 := congrArg Prod.snd hc
          simp only at e1 e2
          clear hc
          refine ⟨?_, fun q => ?_, fun q => ?_, fun q q' => ?_, fun q => ?_⟩ <;> first | (rw [e2] at q; exact absurd q Bool.false_ne_true) | exact absurd h1 q | (split_ifs at e1 <;> omega)
    · simp only [h4, not_false_eq_true, if_true] at hc
      by_cases h10 : s.z < 10
      · have hbf : s.byp = false := by
          by_contra hh
          have := (hb (by simpa using hh)).2
          omega
        simp only [h10, if_true, hbf] at hc
        have e1 := congrArg Prod.fst hc
        have e2 := congrArg Prod.snd hc
        simp only at e1 e2
        clear hc
        refine ⟨?_, fun q => ?_, fun q => ?_, fun q q' => ?_, fun q => ?_⟩ <;> first | (rw [e2] at q; exact absurd q Bool.false_ne_true) | exact absurd h1 q | (split_ifs at e1 <;> omega)
      · by_cases hk2 : s.k = 2
        · simp only [h10, if_false, hk2, if_true] at hc
          have e1 := congrArg Prod.fst hc
          have e2 := congrArg Prod.snd hc
          simp only at e1 e2
          clear hc
          refine ⟨?_, fun q => ?_, fun q => ?_, fun q q' => ?_, fun q => ?_⟩ <;> first | (rw [e2] at q; exact absurd q Bool.false_ne_true) | exact absurd h1 q | (split_ifs at e1 <;> omega)
        · simp only [h10, if_false, hk2] at hc
          have e1 := congrArg Prod.fst hc
          have e2 := congrArg Prod.snd hc
          simp only at e1 e2
          clear hc
          refine ⟨?_, fun q => ?_, fun q => ?_, fun q q' => ?_, fun q => ?_⟩ <;> first | (rw [e2] at q; exact absurd q Bool.false_ne_true) | exact absurd h1 q | (split_ifs at e1 <;> omega)

include hpl hlen hby in
theorem opening_safe {s : DecSt} (h : TurnInv x s) (hz : s.z < x.num) (h256 : x.num < 256) :
    DSafe (NoCarryAll x.buf x.length) (x.opening s) fun s' => PassInv x s' ∧ s'.z = s.z := by
  unfold CbIn.opening
  by_cases h0 : s.csp = 0
  · rw [if_pos h0]
    simp only
    obtain ⟨g1, g2, g3, g4, g5⟩ := segPasses_safe hz h.k h.byp (h0 ▸ h.ends)
    generalize x.segPasses s = c at g1 g2 g3 g4 g5 ⊢
    refine (sumLen_safe c.1 (by omega)).bind fun n _ => ?_
    split_ifs with hn
    · exact DSafe.throws
    · have hpos : (s.pos + n) % 2 ^ 32 ≤ x.length := le_trans (Nat.mod_le _ _) (by omega)
      have fin : ∀ m, SymInv c.2 x.buf s.pos n m →
          PassInv x { s with csp := c.1, byp := c.2, m := m, pos := (s.pos + n) % 2 ^ 32 } := fun m hm =>
        ⟨h.k, h.p, h.b, by show c.1 < 256; omega, hpos, g2, g3, g4, ⟨s.pos, n, by omega, hm⟩, g5⟩
      rcases hc2 : c.2 with _ | _
      · rw [hc2] at fin
        rcases mqInit_safe (buf := x.buf) (pos := s.pos) (len := n) (by omega) hby h.ctx with ⟨e, hnc⟩ | ⟨m, e, hm⟩
        · rw [e]
          exact Or.inl ⟨rfl, fun hh => hnc (hh.seg (by omega))⟩
        · rw [e]
          exact DSafe.ok ⟨fin m ⟨hm.ctx, by simpa using hm⟩, rfl⟩
      · rw [hc2] at fin
        obtain ⟨m, e, hm, -, -, -, e1, e2⟩ := raw_init x.buf s.pos n s.m
        rw [e]
        exact DSafe.ok ⟨fin m ⟨by rw [e1, e2]; exact h.ctx, by simpa using hm⟩, rfl⟩
  · rw [if_neg h0]
    exact DSafe.ok ⟨⟨h.k, h.p, h.b, h.csp, h.pos, h.byp, fun _ => h0, h.ends, h.seg h0, h.raw h0⟩, rfl⟩

include ho hlen hby in
theorem pass_safe {s : DecSt} (h : PassInv x s) (hz : s.z < x.num) :
    DSafe (NoCarryAll x.buf x.length) (x.pass s) fun s' => DInv x s' ∧ s'.z = s.z + 1 := by
  obtain ⟨pos, len, hpl', hsym⟩ := h.seg
  unfold CbIn.pass
  simp only
  have hm : SymInv s.byp x.buf pos len (if s.z = 0 ∨ x.cmodes &&& 2 ≠ 0 then initStates s.m else s.m) := by
    split_ifs
    · exact hsym.init
    · exact hsym
  generalize (if s.z = 0 ∨ x.cmodes &&& 2 ≠ 0 then initStates s.m else s.m) = m at hm ⊢
  have hp : s.p < 32 := by have := h.p; omega
  have hl : pos + len ≤ x.buf.length := by omega
  have hnc : NoCarryAll x.buf x.length → NoCarry x.buf pos len := fun hh => hh.seg hpl'
  refine DSafe.map (P := PInv x.w x.h x.orient s.byp x.buf pos len) ?_ fun q hq => ?_
  · by_cases k0 : s.k = 0
    · rw [if_pos k0]
      exact sigPass_safe hl hby hnc ho hp ⟨h.b, hm⟩
    · rw [if_neg k0]
      by_cases k1 : s.k = 1
      · rw [if_pos k1]
        exact magPass_safe hl hby hnc ho hp ⟨h.b, hm⟩
      · rw [if_neg k1]
        have hraw : s.byp = false := by
          by_contra hh
          have h1 := h.raw (by simpa using hh)
          have h2 := h.k
          omega
        rw [hraw] at hm ⊢
        refine (cleanPass_safe hl hby hnc ho hp ⟨h.b, hm⟩).bind fun q hq => ?_
        split_ifs
        · exact (segMark_safe hl hby hnc hq.2).map fun m hm => ⟨hq.1, hm⟩
        · exact DSafe.ok hq
  · refine ⟨⟨?_, ?_, hq.1, hq.2.1, ?_, h.pos, ?_, ?_, ?_, ?_⟩, rfl⟩
    · show s.k + 1 = if s.z + 1 = 0 then 2 else (s.z + 1 + 1) % 3 + 1
      rw [if_neg (by omega), h.k]
    · show s.p + (s.z + 1 + 1) / 3 = _; exact h.p
    · show (s.csp + 255) % 256 < 256; omega
    · show s.byp = true → _ ∧ 10 ≤ s.z + 1
      intro hb
      have := h.byp hb
      exact ⟨this.1, by omega⟩
    · show SegEnd x (s.z + 1) ((s.csp + 255) % 256)
      intro m1 m4
      have h1 := h.nz m1
      have h2 := h.ends m1 m4
      have h3 := h.csp
      rw [show (s.csp + 255) % 256 = s.csp - 1 by omega]
      omega
    · show (s.csp + 255) % 256 ≠ 0 → _
      exact fun _ => ⟨pos, len, hpl', hq.2⟩
    · show (s.csp + 255) % 256 ≠ 0 → s.byp = true → (s.z + 1) % 3 = 1 ∧ (s.csp + 255) % 256 ≤ 2 ∨ (s.z + 1) % 3 = 2 ∧ (s.csp + 255) % 256 ≤ 1
      intro hc hb
      have h1 := h.nz (h.byp hb).1
      have h2 := h.raw hb
      have h3 := h.csp
      omega

include hzb hnum ho hpl hlen hby in
theorem rounds_safe (h256 : x.num < 256) : ∀ n (s : DecSt), DInv x s → s.z + n = x.num → DSafe (NoCarryAll x.buf x.length) (x.rounds n s) (DInv x) := by
  intro n
  induction n with
  | zero => intro s hs _; exact DSafe.ok hs
  | succ n ih =>
    intro s hs hn
    unfold CbIn.rounds CbIn.round
    obtain ⟨t1, t2⟩ := turn_inv hzb hnum hs (by omega)
    refine DSafe.bind (P := fun s' => DInv x s' ∧ s'.z = s.z + 1) ?_ fun s2 h2 => ih s2 h2.1 (by have := h2.2; omega)
    refine (opening_safe hpl hlen hby t1 (by omega) h256).bind fun s1 h1 => (pass_safe ho hlen hby h1.1 (by have := h1.2; omega)).mono fun s2 h2 => ?_
    exact ⟨h2.1, by rw [h2.2, h1.2, t2]⟩

include hzb in
theorem start_inv : DInv x x.start := by
  refine ⟨rfl, ?_, ⟨rfl, rfl, rfl, fun _ _ => by show (0 : Nat) < 256; norm_num⟩, fun k => ⟨by show (0 : Nat) < 47; norm_num, Nat.zero_le _⟩, by show (0 : Nat) < 256; norm_num,
    Nat.zero_le _, fun h => absurd h Bool.false_ne_true, fun _ _ => Or.inl ⟨rfl, rfl⟩, fun h => absurd rfl h, fun h => absurd rfl h⟩
  show ((30 - (x.zbp : Int)) % 256).toNat + (0 + 1) / 3 = 30 - x.zbp
  omega

theorem numPasses_lt : x.num < 256 := by
  unfold CbIn.num
  have : ∀ (l : List Nat) (n : Nat), n < 256 → l.foldl (fun n l => (n + l) % 256) n < 256 := by
    intro l
    induction l with
    | nil => intro n h; exact h
    | cons a l ih => intro n _; exact ih _ (Nat.mod_lt _ (by norm_num))
  exact this _ 0 (by norm_num)

include hzb hnum ho hpl hlen hby in
theorem j2kDecode_safe : DSafe (NoCarryAll x.buf x.length) (j2kDecode x) (BInv x.w x.h x.orient) := by
  unfold j2kDecode
  exact (rounds_safe hzb hnum ho hpl hlen hby numPasses_lt x.num x.start (start_inv hzb) (by show 0 + x.num = x.num; omega)).map fun s hs => hs.b

theorem dequantRev_safe {nc : Prop} {mb roi v st : Nat} (hmb : mb ≤ 30) (hroi : roi ≤ mb) (hst : st < 256) : DSafe nc (dequantRev mb roi v st) fun _ => True := by
  unfold dequantRev
  rw [if_neg (by omega)]
  refine DSafe.bind (P := fun _ => True) ?_ fun u _ => DSafe.bind (P := fun _ => True) ?_ fun u _ => DSafe.ok trivial
  · unfold roiUp
    by_cases c : roi ≠ 0 ∧ v % 2 ^ 31 / 2 ^ (31 - mb) = 0
    · rw [if_pos c]
      have h1 : v % 2 ^ 31 < 2 ^ (31 - mb) := by
        rcases Nat.div_eq_zero_iff.1 c.2 with h | h
        · exact absurd h (by positivity)
        · exact h
      have h2 : v % 2 ^ 31 * 2 ^ roi < 2 ^ 31 := by
        calc v % 2 ^ 31 * 2 ^ roi < 2 ^ (31 - mb) * 2 ^ roi := Nat.mul_lt_mul_of_pos_right h1 (by positivity)
          _ = 2 ^ (31 - mb + roi) := by rw [pow_add]
          _ ≤ 2 ^ 31 := Nat.pow_le_pow_right (by norm_num) (by omega)
      rw [if_pos ⟨h2, by omega⟩]
      exact DSafe.ok trivial
    · rw [if_neg c]
      exact DSafe.ok trivial
  · unfold midBit
    simp only
    by_cases hr : roi = 0
    · have hr' : ¬roi ≠ 0 := fun h => h hr
      rw [if_neg hr']
      by_cases c : u ≠ 0 ∧ 30 - ((st / 8 : Nat) : Int) + 1 < mb
      · rw [if_pos c, if_pos (by omega)]
        exact DSafe.ok trivial
      · rw [if_neg c]
        exact DSafe.ok trivial
    · rw [if_pos hr, if_neg (fun h => absurd h.2 (by omega))]
      exact DSafe.ok trivial

theorem dequantRow_safe {nc : Prop} {b : Blk} (hb : BInv x.w x.h x.orient b) (hmb : x.mb ≤ 30) (hroi : x.roi ≤ x.mb) {y : Nat} (hy : y < x.h) :
    ∀ l : List Nat, (∀ c ∈ l, c < x.w) → DSafe nc (dequantRow x b y l) fun r => r.length = l.length := by
  intro l
  induction l with
  | nil => intro _; exact DSafe.ok rfl
  | cons c l ih =>
    intro hl
    have hc := hl c (List.mem_cons_self ..)
    exact (getSmp_safe hb hy hc).bind fun v _ => (getSt_safe hb (by omega) (by omega)).bind fun st hst => (dequantRev_safe hmb hroi hst).bind fun q _ =>
      (ih fun c hc => hl c (List.mem_cons_of_mem _ hc)).map fun r hr => by simp [hr]

theorem dequantRows_safe {nc : Prop} {b : Blk} (hb : BInv x.w x.h x.orient b) (hmb : x.mb ≤ 30) (hroi : x.roi ≤ x.mb) :
    ∀ l : List Nat, (∀ y ∈ l, y < x.h) → DSafe nc (dequantRows x b l) fun r => r.length = l.length ∧ ∀ row ∈ r, row.length = x.w := by
  intro l
  induction l with
  | nil => intro _; exact DSafe.ok ⟨rfl, fun _ h => absurd h List.not_mem_nil⟩
  | cons y l ih =>
    intro hl
    refine (dequantRow_safe hb hmb hroi (hl y (List.mem_cons_self ..)) (List.range x.w) fun c hc => List.mem_range.1 hc).bind fun r hr => ?_
    refine (ih fun c hc => hl c (List.mem_cons_of_mem _ hc)).map fun rs hrs => ⟨by simp [hrs.1], fun row h => ?_⟩
    rcases List.mem_cons.1 h with rfl | h
    · simpa using hr
    · exact hrs.2 row h

include hzb hnum ho hpl hlen hby in
theorem j2kBlock_safe (hmb : x.mb ≤ 30) (hroi : x.roi ≤ x.mb) :
    DSafe (NoCarryAll x.buf x.length) (j2kBlock x) fun r => r.length = x.h ∧ ∀ row ∈ r, row.length = x.w := by
  unfold j2kBlock
  refine (j2kDecode_safe hzb hnum ho hpl hlen hby).bind fun b hb => (dequantRows_safe hb hmb hroi _ fun y hy => List.mem_range.1 hy).mono fun r hr => ?_
  simpa using hr

end

end Verif.Ebcot
