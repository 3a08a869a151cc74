import Verif.Packet.Header
/-
Tag-tree round trip: the parser's traversals undo the encoder's.
-/
namespace Verif.Packet
open Prog

/-! ### Paths -/

/-- A list of nodes each of which is the child of the one before. -/
def UpChain (ps : List (Option Nat)) : Option Nat → List Nat → Prop
  | _, [] => True
  | prev, n :: rest => parentFn ps n = prev ∧ UpChain ps (some n) rest

theorem pathUp_chain (ps : List (Option Nat)) (hwf : WfTree ps) (fuel : Nat) : ∀ (i : Nat) (suf : List Nat),
    ps.length ≤ fuel + i → UpChain ps (some i) suf → UpChain ps none ((pathUp ps fuel i).reverse ++ suf) := by
  induction fuel with
  | zero =>
    intro i suf hi hs
    have : parentFn ps i = none := by
      cases h : parentFn ps i with
      | none => rfl
      | some p => have := hwf.up i p h; omega
    simp [pathUp, UpChain, this, hs]
  | succ fuel ih =>
    intro i suf hi hs
    unfold pathUp
    cases h : parentFn ps i with
    | none => simp [UpChain, h, hs]
    | some p =>
      have hp := hwf.up i p h
      simp only [List.reverse_cons, List.append_assoc]
      exact ih p ([i] ++ suf) (by omega) ⟨h, hs⟩

theorem rootPath_chain (ps : List (Option Nat)) (hwf : WfTree ps) (i : Nat) : UpChain ps none (rootPath ps i) := by
  have := pathUp_chain ps hwf ps.length i [] (by omega) trivial
  simpa [rootPath] using this

theorem rootPath_last (ps : List (Option Nat)) (i : Nat) : ∃ front, rootPath ps i = front ++ [i] := by
  unfold rootPath
  cases h : ps.length with
  | zero => exact ⟨[], rfl⟩
  | succ k =>
    unfold pathUp
    cases parentFn ps i with
    | none => exact ⟨[], rfl⟩
    | some p => exact ⟨(pathUp ps k p).reverse, by simp⟩

theorem mem_pathUp {ps : List (Option Nat)} {fuel i m : Nat} (h : m ∈ pathUp ps fuel i) :
    m = i ∨ ∃ j, parentFn ps j = some m := by
  induction fuel generalizing i with
  | zero => simp [pathUp] at h; exact Or.inl h
  | succ fuel ih =>
    unfold pathUp at h
    cases hp : parentFn ps i with
    | none => rw [hp] at h; simp at h; exact Or.inl h
    | some p =>
      rw [hp] at h
      rcases List.mem_cons.1 h with rfl | h
      · exact Or.inl rfl
      · rcases ih h with rfl | h
        · exact Or.inr ⟨i, hp⟩
        · exact Or.inr h

theorem chain_lt {ps : List (Option Nat)} (hwf : WfTree ps) (path : List Nat) : ∀ p,
    UpChain ps (some p) path → ∀ m ∈ path, m < p := by
  induction path with
  | nil => intro p _ m hm; simp at hm
  | cons n rest ih =>
    intro p h m hm
    have := (hwf.up n p h.1).1
    rcases List.mem_cons.1 hm with rfl | hm
    · exact this
    · have := ih n h.2 m hm; omega

@[simp] theorem upd_same {β : Type} (f : Nat → β) (i : Nat) (v : β) : upd f i v i = v := by simp [upd]
theorem upd_other {β : Type} (f : Nat → β) {i j : Nat} (v : β) (h : j ≠ i) : upd f i v j = f j := by simp [upd, h]

/-! ### Inclusion -/

def touched (s : IncState) (n : Nat) : Prop := s.st n = true ∨ 1 ≤ s.cur n

structure IncInv (ps : List (Option Nat)) (val : Nat → Nat) (s : IncState) : Prop where
  coded : ∀ n, s.st n = true → val n = 0 ∧ s.cur n = 0
  above : ∀ n, s.st n = false → 1 ≤ s.cur n → 1 ≤ val n
  up : ∀ n p, parentFn ps n = some p → touched s n → touched s p

theorem incInv_fresh (ps : List (Option Nat)) (val : Nat → Nat) : IncInv ps val {} := by
  refine ⟨fun n h => by simp at h, fun n _ h => by simp at h, ?_⟩
  intro n p _ h
  rcases h with h | h <;> simp at h

/-- The four things that can happen at a node. -/
theorem incNode_cases (ps : List (Option Nat)) (val : Nat → Nat) (s : IncState) (n : Nat) (f : Bool)
    (rest : List Bool) :
    (s.st n = true ∧ encIncNode ps val 0 s n = ([], s) ∧
      (decIncNode ps 0 s n f).run rest = .ok ((s, f), rest)) ∨
    (s.st n = false ∧ raised ps s n = 0 ∧ val n = 0 ∧
      encIncNode ps val 0 s n = ([true], { cur := upd s.cur n 0, st := upd s.st n true }) ∧
      (decIncNode ps 0 s n f).run (true :: rest) = .ok (({ cur := upd s.cur n 0, st := upd s.st n true }, true), rest)) ∨
    (s.st n = false ∧ raised ps s n = 0 ∧ 1 ≤ val n ∧
      encIncNode ps val 0 s n = ([false], { s with cur := upd s.cur n 1 }) ∧
      (decIncNode ps 0 s n f).run (false :: rest) = .ok (({ s with cur := upd s.cur n 1 }, false), rest)) ∨
    (s.st n = false ∧ 1 ≤ raised ps s n ∧
      encIncNode ps val 0 s n = ([], { s with cur := upd s.cur n (raised ps s n) }) ∧
      (decIncNode ps 0 s n f).run rest = .ok (({ s with cur := upd s.cur n (raised ps s n) }, f), rest)) := by
  unfold encIncNode decIncNode
  cases hst : s.st n with
  | true => left; simp
  | false =>
    right
    by_cases hr : raised ps s n = 0
    · by_cases hv : val n = 0
      · left; simp [hr, hv, Prog.getBit]
      · right; left
        have h0 : 1 ≤ val n := by omega
        simp [hr, hv, h0, Prog.getBit]
    · right; right
      have h1 : 1 ≤ raised ps s n := by omega
      simp [hr, h1]

theorem raised_none {ps : List (Option Nat)} {s : IncState} {n : Nat} (h : parentFn ps n = none) :
    raised ps s n = s.cur n := by
  unfold raised; rw [h]

theorem raised_some {ps : List (Option Nat)} {s : IncState} {n p : Nat} (h : parentFn ps n = some p) :
    raised ps s n = max (s.cur n) (s.cur p) := by
  unfold raised; rw [h]

theorem decInc_spec {ps : List (Option Nat)} (hwf : WfTree ps) {val : Nat → Nat}
    (hmono : ∀ i p, parentFn ps i = some p → val p ≤ val i) (rest : List Bool) (path : List Nat) :
    ∀ (s : IncState) (f : Bool) (prev : Option Nat) (last : Nat) (front : List Nat),
    path = front ++ [last] → IncInv ps val s → UpChain ps prev path →
    (∀ p, prev = some p → touched s p) →
    (f = true → (∀ n ∈ path, ¬ touched s n) ∧ ∀ p, prev = some p → s.cur p = 0) →
    ¬ touched s last →
    (decInc ps 0 s f path).run ((encInc ps val 0 s path).1 ++ rest) =
      .ok (((encInc ps val 0 s path).2, val last == 0), rest) ∧
    IncInv ps val (encInc ps val 0 s path).2 ∧
    (∀ m, m ∉ path → (encInc ps val 0 s path).2.st m = s.st m ∧ (encInc ps val 0 s path).2.cur m = s.cur m) := by
  induction path with
  | nil => intro s f prev last front h; simp at h
  | cons n path ih =>
    intro s f prev last front hpath hinv hch hprev hf hlast
    obtain ⟨hn, hch⟩ := hch
    have hnrest : ∀ m ∈ path, m < n := chain_lt hwf path n hch
    have hnn : n ∉ path := fun h => by have := hnrest n h; omega
    -- a property of one step
    have key : ∀ (bits : List Bool) (s' : IncState) (f' : Bool),
        encIncNode ps val 0 s n = (bits, s') →
        (∀ tl, (decIncNode ps 0 s n f).run (bits ++ tl) = .ok ((s', f'), tl)) →
        IncInv ps val s' → touched s' n →
        (∀ m, m ≠ n → s'.st m = s.st m ∧ s'.cur m = s.cur m) →
        (f' = true → (∀ m ∈ path, ¬ touched s m) ∧ s'.cur n = 0) →
        (path = [] → f' = (val n == 0)) →
        (decInc ps 0 s f (n :: path)).run ((encInc ps val 0 s (n :: path)).1 ++ rest) =
          .ok (((encInc ps val 0 s (n :: path)).2, val last == 0), rest) ∧
        IncInv ps val (encInc ps val 0 s (n :: path)).2 ∧
        (∀ m, m ∉ n :: path → (encInc ps val 0 s (n :: path)).2.st m = s.st m ∧
          (encInc ps val 0 s (n :: path)).2.cur m = s.cur m) := by
      intro bits s' f' henc hdec hinv' htn hoth hf' hlastf
      have hsame : ∀ m ∈ path, touched s' m ↔ touched s m := by
        intro m hm
        have hne : m ≠ n := by have := hnrest m hm; omega
        obtain ⟨h1, h2⟩ := hoth m hne
        unfold touched; rw [h1, h2]
      simp only [encInc, decInc, bind_eq, henc]
      rw [List.append_assoc, run_bind_ok (hdec _)]
      cases hp : path with
      | nil =>
        have hle : n = last := by
          rw [hp] at hpath
          have := congrArg List.getLast? hpath
          simpa using this
        subst hle
        simp only [encInc, decInc, pure_eq, run_ret, List.nil_append]
        refine ⟨by rw [hlastf hp], hinv', ?_⟩
        intro m hm
        exact hoth m (by simpa using hm)
      | cons a path' =>
        have hpe : path = front.tail ++ [last] := by
          cases front with
          | nil => rw [hp] at hpath; simp at hpath
          | cons x front => simpa using (List.cons.inj hpath).2
        have hlm : last ∈ path := by rw [hpe]; simp
        have := ih s' f' (some n) last front.tail hpe hinv' hch
          (by intro p hp'; cases hp'; exact htn)
          (by
            intro h
            obtain ⟨h1, h2⟩ := hf' h
            refine ⟨fun m hm => ?_, fun p hp' => by cases hp'; exact h2⟩
            rw [hsame m hm]; exact h1 m hm)
          (by rw [hsame last hlm]; exact hlast)
        rw [hp] at this
        refine ⟨this.1, this.2.1, ?_⟩
        intro m hm
        rw [List.mem_cons, not_or] at hm
        obtain ⟨h1, h2⟩ := this.2.2 m hm.2
        obtain ⟨h3, h4⟩ := hoth m hm.1
        exact ⟨h1.trans h3, h2.trans h4⟩
    -- descendants of an untouched node are untouched
    have hdesc : ¬ touched s n → ∀ m ∈ path, ¬ touched s m := by
      intro h0
      have : ∀ (l : List Nat) (q : Nat), UpChain ps (some q) l → ¬ touched s q → ∀ m ∈ l, ¬ touched s m := by
        intro l
        induction l with
        | nil => intro q _ _ m hm; simp at hm
        | cons a l ihl =>
          intro q hq h0 m hm
          have ha : ¬ touched s a := fun h => h0 (hinv.up a q hq.1 h)
          rcases List.mem_cons.1 hm with rfl | hm
          · exact ha
          · exact ihl a hq.2 ha m hm
      exact this path n hch h0
    have hnl : path = [] → n = last := by
      intro hp
      rw [hp] at hpath
      have := congrArg List.getLast? hpath
      simpa using this
    rcases incNode_cases ps val s n f [] with h | h | h | h
    · -- already coded
      obtain ⟨hst, henc, _⟩ := h
      refine key [] s f henc (fun tl => ?_) hinv (Or.inl hst) (fun _ _ => ⟨rfl, rfl⟩) ?_ ?_
      · rcases incNode_cases ps val s n f tl with h | h | h | h
        · exact h.2.2
        all_goals (have := h.1; rw [hst] at this; cases this)
      · intro hft
        exact absurd (Or.inl hst) ((hf hft).1 n (by simp))
      · intro hp
        have := hnl hp; subst this
        exact absurd (Or.inl hst) hlast
    · -- a one
      obtain ⟨hst, hr, hv, henc, _⟩ := h
      have hcn : s.cur n = 0 := by
        cases hq : parentFn ps n with
        | none => rw [raised_none hq] at hr; exact hr
        | some p => rw [raised_some hq] at hr; omega
      have hunt : ¬ touched s n := by
        rintro (h | h)
        · rw [hst] at h; cases h
        · omega
      have htouch : ∀ m, touched ⟨upd s.cur n 0, upd s.st n true⟩ m ↔ (m = n ∨ touched s m) := by
        intro m
        by_cases hm : m = n
        · subst hm; simp [touched]
        · simp [touched, upd_other, hm]
      refine key [true] _ true henc (fun tl => ?_) ⟨?_, ?_, ?_⟩ ((htouch n).2 (Or.inl rfl)) ?_ ?_ ?_
      · rcases incNode_cases ps val s n f tl with h | h | h | h
        · have := h.1; rw [hst] at this; cases this
        · exact h.2.2.2.2
        · have := h.2.2.1; omega
        · have := h.2.1; omega
      · intro m hm
        by_cases hmn : m = n
        · subst hmn; exact ⟨hv, by simp⟩
        · have hm' : s.st m = true := by simpa [upd_other, hmn] using hm
          simpa [upd_other, hmn] using hinv.coded m hm'
      · intro m hm hc
        by_cases hmn : m = n
        · subst hmn; simp at hm
        · have hm' : s.st m = false := by simpa [upd_other, hmn] using hm
          have hc' : 1 ≤ s.cur m := by simpa [upd_other, hmn] using hc
          exact hinv.above m hm' hc'
      · intro m p hmp ht
        rw [htouch] at ht ⊢
        rcases ht with rfl | ht
        · right; exact hprev p (by rw [← hn]; exact hmp)
        · right; exact hinv.up m p hmp ht
      · intro m hm; simp [upd_other, hm]
      · intro _; exact ⟨hdesc hunt, by simp⟩
      · intro _; simp [hv]
    · -- a zero
      obtain ⟨hst, hr, hv, henc, _⟩ := h
      have htouch : ∀ m, touched ⟨upd s.cur n 1, s.st⟩ m ↔ (m = n ∨ touched s m) := by
        intro m
        by_cases hm : m = n
        · subst hm; simp [touched]
        · simp [touched, upd_other, hm]
      refine key [false] _ false henc (fun tl => ?_) ⟨?_, ?_, ?_⟩ ((htouch n).2 (Or.inl rfl)) ?_ ?_ ?_
      · rcases incNode_cases ps val s n f tl with h | h | h | h
        · have := h.1; rw [hst] at this; cases this
        · have := h.2.2.1; omega
        · exact h.2.2.2.2
        · have := h.2.1; omega
      · intro m hm
        have hm' : s.st m = true := hm
        by_cases hmn : m = n
        · subst hmn; rw [hst] at hm'; cases hm'
        · simpa [upd_other, hmn] using hinv.coded m hm'
      · intro m hm hc
        by_cases hmn : m = n
        · subst hmn; exact hv
        · have hc' : 1 ≤ s.cur m := by simpa [upd_other, hmn] using hc
          exact hinv.above m hm hc'
      · intro m p hmp ht
        rw [htouch] at ht ⊢
        rcases ht with rfl | ht
        · right; exact hprev p (by rw [← hn]; exact hmp)
        · right; exact hinv.up m p hmp ht
      · intro m hm; simp [upd_other, hm]
      · intro h; cases h
      · intro _; symm; simp; omega
    · -- nothing coded: known to be above the threshold
      obtain ⟨hst, hr, henc, _⟩ := h
      have hvn : 1 ≤ val n := by
        cases hq : parentFn ps n with
        | none => rw [raised_none hq] at hr; exact hinv.above n hst hr
        | some p =>
          rw [raised_some hq] at hr
          by_cases h1 : 1 ≤ s.cur n
          · exact hinv.above n hst h1
          · have hp1 : 1 ≤ s.cur p := by omega
            have hstp : s.st p = false := by
              cases h : s.st p with
              | false => rfl
              | true => have := (hinv.coded p h).2; omega
            have := hinv.above p hstp hp1
            have := hmono n p hq
            omega
      have htouch : ∀ m, touched ⟨upd s.cur n (raised ps s n), s.st⟩ m ↔ (m = n ∨ touched s m) := by
        intro m
        by_cases hm : m = n
        · subst hm; simp [touched, hr]
        · simp [touched, upd_other, hm]
      -- the flag cannot be set here
      have hff : f = false := by
        cases hfv : f with
        | false => rfl
        | true =>
          obtain ⟨h1, h2⟩ := hf hfv
          have hun := h1 n (by simp)
          have hc0 : s.cur n = 0 := by
            have : ¬ 1 ≤ s.cur n := fun h => hun (Or.inr h)
            omega
          cases hq : parentFn ps n with
          | none => rw [raised_none hq] at hr; omega
          | some p =>
            rw [raised_some hq] at hr
            have := h2 p (by rw [← hn]; exact hq)
            omega
      refine key [] _ f henc (fun tl => ?_) ⟨?_, ?_, ?_⟩ ((htouch n).2 (Or.inl rfl)) ?_ ?_ ?_
      · rcases incNode_cases ps val s n f tl with h | h | h | h
        · have := h.1; rw [hst] at this; cases this
        · have := h.2.1; omega
        · have := h.2.1; omega
        · exact h.2.2.2
      · intro m hm
        have hm' : s.st m = true := hm
        by_cases hmn : m = n
        · subst hmn; rw [hst] at hm'; cases hm'
        · simpa [upd_other, hmn] using hinv.coded m hm'
      · intro m hm hc
        by_cases hmn : m = n
        · subst hmn; exact hvn
        · have hc' : 1 ≤ s.cur m := by simpa [upd_other, hmn] using hc
          exact hinv.above m hm hc'
      · intro m p hmp ht
        rw [htouch] at ht ⊢
        rcases ht with rfl | ht
        · right; exact hprev p (by rw [← hn]; exact hmp)
        · right; exact hinv.up m p hmp ht
      · intro m hm; simp [upd_other, hm]
      · intro h; rw [hff] at h; cases h
      · intro _; rw [hff]; symm; simp; omega

/-! ### Zero bit-planes -/

structure ZbpInv (val : Nat → Nat) (es : Nat → Bool) (d : ZbpState) : Prop where
  st : d.st = es
  coded : ∀ n, es n = true → d.cur n = val n ∧ d.value n = val n
  fresh : ∀ n, es n = false → d.cur n = 0

theorem zbpInv_fresh (val : Nat → Nat) : ZbpInv val (fun _ => false) {} :=
  ⟨rfl, fun n h => by simp at h, fun n _ => rfl⟩

theorem countZeros_spec (k fuel c : Nat) (hf : k < fuel) (hc : c + k < 65536) (rest : List Bool) :
    (countZeros fuel c).run (List.replicate k false ++ true :: rest) = .ok (c + k, rest) := by
  induction k generalizing fuel c with
  | zero =>
    cases fuel with
    | zero => omega
    | succ fuel => simp [countZeros, Prog.getBit]
  | succ k ih =>
    cases fuel with
    | zero => omega
    | succ fuel =>
      simp only [countZeros, List.replicate_succ, List.cons_append, bind_eq, Prog.getBit, bit_bind, ret_bind, run_bit]
      rw [if_neg (by simp), Nat.mod_eq_of_lt (by omega), ih fuel (c + 1) (by omega) (by omega)]
      congr 2; omega

theorem decZbp_spec {ps : List (Option Nat)} {val : Nat → Nat}
    (hmono : ∀ i p, parentFn ps i = some p → val p ≤ val i) (fuel : Nat) (hfuel : ∀ n, val n < fuel)
    (hval : ∀ n, val n < 65536) (rest : List Bool) (path : List Nat) :
    ∀ (es : Nat → Bool) (d : ZbpState) (prev : Option Nat),
    ZbpInv val es d → UpChain ps prev path → (∀ p, prev = some p → es p = true) →
    ∃ d', (decZbp ps fuel d path).run ((encZbp ps val es path).1 ++ rest) = .ok (d', rest) ∧
      ZbpInv val (encZbp ps val es path).2 d' ∧
      (∀ n, (n ∈ path ∨ es n = true) → (encZbp ps val es path).2 n = true) := by
  induction path with
  | nil =>
    intro es d prev h _ _
    refine ⟨d, by simp [decZbp, encZbp], h, ?_⟩
    intro n hn
    simpa [encZbp] using hn
  | cons n path ih =>
    intro es d prev h hch hprev
    obtain ⟨hn, hch⟩ := hch
    simp only [encZbp, decZbp, bind_eq, List.append_assoc]
    have hnode : ∀ tl, ∃ d1, (decZbpNode ps fuel d n).run ((encZbpNode ps val es n).1 ++ tl) = .ok (d1, tl) ∧
        ZbpInv val (encZbpNode ps val es n).2 d1 ∧ (encZbpNode ps val es n).2 n = true ∧
        ∀ m, es m = true → (encZbpNode ps val es n).2 m = true := by
      intro tl
      cases hst : es n with
      | true =>
        have hd : d.st n = true := by rw [h.st]; exact hst
        exact ⟨d, by simp [decZbpNode, encZbpNode, hst, hd], by simp [encZbpNode, hst, h],
          by simp [encZbpNode, hst], fun m hm => by simp [encZbpNode, hst, hm]⟩
      | false =>
        have hd : d.st n = false := by rw [h.st]; exact hst
        -- the value already implied by the parent
        have hr : raised ps ⟨d.cur, d.st⟩ n = zbpThr ps val n ∧
            raised ps ⟨d.cur, d.st⟩ n ≤ val n := by
          cases hq : parentFn ps n with
          | none => rw [raised_none hq]; simp [zbpThr, hq, h.fresh n hst]
          | some p =>
            have hp : es p = true := hprev p (by rw [← hn]; exact hq)
            rw [raised_some hq]
            simp only [zbpThr, hq]
            rw [h.fresh n hst, (h.coded p hp).1]
            have := hmono n p hq
            omega
        generalize hthr : zbpThr ps val n = thr at hr
        have hcz := countZeros_spec (val n - thr) fuel thr
          (by have := hfuel n; omega) (by have := hval n; omega) tl
        rw [show thr + (val n - thr) = val n by omega] at hcz
        refine ⟨{ cur := upd d.cur n (val n), st := upd d.st n true, value := upd d.value n (val n) }, ?_, ?_, ?_, ?_⟩
        · simp only [decZbpNode, encZbpNode, hst, hd, Bool.false_eq_true, if_false, hthr, hr.1, bind_eq]
          rw [List.append_assoc]
          exact run_bind_ok hcz
        · have e : (encZbpNode ps val es n).2 = upd es n true := by simp [encZbpNode, hst]
          rw [e]
          refine ⟨by simp [h.st], ?_, ?_⟩
          · intro m hm
            by_cases hmn : m = n
            · subst hmn; simp
            · have : es m = true := by simpa [upd_other, hmn] using hm
              simpa [upd_other, hmn] using h.coded m this
          · intro m hm
            by_cases hmn : m = n
            · subst hmn; simp at hm
            · have : es m = false := by simpa [upd_other, hmn] using hm
              simpa [upd_other, hmn] using h.fresh m this
        · simp [encZbpNode, hst]
        · intro m hm
          by_cases hmn : m = n
          · subst hmn; simp [encZbpNode, hst]
          · simp [encZbpNode, hst, upd_other, hmn, hm]
    obtain ⟨d1, hrun, hinv, hnt, hkeep⟩ := hnode ((encZbp ps val (encZbpNode ps val es n).2 path).1 ++ rest)
    obtain ⟨d', h1, h2, h3⟩ := ih (encZbpNode ps val es n).2 d1 (some n) hinv hch
      (by intro p hp; cases hp; exact hnt)
    refine ⟨d', ?_, h2, ?_⟩
    · rw [run_bind_ok hrun]; exact h1
    · intro m hm
      apply h3
      rcases hm with hm | hm
      · rcases List.mem_cons.1 hm with rfl | hm
        · exact Or.inr hnt
        · exact Or.inl hm
      · exact Or.inr (hkeep m hm)

end Verif.Packet
