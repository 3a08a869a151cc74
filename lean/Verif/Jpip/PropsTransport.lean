import Verif.Jpip.Transport
import Verif.Jpip.PropsHttp

/-!
# C84: what arrives does not depend on how TCP cuts it

The specification: `FirstEnd d b` (the first CR LF CR LF of `d` starts at `b`), and take and drop of the bytes sent.
-/

namespace Verif.Jpip

/-- CR LF CR LF at `i`. -/
def EndAt (d : List Nat) (i : Nat) : Prop := (d.drop i).take 4 = [13, 10, 13, 10]

/-- The first CR LF CR LF starts at `b`. -/
def FirstEnd (d : List Nat) (b : Nat) : Prop := EndAt d b ∧ ∀ i < b, ¬ EndAt d i

/-! ### Lemmas -/

theorem EndAt.le {d : List Nat} {i : Nat} (h : EndAt d i) : i + 4 ≤ d.length := by
  have := congrArg List.length h
  simp only [List.length_take, List.length_drop, List.length_cons, List.length_nil] at this
  omega

theorem endAt_append {d t : List Nat} {i : Nat} (h : i + 4 ≤ d.length) : EndAt (d ++ t) i ↔ EndAt d i := by
  unfold EndAt
  rw [List.drop_append_of_le_length (by omega), List.take_append_of_le_length (by simp; omega)]

theorem firstEnd_unique {d : List Nat} {b c : Nat} (hb : FirstEnd d b) (hc : FirstEnd d c) : b = c := by
  rcases Nat.lt_trichotomy b c with h | h | h
  · exact absurd hb.1 (hc.2 b h)
  · exact h
  · exact absurd hc.1 (hb.2 c h)

theorem headEnd_none {d : List Nat} (h : headEnd d = none) : ∀ i, ¬ EndAt d i := by
  induction d with
  | nil => intro i hi; have := hi.le; simp at this
  | cons c t ih =>
    unfold headEnd at h
    split_ifs at h with hc
    rw [Option.map_eq_none_iff] at h
    intro i hi
    cases i with
    | zero => exact hc hi
    | succ i => exact ih h i hi

theorem headEnd_some {d : List Nat} {b : Nat} (h : headEnd d = some b) : FirstEnd d b := by
  induction d generalizing b with
  | nil => simp [headEnd] at h
  | cons c t ih =>
    unfold headEnd at h
    split_ifs at h with hc
    · cases h
      exact ⟨hc, fun i hi => absurd hi (by omega)⟩
    · obtain ⟨k, hk, rfl⟩ := Option.map_eq_some_iff.1 h
      obtain ⟨h1, h2⟩ := ih hk
      refine ⟨h1, fun i hi => ?_⟩
      cases i with
      | zero => exact hc
      | succ i => exact h2 i (by omega)

theorem headEnd_of {d : List Nat} {b : Nat} (h : FirstEnd d b) : headEnd d = some b := by
  cases e : headEnd d with
  | none => exact absurd h.1 (headEnd_none e b)
  | some c => rw [firstEnd_unique (headEnd_some e) h]

theorem firstEnd_prefix {d t : List Nat} {b : Nat} (h : FirstEnd (d ++ t) b) (hb : b + 4 ≤ d.length) : FirstEnd d b :=
  ⟨(endAt_append hb).1 h.1, fun i hi hn => h.2 i hi ((endAt_append (by omega)).2 hn)⟩

theorem firstEnd_extend {d t : List Nat} {b : Nat} (h : FirstEnd d b) : FirstEnd (d ++ t) b :=
  ⟨(endAt_append h.1.le).2 h.1, fun i hi hn => h.2 i hi ((endAt_append (by have := h.1.le; omega)).1 hn)⟩

theorem four_at {d : List Nat} {i : Nat} (h : i + 4 ≤ d.length) :
    ∃ a b c e, d[i]? = some a ∧ d[i + 1]? = some b ∧ d[i + 2]? = some c ∧ d[i + 3]? = some e ∧ (d.drop i).take 4 = [a, b, c, e] := by
  refine ⟨d[i], d[i + 1], d[i + 2], d[i + 3], List.getElem?_eq_getElem _, List.getElem?_eq_getElem _, List.getElem?_eq_getElem _, List.getElem?_eq_getElem _, ?_⟩
  rw [List.drop_eq_getElem_cons (by omega), List.drop_eq_getElem_cons (by omega), List.drop_eq_getElem_cons (by omega), List.drop_eq_getElem_cons (by omega)]
  simp only [List.take_succ_cons, List.take_zero]

theorem scan_spec (d : List Nat) (c : Nat) : ∀ i, d.length - i ≤ c → ∃ v, scan d i = some v ∧ (v = true ↔ ∃ j, i ≤ j ∧ EndAt d j) := by
  induction c with
  | zero =>
    intro i hc
    rw [scan, if_neg (by omega)]
    exact ⟨false, rfl, by simp; intro j hj he; have := he.le; omega⟩
  | succ c ih =>
    intro i hc
    rw [scan]
    by_cases h : i + 4 ≤ d.length
    · obtain ⟨a, b, e, f, h1, h2, h3, h4, h5⟩ := four_at h
      simp only [if_pos h, h1, h2, h3, h4, Option.bind_eq_bind, Option.bind_some]
      by_cases hm : a = 13 ∧ b = 10 ∧ e = 13 ∧ f = 10
      · rw [if_pos hm]
        obtain ⟨rfl, rfl, rfl, rfl⟩ := hm
        exact ⟨true, rfl, by simp; exact ⟨i, le_refl _, h5⟩⟩
      · rw [if_neg hm]
        obtain ⟨v, e1, e2⟩ := ih (i + 1) (by omega)
        refine ⟨v, e1, e2.trans ⟨fun ⟨j, hj, he⟩ => ⟨j, by omega, he⟩, fun ⟨j, hj, he⟩ => ⟨j, ?_, he⟩⟩⟩
        by_contra hn
        obtain rfl : j = i := by omega
        unfold EndAt at he
        rw [h5] at he
        simp at he
        exact hm he
    · rw [if_neg h]
      exact ⟨false, rfl, by simp; intro j hj he; have := he.le; omega⟩

/-- Looking at the new bytes and the three before them is enough. -/
theorem headSeen_spec {old t : List Nat} (ho : ∀ i, ¬ EndAt old i) : ∃ v, headSeen (old ++ t) t.length = some v ∧ (v = true ↔ ∃ j, EndAt (old ++ t) j) := by
  unfold headSeen
  by_cases h4 : 4 ≤ (old ++ t).length
  · rw [if_pos h4]
    obtain ⟨v, e1, e2⟩ := scan_spec (old ++ t) _ (if t.length + 3 < (old ++ t).length then (old ++ t).length - t.length - 3 else 0) (le_refl _)
    refine ⟨v, e1, e2.trans ⟨fun ⟨j, _, he⟩ => ⟨j, he⟩, fun ⟨j, he⟩ => ⟨j, ?_, he⟩⟩⟩
    split_ifs with hs
    · by_contra hn
      simp only [List.length_append] at hn hs
      exact ho j ((endAt_append (by omega)).1 he)
    · omega
  · rw [if_neg h4]
    exact ⟨false, rfl, by simp; intro j he; have := he.le; simp only [List.length_append] at this h4; omega⟩

theorem count_le (s : Net) (k : Nat) : s.count k ≤ k ∧ s.count k ≤ s.data.length ∧ (s.count k = 0 ↔ k = 0 ∨ s.data = []) := by
  unfold Net.count
  refine ⟨by omega, by omega, ?_⟩
  rw [← List.length_eq_zero_iff]
  omega

theorem recvHead_spec (max : Nat) (data : List Nat) (c : Nat) : ∀ buf s, max - buf.length ≤ c → buf ++ s.data = data → (∀ i, ¬ EndAt buf i) → buf.length ≤ max →
    ∃ buf' s', recvHead max buf s = some (buf', s') ∧ buf' ++ s'.data = data ∧ buf'.length ≤ max ∧ (∀ b, FirstEnd data b → buf'.length < b + 4 + 4096) ∧
      (∀ b, FirstEnd data b → b + 4 ≤ max → b + 4 ≤ buf'.length) ∧ ((∀ b, FirstEnd data b → max < b + 4) → buf' = data.take max) := by
  have stop : ∀ buf (s : Net), buf ++ s.data = data → (∀ i, ¬ EndAt buf i) → buf.length ≤ max → buf.length = max ∨ s.data = [] →
      (∀ b, FirstEnd data b → buf.length < b + 4 + 4096) ∧ (∀ b, FirstEnd data b → b + 4 ≤ max → b + 4 ≤ buf.length) ∧ ((∀ b, FirstEnd data b → max < b + 4) → buf = data.take max) := by
    intro buf s hd hn hm hor
    have far : ∀ b, FirstEnd data b → buf.length < b + 4 := fun b hb => by
      by_contra hlt
      rw [← hd] at hb
      exact hn b ((endAt_append (by omega)).1 hb.1)
    refine ⟨fun b hb => by have := far b hb; omega, fun b hb hbm => ?_, fun _ => ?_⟩
    · rcases hor with h | h
      · omega
      · have := hb.1.le
        rw [← hd, h, List.append_nil] at this
        omega
    · rcases hor with h | h
      · rw [← hd, ← h, List.take_left]
      · rw [← hd, h, List.append_nil, List.take_of_length_le hm]
  induction c with
  | zero =>
    intro buf s hc hd hn hm
    rw [recvHead, if_neg (by omega)]
    exact ⟨buf, s, rfl, hd, hm, stop buf s hd hn hm (Or.inl (by omega))⟩
  | succ c ih =>
    intro buf s hc hd hn hm
    rw [recvHead]
    by_cases hlt : buf.length < max
    · simp only [if_pos hlt]
      obtain ⟨c1, c2, c3⟩ := count_le s (min 4096 (max - buf.length))
      by_cases h0 : s.count (min 4096 (max - buf.length)) = 0
      · simp only [if_pos h0]
        exact ⟨buf, s, rfl, hd, hm, stop buf s hd hn hm (Or.inr ((c3.1 h0).resolve_left (by omega)))⟩
      · simp only [if_neg h0, Net.recv]
        have hd' : buf ++ s.data.take (s.count (min 4096 (max - buf.length))) ++ s.data.drop (s.count (min 4096 (max - buf.length))) = data := by
          rw [List.append_assoc, List.take_append_drop]; exact hd
        have ht : (s.data.take (s.count (min 4096 (max - buf.length)))).length = s.count (min 4096 (max - buf.length)) := by simp; omega
        obtain ⟨v, e1, e2⟩ := headSeen_spec (t := s.data.take (s.count (min 4096 (max - buf.length)))) hn
        rw [ht] at e1
        simp only [e1, Option.bind_eq_bind, Option.bind_some]
        cases v with
        | true =>
          simp only [if_true]
          obtain ⟨j, hj⟩ := e2.1 rfl
          refine ⟨_, _, rfl, hd', by simp; omega, fun b hb => ?_, fun b hb hbm => ?_, fun hall => ?_⟩
          · have : buf.length < b + 4 := by
              by_contra hlt
              rw [← hd] at hb
              exact hn b ((endAt_append (by omega)).1 hb.1)
            rw [List.length_append, ht]
            omega
          · by_contra hlt'
            have hjl := hj.le
            refine hb.2 j (by omega) ?_
            rw [← hd']
            exact (endAt_append hjl).2 hj
          · exfalso
            have hjl := hj.le
            have he : EndAt data j := by rw [← hd']; exact (endAt_append hjl).2 hj
            obtain ⟨b, hb⟩ : ∃ b, headEnd data = some b := by
              cases e : headEnd data with
              | none => exact absurd he (headEnd_none e j)
              | some b => exact ⟨b, rfl⟩
            have hb' := headEnd_some hb
            have := hall b hb'
            have : b ≤ j := by
              by_contra hn'
              exact hb'.2 j (by omega) he
            rw [List.length_append, ht] at hjl
            omega
        | false =>
          simp only [Bool.false_eq_true, if_false]
          exact ih _ ⟨_, _⟩ (by rw [List.length_append, ht]; omega) hd' (fun i hi => by simpa using e2.2 ⟨i, hi⟩) (by rw [List.length_append, ht]; omega)
    · rw [if_neg hlt]
      exact ⟨buf, s, rfl, hd, hm, stop buf s hd hn hm (Or.inl (by omega))⟩

theorem readLength_spec (len : Nat) (c : Nat) : ∀ got (s : Net), s.data.length ≤ c → got.length ≤ len → readLength len got s = (got ++ s.data).take len := by
  induction c with
  | zero =>
    intro got s hc hg
    have : s.data = [] := List.length_eq_zero_iff.1 (by omega)
    rw [readLength]
    have c0 : s.count 16384 = 0 := (count_le s 16384).2.2.2 (Or.inr this)
    rw [if_pos c0, ite_self, this, List.append_nil, List.take_of_length_le hg]
  | succ c ih =>
    intro got s hc hg
    rw [readLength]
    split_ifs with h1 h2
    · rw [List.take_append_of_le_length h1, List.take_of_length_le hg]
    · have : s.data = [] := by
        rcases (count_le s 16384).2.2.1 h2 with h | h
        · omega
        · exact h
      rw [this, List.append_nil, List.take_of_length_le hg]
    · have hle := (count_le s 16384).2.1
      simp only
      rw [ih _ _ (by simp only [Net.recv, List.length_drop]; omega) (by simp; omega)]
      simp only [Net.recv]
      generalize s.count 16384 = n at *
      have e : got ++ s.data = (got ++ s.data.take n) ++ s.data.drop n := by rw [List.append_assoc, List.take_append_drop]
      rw [e]
      have tl : (s.data.take n).length = n := by simp; omega
      rw [tl]
      by_cases hn : n ≤ len - got.length
      · rw [Nat.min_eq_left hn, List.take_of_length_le (l := s.data.take n) (by omega)]
      · rw [Nat.min_eq_right (by omega)]
        have e1 : (got ++ s.data.take n).take len = got ++ (s.data.take n).take (len - got.length) := by rw [List.take_append, List.take_of_length_le hg]
        rw [List.take_append_of_le_length (by simp only [List.length_append, List.length_take]; omega),
          List.take_append_of_le_length (l₁ := got ++ s.data.take n) (by simp only [List.length_append, List.length_take]; omega), e1,
          List.take_of_length_le (by simp only [List.length_append, List.length_take]; omega)]

theorem readChunks_spec (c : Nat) : ∀ d (s : Net), s.data.length ≤ c → (d.feed []).seen = d.seen → (readChunks d s).seen = (d.feed s.data).seen := by
  have done : ∀ d : Dec, d.ended ≠ none → ∀ l, d.feed l = d := by
    intro d h l
    unfold Dec.feed
    cases e : d.ended with
    | none => exact absurd e h
    | some v => rfl
  induction c with
  | zero =>
    intro d s hc hd
    have : s.data = [] := List.length_eq_zero_iff.1 (by omega)
    rw [readChunks]
    have c0 : s.count 16384 = 0 := (count_le s 16384).2.2.2 (Or.inr this)
    rw [if_pos c0, ite_self, this, hd]
  | succ c ih =>
    intro d s hc hd
    rw [readChunks]
    split_ifs with h1 h2
    · rw [done d h1]
    · have : s.data = [] := by
        rcases (count_le s 16384).2.2.1 h2 with h | h
        · omega
        · exact h
      rw [this, hd]
    · have hle := (count_le s 16384).2.1
      rw [ih _ _ (by simp only [Net.recv, List.length_drop]; omega) (by rw [(feed_feed d _ []).1, List.append_nil])]
      rw [(feed_feed d _ _).1]
      simp only [Net.recv, List.take_append_drop]

theorem recvAll_spec (len : Nat) (c : Nat) : ∀ got (s : Net), s.data.length ≤ c → got.length ≤ len →
    recvAll len got s = if len ≤ got.length + s.data.length then some ((got ++ s.data).take len) else none := by
  induction c with
  | zero =>
    intro got s hc hg
    have : s.data = [] := List.length_eq_zero_iff.1 (by omega)
    rw [recvAll]
    have c0 : s.count (len - got.length) = 0 := (count_le s _).2.2.2 (Or.inr this)
    rw [if_pos c0, this, List.append_nil, List.length_nil, Nat.add_zero]
    split_ifs with h1 h2 h2
    · omega
    · rfl
    · rw [List.take_of_length_le hg]
    · omega
  | succ c ih =>
    intro got s hc hg
    obtain ⟨k1, k2, k3⟩ := count_le s (len - got.length)
    rw [recvAll]
    by_cases h1 : got.length < len
    · rw [if_pos h1]
      by_cases h2 : s.count (len - got.length) = 0
      · rw [if_pos h2]
        have : s.data = [] := by
          rcases k3.1 h2 with h | h
          · omega
          · exact h
        rw [if_neg (by rw [this]; simp; omega)]
      · rw [if_neg h2, ih _ _ (by simp only [Net.recv, List.length_drop]; omega) (by simp only [Net.recv, List.length_append, List.length_take]; omega)]
        simp only [Net.recv, List.append_assoc, List.take_append_drop, List.length_append, List.length_take, List.length_drop]
        congr 1
        apply propext
        omega
    · rw [if_neg h1, if_pos (by omega), List.take_append_of_le_length (by omega), List.take_of_length_le hg]

/-! ### Heads -/

/-- **C84.** However the bytes arrive, and whatever the peer sends: `recv_until_header_end` stays within its buffer, keeps what it read in order, and loses nothing.  If the
first CR LF CR LF is complete within `max` bytes, it is in the buffer, at the same place, and not more than one call of `recv` was made for what follows; otherwise the buffer
has the first `max` bytes, or everything. -/
theorem C84_recv_head (max : Nat) (data plan : List Nat) :
    ∃ buf s, recvHead max [] ⟨data, plan⟩ = some (buf, s) ∧ buf ++ s.data = data ∧ buf.length ≤ max ∧
      (∀ b, FirstEnd data b → b + 4 ≤ max → FirstEnd buf b) ∧ (∀ b, FirstEnd data b → buf.length < b + 4 + 4096) ∧ ((∀ b, FirstEnd data b → max < b + 4) → buf = data.take max) := by
  obtain ⟨buf, s, e, h1, h2, h3, h4, h5⟩ := recvHead_spec max data _ [] ⟨data, plan⟩ (le_refl _) rfl (fun i hi => by have := hi.le; simp at this) (by simp)
  exact ⟨buf, s, e, h1, h2, fun b hb hbm => firstEnd_prefix (t := s.data) (by rwa [h1]) (h4 b hb hbm), h3, h5⟩

/-! ### Responses -/

theorem strtoullBuf_mono {l t : List Nat} {v : Nat} (h : strtoullBuf l = some v) : strtoullBuf (l ++ t) = some v := by
  have ws : ∀ l r, skipWs l = some r → skipWs (l ++ t) = some (r ++ t) := by
    intro l
    induction l with
    | nil => intro r h; simp [skipWs] at h
    | cons c l ih =>
      intro r h
      unfold skipWs at h
      rw [List.cons_append, skipWs]
      split_ifs at h ⊢ with hc
      · exact ih r h
      · cases h; rfl
  have dg : ∀ l a v, readDigits l a = some v → readDigits (l ++ t) a = some v := by
    intro l
    induction l with
    | nil => intro a v h; simp [readDigits] at h
    | cons c l ih =>
      intro a v h
      unfold readDigits at h
      rw [List.cons_append, readDigits]
      split_ifs at h ⊢ with hc
      · exact ih _ v h
      · exact h
  unfold strtoullBuf at h ⊢
  simp only [Option.bind_eq_bind, Option.bind_eq_some_iff] at h
  obtain ⟨r, h1, h2⟩ := h
  simp only [ws l r h1, Option.bind_eq_bind, Option.bind_some]
  cases r with
  | nil => simp at h2
  | cons c r =>
    simp only [List.cons_append, Option.bind_eq_some_iff] at h2 ⊢
    obtain ⟨w, h3, h4⟩ := h2
    refine ⟨w, ?_, h4⟩
    split_ifs at h3 ⊢
    · exact dg _ _ _ h3
    · exact dg (c :: r) _ _ h3

theorem lengthLoop_mono (t : List Nat) (c : Nat) : ∀ (full head : List Nat) (v : Nat), head.length ≤ c → head.length ≤ full.length → lengthLoop full head = some v → lengthLoop (full ++ t) head = some v := by
  induction c with
  | zero =>
    intro full head v hc _ h
    have : head = [] := List.length_eq_zero_iff.1 (by omega)
    subst this
    rw [lengthLoop, if_pos rfl] at h ⊢
    exact h
  | succ c ih =>
    intro full head v hc hl h
    rw [lengthLoop] at h ⊢
    by_cases h0 : head = []
    · rw [if_pos h0] at h ⊢
      exact h
    · have hpos := List.length_pos_iff.2 h0
      simp only [if_neg h0] at h ⊢
      have hline : (head.takeWhile (· ≠ 10)).length ≤ head.length := (List.takeWhile_sublist _).length_le
      split_ifs at h ⊢ with hm
      · have hb : 15 + (((head.takeWhile (· ≠ 10)).drop 15).takeWhile fun c => decide (c = 32 ∨ c = 9)).length ≤ full.length := by
          have := (List.takeWhile_sublist (l := (head.takeWhile (· ≠ 10)).drop 15) fun c => decide (c = 32 ∨ c = 9)).length_le
          simp only [List.length_drop] at this
          have := hm.1
          omega
        rw [List.drop_append_of_le_length hb]
        exact strtoullBuf_mono h
      · by_cases hr : (head.takeWhile (· ≠ 10)).length + 1 ≤ full.length
        · rw [List.drop_append_of_le_length hr]
          exact ih _ _ v (by simp only [List.length_drop]; omega) (by simp only [List.length_drop]; omega) h
        · have he : head.drop ((head.takeWhile (· ≠ 10)).length + 1) = [] := List.drop_of_length_le (by omega)
          rw [he] at h ⊢
          rw [lengthLoop, if_pos rfl] at h ⊢
          exact h

/-- The buffer that `fetch` and `postBody` start from. -/
theorem head_read {data : List Nat} (plan : List Nat) {b : Nat} (hb : FirstEnd data b) (hm : b + 4 ≤ 65536) :
    ∃ buf s, recvHead 65536 [] ⟨data, plan⟩ = some (buf, s) ∧ buf ++ s.data = data ∧ FirstEnd buf b ∧ b + 4 ≤ buf.length ∧ buf.drop (b + 4) ++ s.data = data.drop (b + 4) := by
  obtain ⟨buf, s, e, h1, -, h3, -⟩ := C84_recv_head 65536 data plan
  have hf := h3 b hb hm
  have hl := hf.1.le
  exact ⟨buf, s, e, h1, hf, hl, by rw [← h1, List.drop_append_of_le_length hl]⟩

/-- **C84.** A chunked response: however it arrives, the client hands to its parser what the decoder makes of the whole body at once, and reports what that reports. -/
theorem C84_fetch_chunked (data plan : List Nat) (b : Nat) (hb : FirstEnd data b) (hm : b + 4 ≤ 65536) (hc : (isChunked data).1 = true) :
    fetch ⟨data, plan⟩ = some (((({} : Dec).feed (data.drop (b + 4)))).out, decide ((({} : Dec).feed (data.drop (b + 4))).ended ≠ some false)) := by
  obtain ⟨buf, s, e, h1, hf, hl, hd⟩ := head_read plan hb hm
  have ic : isChunked buf = (true, some (b + 4)) := by
    unfold isChunked at hc ⊢
    rw [headEnd_of hb] at hc
    rw [headEnd_of hf]
    simp only at hc ⊢
    rw [← h1, List.take_append_of_le_length (by omega)] at hc
    rw [hc]
  have hne : buf.length ≠ 0 := by omega
  simp only [fetch, e, Option.bind_eq_bind, Option.bind_some, if_neg hne, ic, Option.getD_some]
  have e0 : (({} : Dec).feed []) = {} := by decide +kernel
  have hx : (if 0 < (buf.drop (b + 4)).length then ({} : Dec).feed (buf.drop (b + 4)) else {}) = ({} : Dec).feed (buf.drop (b + 4)) := by
    split_ifs with h
    · rfl
    · rw [List.length_eq_zero_iff.1 (by omega : (buf.drop (b + 4)).length = 0), e0]
  rw [hx]
  have := readChunks_spec _ (({} : Dec).feed (buf.drop (b + 4))) s (le_refl _) (by rw [(feed_feed _ _ []).1, List.append_nil])
  rw [(feed_feed _ _ _).1, hd] at this
  simp only [Dec.seen, Prod.mk.injEq] at this
  rw [this.1, this.2]

/-- **C84.** A response with a length: however it arrives, the client hands that many bytes of the body to its parser, or as many as came, and reports no error in either case. -/
theorem C84_fetch_length (data plan : List Nat) (b n : Nat) (hb : FirstEnd data b) (hm : b + 4 ≤ 65536) (hc : (isChunked data).1 = false)
    (hn : contentLength (data.take (b + 4)) = some (n, some (b + 4))) (hs : n ≠ 2 ^ 64 - 1) : fetch ⟨data, plan⟩ = some ((data.drop (b + 4)).take n, true) := by
  obtain ⟨buf, s, e, h1, hf, hl, hd⟩ := head_read plan hb hm
  have ic : isChunked buf = (false, some (b + 4)) := by
    unfold isChunked at hc ⊢
    rw [headEnd_of hb] at hc
    rw [headEnd_of hf]
    simp only at hc ⊢
    rw [← h1, List.take_append_of_le_length (by omega)] at hc
    rw [hc]
  have cl : contentLength buf = some (n, some (b + 4)) := by
    have ht : data.take (b + 4) = buf.take (b + 4) := by rw [← h1, List.take_append_of_le_length hl]
    rw [ht] at hn
    have hf' : FirstEnd (buf.take (b + 4)) b := firstEnd_prefix (t := buf.drop (b + 4)) (by rwa [List.take_append_drop]) (by simp; omega)
    unfold contentLength at hn ⊢
    rw [headEnd_of hf'] at hn
    rw [headEnd_of hf]
    simp only [Option.bind_eq_bind, Option.bind_eq_some_iff, List.take_take, Nat.min_eq_left (by omega : b ≤ b + 4)] at hn ⊢
    obtain ⟨m, h2, h3⟩ := hn
    refine ⟨m, ?_, h3⟩
    have := lengthLoop_mono (buf.drop (b + 4)) _ _ _ m (le_refl _) (by simp) h2
    rwa [List.take_append_drop] at this
  have hne : buf.length ≠ 0 := by omega
  simp only [fetch, e, Option.bind_eq_bind, Option.bind_some, if_neg hne, ic, cl, if_neg hs, Option.getD_some]
  rw [readLength_spec _ _ _ _ (le_refl _) (by simp), ← hd]
  congr 2
  by_cases h : (buf.drop (b + 4)).length ≤ n
  · rw [Nat.min_eq_left h, List.take_of_length_le (le_refl _)]
  · rw [Nat.min_eq_right (by omega), List.take_append_of_le_length (by simp only [List.length_take]; omega), List.take_append_of_le_length (by omega), List.take_take, Nat.min_self]

/-- The head of the response of the server to a client, in the terms of this file. -/
theorem server_head (msgs : List (List Nat)) (tid cnew : List Nat) (ext : List (List Nat)) (h : HeadOk tid cnew ext) (hm : ∀ c ∈ msgs, c.length < 2 ^ 64) :
    ∃ head b, formatChunkedHead tid cnew (joinLines ext) = some head ∧ FirstEnd (head ++ sendChunks msgs) b ∧ (isChunked (head ++ sendChunks msgs)).1 = true ∧
      (({} : Dec).feed ((head ++ sendChunks msgs).drop (b + 4))).seen = (msgs.flatten, some true) := by
  obtain ⟨head, e, h1, h2, h3⟩ := C73_chunked_roundtrip msgs tid cnew ext h hm
  obtain ⟨b, hb⟩ : ∃ b, headEnd (head ++ sendChunks msgs) = some b := by
    unfold isChunked at h2
    cases hh : headEnd (head ++ sendChunks msgs) with
    | none => rw [hh] at h2; simp at h2
    | some b => exact ⟨b, rfl⟩
  have he : e = b + 4 := by
    unfold isChunked at h2
    rw [hb] at h2
    simp at h2
    exact h2.2.symm
  refine ⟨head, b, h1, headEnd_some hb, by rw [h2], ?_⟩
  have := h3 [(head ++ sendChunks msgs).drop e] (by simp)
  rwa [List.foldl_cons, List.foldl_nil, he] at this

/-- **C84.** What the server sends in chunks arrives, whatever TCP does, if its head fits into the buffer of the client. -/
theorem C84_server_to_client (msgs : List (List Nat)) (tid cnew : List Nat) (ext : List (List Nat)) (h : HeadOk tid cnew ext) (hm : ∀ c ∈ msgs, c.length < 2 ^ 64) :
    ∃ head b, formatChunkedHead tid cnew (joinLines ext) = some head ∧ FirstEnd (head ++ sendChunks msgs) b ∧
      (b + 4 ≤ 65536 → ∀ plan, fetch ⟨head ++ sendChunks msgs, plan⟩ = some (msgs.flatten, true)) := by
  obtain ⟨head, b, h1, h2, h3, h4⟩ := server_head msgs tid cnew ext h hm
  refine ⟨head, b, h1, h2, fun hl plan => ?_⟩
  simp only [Dec.seen, Prod.mk.injEq] at h4
  rw [C84_fetch_chunked _ plan b h2 hl h3, h4.1, h4.2]
  rfl

/-! ### Connections that end too early -/

theorem feed_out (d : Dec) (l : List Nat) : d.out <+: (d.feed l).out := by
  unfold Dec.feed
  split
  · exact List.prefix_refl _
  · simp only
    split <;> exact List.prefix_append _ _

theorem feed_ended (d : Dec) (l : List Nat) {v : Bool} (h : d.ended = some v) : d.feed l = d := by
  unfold Dec.feed
  rw [h]

/-- **C84.** The client does not notice that a chunked response was cut off: wherever after the head the connection ends, no error is reported, and the parser got the beginning
of what was sent (nothing, when only the head came). -/
theorem C84_cut_chunked_accepted (msgs : List (List Nat)) (tid cnew : List Nat) (ext : List (List Nat)) (h : HeadOk tid cnew ext) (hm : ∀ c ∈ msgs, c.length < 2 ^ 64) :
    ∃ head b, formatChunkedHead tid cnew (joinLines ext) = some head ∧ FirstEnd (head ++ sendChunks msgs) b ∧
      (b + 4 ≤ 65536 → ∀ k plan, b + 4 ≤ k → ∃ got, fetch ⟨(head ++ sendChunks msgs).take k, plan⟩ = some (got, true) ∧ got <+: msgs.flatten ∧ (k = b + 4 → got = [])) := by
  obtain ⟨head, b, h1, h2, h3, h4⟩ := server_head msgs tid cnew ext h hm
  refine ⟨head, b, h1, h2, fun hl k plan hk => ?_⟩
  generalize head ++ sendChunks msgs = data at *
  have hlen := h2.1.le
  have hf : FirstEnd (data.take k) b := firstEnd_prefix (t := data.drop k) (by rwa [List.take_append_drop]) (by simp only [List.length_take]; omega)
  have hc : (isChunked (data.take k)).1 = true := by
    unfold isChunked at h3 ⊢
    rw [headEnd_of h2] at h3
    rw [headEnd_of hf]
    simp only at h3 ⊢
    rwa [List.take_take, Nat.min_eq_left (by omega)]
  have hs : (data.take k).drop (b + 4) ++ data.drop k = data.drop (b + 4) := by
    rw [← List.drop_append_of_le_length (by simp only [List.length_take]; omega), List.take_append_drop]
  have hff := (feed_feed {} ((data.take k).drop (b + 4)) (data.drop k)).1
  rw [hs, h4] at hff
  simp only [Dec.seen, Prod.mk.injEq] at hff
  have hne : (({} : Dec).feed ((data.take k).drop (b + 4))).ended ≠ some false := by
    intro hbad
    rw [feed_ended _ _ hbad, hbad] at hff
    exact absurd hff.2 (by simp)
  refine ⟨_, (C84_fetch_chunked _ plan b hf hl hc).trans (by rw [decide_eq_true hne]), ?_, ?_⟩
  · rw [← hff.1]
    exact feed_out _ _
  · intro hkb
    rw [hkb, List.drop_take, Nat.sub_self, List.take_zero]
    decide +kernel

/-- **C84.** Nor that a response with a length was cut off. -/
theorem C84_cut_length_accepted (data plan : List Nat) (b n k : Nat) (hb : FirstEnd data b) (hm : b + 4 ≤ 65536) (hc : (isChunked data).1 = false)
    (hn : contentLength (data.take (b + 4)) = some (n, some (b + 4))) (hs : n ≠ 2 ^ 64 - 1) (hk : b + 4 ≤ k) :
    fetch ⟨data.take k, plan⟩ = some ((data.drop (b + 4)).take (min n (k - (b + 4))), true) := by
  have hlen := hb.1.le
  have hf : FirstEnd (data.take k) b := firstEnd_prefix (t := data.drop k) (by rwa [List.take_append_drop]) (by simp only [List.length_take]; omega)
  have hc' : (isChunked (data.take k)).1 = false := by
    unfold isChunked at hc ⊢
    rw [headEnd_of hb] at hc
    rw [headEnd_of hf]
    simp only at hc ⊢
    rwa [List.take_take, Nat.min_eq_left (by omega)]
  rw [C84_fetch_length _ plan b n hf hm hc' (by rwa [List.take_take, Nat.min_eq_left hk]) hs, List.drop_take, List.take_take]

/-! ### Requests -/

/-- **C84.** The body of a POST: however it arrives, the server takes the announced number of bytes that follow the head, and answers 400 when fewer come. -/
theorem C84_post_body (clen : Nat) (data plan : List Nat) (b : Nat) (hb : FirstEnd data b) (hm : b + 4 ≤ 65536) :
    postBody clen ⟨data, plan⟩ = some (if clen ≤ (data.drop (b + 4)).length then some ((data.drop (b + 4)).take clen) else none) := by
  obtain ⟨buf, s, e, h1, hf, hl, hd⟩ := head_read plan hb hm
  simp only [postBody, e, Option.bind_eq_bind, Option.bind_some, headEnd_of hf]
  rw [← hd]
  split_ifs with h h2 h2
  · rw [recvAll_spec _ _ _ _ (le_refl _) (by omega), if_pos (by rwa [List.length_append] at h2)]
  · rw [recvAll_spec _ _ _ _ (le_refl _) (by omega), if_neg (by rwa [List.length_append] at h2)]
  · rw [List.take_append_of_le_length (by omega)]
  · rw [List.length_append] at h2
    omega

/-- **C84.** A POST whose head never ends: the server takes the head itself for the body. -/
theorem C84_post_without_end (clen : Nat) (data plan : List Nat) (hn : ∀ i, ¬ EndAt data i) (hl : data.length ≤ 65536) (hc : clen ≤ data.length) :
    postBody clen ⟨data, plan⟩ = some (some (data.take clen)) := by
  obtain ⟨buf, s, e, h1, -, -, -, h5⟩ := C84_recv_head 65536 data plan
  have hb : buf = data := by
    rw [h5 (fun b hb => absurd hb.1 (hn b)), List.take_of_length_le hl]
  have he : headEnd buf = none := by
    rw [hb]
    cases e : headEnd data with
    | none => rfl
    | some b => exact absurd (headEnd_some e).1 (hn b)
  simp only [postBody, e, Option.bind_eq_bind, Option.bind_some, he, List.drop_zero]
  rw [hb, if_neg (by omega)]

/-! ### The hypotheses are met -/

/-- A head that arrives one byte at a time: `A CR LF CR LF`, then two bytes of the body. -/
example : FirstEnd [65, 13, 10, 13, 10, 7, 8] 1 ∧ (recvHead 65536 [] ⟨[65, 13, 10, 13, 10, 7, 8], [1, 1, 1, 1, 1, 1, 1]⟩).map (·.1) = some [65, 13, 10, 13, 10] ∧
    (recvHead 65536 [] ⟨[65, 13, 10, 13, 10, 7, 8], [4]⟩).map (·.1) = some [65, 13, 10, 13, 10, 7, 8] :=
  ⟨headEnd_some (by decide +kernel), by decide +kernel, by decide +kernel⟩

/-- A POST of which three bytes are announced and come in pieces; of which too few come; and whose head never ends. -/
example : postBody 3 ⟨[65, 13, 10, 13, 10, 7, 8, 9, 1], [2, 4, 1, 1]⟩ = some (some [7, 8, 9]) ∧ postBody 3 ⟨[65, 13, 10, 13, 10, 7], [2]⟩ = some none ∧
    postBody 3 ⟨[65, 13, 10, 66, 67], []⟩ = some (some [65, 13, 10]) :=
  ⟨by rw [C84_post_body 3 _ _ 1 (headEnd_some (by decide +kernel)) (by decide)]; rfl, by rw [C84_post_body 3 _ _ 1 (headEnd_some (by decide +kernel)) (by decide)]; rfl,
    by rw [C84_post_without_end 3 _ _ (headEnd_none (by decide +kernel)) (by decide) (by decide)]; rfl⟩

/-- A response of three bytes, and what the client makes of it when the connection ends after one of them. -/
example (plan : List Nat) : fetch ⟨asc "Content-Length: 3" ++ [13, 10, 13, 10, 7, 8, 9], plan⟩ = some ([7, 8, 9], true) ∧
    fetch ⟨(asc "Content-Length: 3" ++ [13, 10, 13, 10, 7, 8, 9]).take 22, plan⟩ = some ([7], true) :=
  ⟨by rw [C84_fetch_length _ plan 17 3 (headEnd_some (by decide +kernel)) (by decide) (by decide +kernel) (by decide +kernel) (by decide)]; decide +kernel,
    by rw [C84_cut_length_accepted _ plan 17 3 22 (headEnd_some (by decide +kernel)) (by decide) (by decide +kernel) (by decide +kernel) (by decide) (by decide)]; decide +kernel⟩

/-- A chunked response of two bytes. -/
example (plan : List Nat) : fetch ⟨asc "Transfer-Encoding: chunked" ++ [13, 10, 13, 10] ++ sendChunks [[7, 8]], plan⟩ = some ([7, 8], true) := by
  rw [C84_fetch_chunked _ plan 26 (headEnd_some (by decide +kernel)) (by decide) (by decide +kernel)]
  decide +kernel

/-- The head of the server with a target identifier. -/
example : HeadOk [97, 98] [] [] := by
  constructor <;> simp

end Verif.Jpip
