import Verif.Jpip.Chunked

/-!
# Chunked transfer coding (C16)
-/

namespace Verif.Jpip

/-! ## The streaming decoder does not depend on the fragmentation -/

/-- What a run over more bytes yields, given a run over the first of them. -/
def extend (x : List Nat × Outcome) (b : List Nat) : List Nat × Outcome :=
  match x.2 with
  | .wait m r => (x.1 ++ (runDec m (r ++ b)).1, (runDec m (r ++ b)).2)
  | .fail => x
  | .done r => (x.1, .done (r ++ b))

theorem splitNl_append {l a c : List Nat} (h : splitNl l = some (a, c)) (b : List Nat) : splitNl (l ++ b) = some (a, c ++ b) := by
  induction l generalizing a c with
  | nil => simp [splitNl] at h
  | cons x xs ih =>
    rw [List.cons_append]
    unfold splitNl at h ⊢
    split_ifs at h ⊢ with hx
    · simp only [Option.some.injEq, Prod.mk.injEq] at h ⊢
      exact ⟨h.1, by rw [h.2]⟩
    · cases hs : splitNl xs with
      | none => rw [hs] at h; simp at h
      | some p =>
        rw [hs] at h
        rw [ih (a := p.1) (c := p.2) hs]
        simp only [Option.map_some, Option.some.injEq, Prod.mk.injEq] at h ⊢
        exact ⟨h.1, by rw [h.2]⟩

theorem extend_cons (p : List Nat) (x : List Nat × Outcome) (b : List Nat) :
    extend (p ++ x.1, x.2) b = (p ++ (extend x b).1, (extend x b).2) := by
  unfold extend
  simp only
  split <;> simp

theorem runDec_size_none {r : List Nat} (h : splitNl r = none) : runDec .size r = ([], .wait .size r) := by
  rw [runDec]
  split
  · rfl
  · next h' => rw [h] at h'; simp at h'

theorem runDec_size_some {r line rest : List Nat} (h : splitNl r = some (line, rest)) :
    runDec .size r = match sizeLine line with
      | none => ([], .fail)
      | some n => if n = 0 then runDec .final rest else runDec (.payload n) rest := by
  conv => lhs; rw [runDec]
  split
  · next h' => rw [h] at h'; simp at h'
  · next h' =>
    rw [h] at h'
    simp only [Option.some.injEq, Prod.mk.injEq] at h'
    obtain ⟨rfl, rfl⟩ := h'
    rfl

theorem runDec_append (m : Mode) (r b : List Nat) : runDec m (r ++ b) = extend (runDec m r) b := by
  have key : ∀ (k : Nat) (m : Mode) (r : List Nat), 2 * r.length + m.weight < k →
      runDec m (r ++ b) = extend (runDec m r) b := by
    intro k
    induction k with
    | zero => intro m r h; omega
    | succ k ih =>
      intro m r h
      cases m with
      | payload left =>
        by_cases hr : r.length = 0
        · have : r = [] := List.length_eq_zero_iff.1 hr
          subst this
          conv => rhs; rw [runDec]
          simp [extend]
        · conv => rhs; rw [runDec]
          rw [if_neg hr]
          simp only
          by_cases ht : left - min left r.length = 0
          · rw [if_pos ht]
            have e1 : min left r.length = left := by omega
            have e2 : left ≤ r.length := by omega
            rw [extend_cons, e1]
            conv => lhs; rw [runDec]
            rw [if_neg (by rw [List.length_append]; omega)]
            simp only [List.length_append]
            rw [show min left (r.length + b.length) = left by omega, if_pos (by omega)]
            rw [List.drop_append_of_le_length e2, List.take_append_of_le_length e2]
            rw [ih .crlf (r.drop left) (by simp only [List.length_drop, Mode.weight] at h ⊢; omega)]
          · rw [if_neg ht]
            have e1 : min left r.length = r.length := by omega
            rw [e1]
            simp only [extend, List.drop_length, List.take_length, List.nil_append]
            by_cases hb : b.length = 0
            · have : b = [] := List.length_eq_zero_iff.1 hb
              subst this
              rw [List.append_nil]
              conv => lhs; rw [runDec]
              rw [if_neg hr]
              simp only
              rw [if_neg ht, e1]
              conv => rhs; rw [runDec]
              simp
            · conv => lhs; rw [runDec]
              rw [if_neg (by rw [List.length_append]; omega)]
              conv => rhs; rw [runDec]
              rw [if_neg hb]
              simp only [List.length_append]
              by_cases hl : left ≤ r.length + b.length
              · rw [show min left (r.length + b.length) = left by omega, show min (left - r.length) b.length = left - r.length by omega,
                  if_pos (by omega), if_pos (by omega)]
                rw [List.drop_append, List.take_append, List.drop_of_length_le (by omega), List.take_of_length_le (by omega)]
                simp
              · rw [show min left (r.length + b.length) = r.length + b.length by omega,
                  show min (left - r.length) b.length = b.length by omega, if_neg (by omega), if_neg (by omega)]
                simp only [← List.length_append, List.drop_length, List.take_length]
                rw [show left - (r ++ b).length = left - r.length - b.length by simp; omega]
      | crlf =>
        by_cases hr : r.length < 2
        · conv => rhs; rw [runDec]
          rw [if_pos hr]
          simp [extend]
        · have e : (r ++ b).take 2 = r.take 2 := List.take_append_of_le_length (by omega)
          have e' : (r ++ b).drop 2 = r.drop 2 ++ b := List.drop_append_of_le_length (by omega)
          conv => lhs; rw [runDec]
          conv => rhs; rw [runDec]
          rw [if_neg hr, if_neg (by rw [List.length_append]; omega), e, e']
          split_ifs
          · simp [extend]
          · exact ih .size (r.drop 2) (by simp only [List.length_drop, Mode.weight] at h ⊢; omega)
      | final =>
        by_cases hr : r.length < 2
        · conv => rhs; rw [runDec]
          rw [if_pos hr]
          simp [extend]
        · have e : (r ++ b).take 2 = r.take 2 := List.take_append_of_le_length (by omega)
          have e' : (r ++ b).drop 2 = r.drop 2 ++ b := List.drop_append_of_le_length (by omega)
          conv => lhs; rw [runDec]
          conv => rhs; rw [runDec]
          rw [if_neg hr, if_neg (by rw [List.length_append]; omega), e, e']
          split_ifs
          · simp [extend]
          · simp [extend]
      | size =>
        cases hs : splitNl r with
        | none =>
          rw [runDec_size_none hs]
          simp [extend]
        | some p =>
          obtain ⟨line, rest⟩ := p
          have hl := splitNl_length hs
          rw [runDec_size_some hs, runDec_size_some (splitNl_append hs b)]
          cases sizeLine line with
          | none => simp [extend]
          | some n =>
            simp only
            split_ifs
            · exact ih .final rest (by simp only [Mode.weight] at h ⊢; omega)
            · exact ih (.payload n) rest (by simp only [Mode.weight] at h ⊢; omega)
  exact key _ m r (Nat.lt_succ_self _)

/-- What the caller sees of a decoder: the bytes delivered and whether it has ended. -/
def Dec.seen (s : Dec) : List Nat × Option Bool := (s.out, s.ended)

theorem feed_feed (s : Dec) (a b : List Nat) : ((s.feed a).feed b).seen = (s.feed (a ++ b)).seen ∧
    ((s.feed (a ++ b)).ended = none → (s.feed a).feed b = s.feed (a ++ b)) := by
  obtain ⟨m, r, o, e⟩ := s
  cases e with
  | some v => simp [Dec.feed]
  | none =>
    simp only [Dec.feed]
    rw [← List.append_assoc, runDec_append m (r ++ a) b]
    unfold extend
    cases h : (runDec m (r ++ a)).2 with
    | fail => simp [Dec.seen, h]
    | done x => simp [Dec.seen, h]
    | wait m' x =>
      simp only
      cases h2 : (runDec m' (x ++ b)).2 <;> simp [Dec.seen]

/-- C16: however the bytes are split into calls of `feed`, the decoder delivers the same bytes and ends the same way. -/
theorem C16_split_independent (frags : List (List Nat)) :
    (frags.foldl Dec.feed {}).seen = (Dec.feed {} frags.flatten).seen := by
  have key : ∀ (frags : List (List Nat)) (s : Dec) (a : List Nat), (frags.foldl Dec.feed (s.feed a)).seen = (s.feed (a ++ frags.flatten)).seen := by
    intro frags
    induction frags with
    | nil => intro s a; simp
    | cons f fs ih =>
      intro s a
      simp only [List.foldl_cons, List.flatten_cons]
      rw [ih (s.feed a) f, (feed_feed s a (f ++ fs.flatten)).1]
  cases frags with
  | nil => simp [Dec.feed, runDec_size_none (r := []) rfl, Dec.seen]
  | cons f fs => simpa using key fs {} f

/-! ## Hostile input -/

theorem splitNl_eq {l a c : List Nat} (h : splitNl l = some (a, c)) : l = a ++ 10 :: c := by
  induction l generalizing a c with
  | nil => simp [splitNl] at h
  | cons x xs ih =>
    unfold splitNl at h
    split_ifs at h with hx
    · simp only [Option.some.injEq, Prod.mk.injEq] at h
      rw [← h.1, ← h.2, hx]; rfl
    · cases hs : splitNl xs with
      | none => rw [hs] at h; simp at h
      | some p =>
        rw [hs] at h
        simp only [Option.map_some, Option.some.injEq, Prod.mk.injEq] at h
        rw [← h.1, ← h.2, List.cons_append, ← ih hs]

theorem runDec_sublist (m : Mode) (r : List Nat) : (runDec m r).1.Sublist r := by
  have key : ∀ (k : Nat) (m : Mode) (r : List Nat), 2 * r.length + m.weight < k →
      (runDec m r).1.Sublist r := by
    intro k
    induction k with
    | zero => intro m r h; omega
    | succ k ih =>
      intro m r h
      cases m with
      | payload left =>
        rw [runDec]
        simp only
        split_ifs
        · simp
        · have := ih .crlf (r.drop (min left r.length)) (by simp only [List.length_drop, Mode.weight] at h ⊢; omega)
          simpa using this.append_left (r.take (min left r.length))
        · exact List.take_sublist _ _
      | crlf =>
        rw [runDec]
        split_ifs
        · simp
        · simp
        · exact (ih .size (r.drop 2) (by simp only [List.length_drop, Mode.weight] at h ⊢; omega)).trans (List.drop_sublist _ _)
      | final =>
        rw [runDec]
        split_ifs <;> simp
      | size =>
        cases hs : splitNl r with
        | none => rw [runDec_size_none hs]; simp
        | some p =>
          obtain ⟨line, rest⟩ := p
          have hl := splitNl_length hs
          have hsub : rest.Sublist r := by
            rw [splitNl_eq hs]
            exact (List.sublist_cons_self 10 rest).trans (List.sublist_append_right _ _)
          rw [runDec_size_some hs]
          split
          · simp
          · split_ifs
            · exact (ih .final rest (by simp only [Mode.weight] at h ⊢; omega)).trans hsub
            · exact (ih (.payload _) rest (by simp only [Mode.weight] at h ⊢; omega)).trans hsub
  exact key _ m r (Nat.lt_succ_self _)

/-- C16: whatever the bytes, those delivered by the streaming decoder are bytes it was fed, in order. -/
theorem C16_stream_output_from_input (frags : List (List Nat)) : (frags.foldl Dec.feed {}).out.Sublist frags.flatten := by
  have e := congrArg Prod.fst (C16_split_independent frags)
  simp only [Dec.seen] at e
  rw [e]
  have := runDec_sublist .size frags.flatten
  simp only [Dec.feed, List.nil_append]
  split <;> exact this

theorem crlfAt_some (d : List Nat) (i : Nat) (h : i + 1 < d.length) : ∃ v, crlfAt d i = some v := by
  unfold crlfAt
  rw [List.getElem?_eq_getElem (by omega : i < d.length), List.getElem?_eq_getElem h]
  simp only [Option.bind_eq_bind, Option.bind_some]
  split_ifs <;> simp

theorem lineEnd_some (d : List Nat) (f p : Nat) (hf : d.length ≤ f + p) (h0 : 0 < f) : ∃ e, lineEnd d f p = some e ∧ p ≤ e := by
  induction f generalizing p with
  | zero => omega
  | succ f ih =>
    unfold lineEnd
    split_ifs with h
    · obtain ⟨v, hv⟩ := crlfAt_some d p h
      rw [hv]
      cases v with
      | true => exact ⟨p, by simp, le_rfl⟩
      | false =>
        obtain ⟨e, he, hp⟩ := ih (p + 1) (by omega) (by omega)
        exact ⟨e, by simpa using he, by omega⟩
    · exact ⟨p, rfl, le_rfl⟩

theorem sizeEnd_some (d : List Nat) (lim f p : Nat) (hl : lim < d.length) (hf : lim < f + p) (h0 : 0 < f) (hp : p ≤ lim) :
    ∃ e, sizeEnd d lim f p = some e ∧ e ≤ lim := by
  induction f generalizing p with
  | zero => omega
  | succ f ih =>
    unfold sizeEnd
    split_ifs with h
    · rw [List.getElem?_eq_getElem (by omega : p < d.length)]
      simp only [Option.bind_eq_bind, Option.bind_some]
      split_ifs
      · exact ih (p + 1) (by omega) (by omega) (by omega)
      · exact ⟨p, rfl, hp⟩
    · exact ⟨p, rfl, hp⟩

theorem chunkSize_some (d js : List Nat) (acc : Nat) (h : ∀ j ∈ js, j < d.length) : ∃ v, chunkSize d js acc = some v := by
  induction js generalizing acc with
  | nil => exact ⟨_, rfl⟩
  | cons j js ih =>
    unfold chunkSize
    rw [List.getElem?_eq_getElem (h j (by simp))]
    simp only [Option.bind_eq_bind, Option.bind_some]
    split
    · exact ⟨_, rfl⟩
    · split_ifs
      · exact ⟨_, rfl⟩
      · exact ih _ fun k hk => h k (List.mem_cons_of_mem _ hk)

theorem trailers_some (d : List Nat) (f i : Nat) (hf : d.length < f + i) (h0 : 0 < f) : ∃ v, trailers d f i = some v := by
  induction f generalizing i with
  | zero => omega
  | succ f ih =>
    unfold trailers
    split_ifs with h
    · obtain ⟨v, hv⟩ := crlfAt_some d i h
      rw [hv]
      simp only [Option.bind_eq_bind, Option.bind_some]
      split_ifs
      · exact ⟨_, rfl⟩
      · obtain ⟨e, he, hp⟩ := lineEnd_some d (d.length + 1) i (by omega) (by omega)
        rw [he]
        simp only [Option.bind_some]
        split_ifs
        · exact ⟨_, rfl⟩
        · exact ih (e + 2) (by omega) (by omega)
    · exact ⟨_, rfl⟩

theorem chunkLoop_some (d : List Nat) (f i : Nat) (out : List Nat) (hi : i ≤ d.length) (hf : d.length < f + i)
    (ho : out.Sublist (d.take i)) : ∃ v, chunkLoop d f i out = some v ∧ ∀ r, v = some r → r.Sublist d := by
  induction f generalizing i out with
  | zero => omega
  | succ f ih =>
    unfold chunkLoop
    split_ifs with h
    · obtain ⟨le, hle, hp⟩ := lineEnd_some d (d.length + 1) i (by omega) (by omega)
      rw [hle]
      simp only [Option.bind_eq_bind, Option.bind_some]
      split_ifs with h1
      · exact ⟨_, rfl, by simp⟩
      · obtain ⟨se, hse, hs⟩ := sizeEnd_some d le (d.length + 1) i (by omega) (by omega) (by omega) hp
        obtain ⟨v, hv⟩ := chunkSize_some d (List.range' i (se - i)) 0 (by
          intro j hj
          rw [List.mem_range'_1] at hj
          omega)
        rw [hse]
        simp only [Option.bind_some]
        rw [hv]
        simp only [Option.bind_some]
        cases v with
        | none => exact ⟨_, rfl, by simp⟩
        | some n =>
          simp only
          split_ifs with h2 h3 h4
          · exact ⟨_, rfl, by simp⟩
          · obtain ⟨t, ht⟩ := trailers_some d (d.length + 1) (le + 2) (by omega) (by omega)
            rw [ht]
            refine ⟨_, rfl, ?_⟩
            intro r hr
            cases t with
            | false => simp at hr
            | true =>
              simp only [if_true, Option.some.injEq] at hr
              rw [← hr]
              exact ho.trans (List.take_sublist _ _)
          · exact ⟨_, rfl, by simp⟩
          · rw [not_or] at h4
            rw [List.getElem?_eq_getElem (by omega : le + 2 + n < d.length), List.getElem?_eq_getElem (by omega : le + 2 + n + 1 < d.length)]
            simp only [Option.bind_some]
            split_ifs
            · exact ⟨_, rfl, by simp⟩
            · exact ⟨_, rfl, by simp⟩
            · refine ih (le + 2 + n + 2) _ (by omega) (by omega) ?_
              have e : d.take (le + 2 + n + 2) = d.take (le + 2) ++ (d.drop (le + 2)).take (n + 2) := by
                rw [show le + 2 + n + 2 = (le + 2) + (n + 2) by omega, List.take_add]
              rw [e]
              refine List.Sublist.append (ho.trans ?_) ?_
              · exact (List.take_prefix_take_left (by omega)).sublist
              · exact (List.take_prefix_take_left (by omega)).sublist
    · exact ⟨_, rfl, by simp⟩

/-- C16: whatever the bytes, the decoder for a complete body reads only inside the buffer, ends, and what it accepts
consists of bytes of the buffer, in order. -/
theorem C16_body_decoder_safe (d : List Nat) : ∃ v, decodeChunked d = some v ∧ ∀ r, v = some r → r.Sublist d :=
  chunkLoop_some d (d.length + 1) 0 [] (by omega) (by omega) (by simp)

/-! ## Decoding what the server sends -/

theorem hexVal_digit (v : Nat) (h : v < 16) : hexVal (hexDigit v) = some v ∧ hexDigit v ≠ 13 ∧ hexDigit v ≠ 10 ∧ hexDigit v ≠ 59 := by
  unfold hexVal hexDigit
  split_ifs <;> first | omega | (refine ⟨?_, by omega, by omega, by omega⟩; simp; try omega)

theorem hexStr_mem (n : Nat) : ∀ c ∈ hexStr n, c ≠ 13 ∧ c ≠ 10 ∧ c ≠ 59 := by
  induction n using Nat.strong_induction_on with
  | _ n ih =>
    intro c hc
    rw [hexStr] at hc
    split_ifs at hc with h
    · rw [List.mem_singleton] at hc
      rw [hc]
      exact (hexVal_digit n h).2
    · rcases List.mem_append.1 hc with h1 | h1
      · exact ih (n / 16) (by omega) c h1
      · rw [List.mem_singleton] at h1
        rw [h1]
        exact (hexVal_digit _ (Nat.mod_lt _ (by omega))).2

theorem hexStr_ne (n : Nat) : hexStr n ≠ [] := by
  rw [hexStr]
  split_ifs <;> simp

theorem shift_or (a v : Nat) (h : v < 16) : (a <<< 4) ||| v = 16 * a + v := by
  have := Nat.two_pow_add_eq_or_of_lt (i := 4) (b := v) (by omega) a
  rw [Nat.shiftLeft_eq, Nat.mul_comm]
  exact this.symm

theorem hexWrap_append (a b : List Nat) (acc : Nat) : hexWrap (a ++ b) acc = (hexWrap a acc).bind (hexWrap b) := by
  induction a generalizing acc with
  | nil => rfl
  | cons c cs ih =>
    rw [List.cons_append, hexWrap, hexWrap]
    cases hexVal c with
    | none => rfl
    | some v => exact ih _

theorem hexWrap_hexStr (n : Nat) (h : n < 2 ^ 64) : hexWrap (hexStr n) 0 = some n := by
  induction n using Nat.strong_induction_on with
  | _ n ih =>
    rw [hexStr]
    split_ifs with h16
    · simp only [hexWrap, (hexVal_digit n h16).1, shift_or 0 n h16, Nat.mul_zero, Nat.zero_add, Nat.mod_eq_of_lt h]
    · have hm := Nat.mod_lt n (show 0 < 16 by omega)
      rw [hexWrap_append, ih (n / 16) (by omega) (by omega)]
      simp only [Option.bind_some, hexWrap, (hexVal_digit _ hm).1, shift_or _ _ hm]
      rw [Nat.div_add_mod, Nat.mod_eq_of_lt h]

theorem splitNl_line (l r : List Nat) (h : ∀ c ∈ l, c ≠ 10) : splitNl (l ++ 10 :: r) = some (l, r) := by
  induction l with
  | nil => simp [splitNl]
  | cons c cs ih =>
    rw [List.cons_append]
    unfold splitNl
    rw [if_neg (h c (by simp)), ih fun x hx => h x (List.mem_cons_of_mem _ hx)]
    rfl

theorem takeWhile_all (l : List Nat) (h : ∀ c ∈ l, c ≠ 59) : l.takeWhile (· ≠ 59) = l := by
  induction l with
  | nil => rfl
  | cons c cs ih =>
    rw [List.takeWhile_cons, if_pos (by simpa using h c (by simp)), ih fun x hx => h x (List.mem_cons_of_mem _ hx)]

theorem sizeLine_hex (n : Nat) (h : n < 2 ^ 64) : sizeLine (hexStr n ++ [13]) = some n := by
  unfold sizeLine
  have e : (hexStr n).takeWhile (· ≠ 59) = hexStr n := by
    exact takeWhile_all _ fun c hc => (hexStr_mem n c hc).2.2
  simp only [List.getLast?_append, List.getLast?_singleton, Option.some_or, ne_eq, not_true_eq_false, if_false, List.dropLast_concat]
  rw [e, hexWrap_hexStr n h]
  simp [hexStr_ne n]

theorem runDec_chunk (c r : List Nat) (h0 : c.length ≠ 0) (h : c.length < 2 ^ 64) :
    runDec .size (chunkHeader c.length ++ c ++ [13, 10] ++ r) = (c ++ (runDec .size r).1, (runDec .size r).2) := by
  have e : chunkHeader c.length ++ c ++ [13, 10] ++ r = (hexStr c.length ++ [13]) ++ 10 :: (c ++ 13 :: 10 :: r) := by
    simp [chunkHeader]
  rw [e, runDec_size_some (splitNl_line _ _ (by
    intro x hx
    rcases List.mem_append.1 hx with h | h
    · exact (hexStr_mem _ x h).2.1
    · rw [List.mem_singleton] at h; rw [h]; decide)), sizeLine_hex _ h]
  simp only
  rw [if_neg h0, runDec, if_neg (by rw [List.length_append]; omega)]
  simp only [List.length_append]
  rw [show min c.length (c.length + (13 :: 10 :: r).length) = c.length by omega, if_pos (by omega), List.drop_left, List.take_left,
    runDec, if_neg (by simp), if_neg (by simp)]
  rfl

theorem runDec_last (r : List Nat) : runDec .size (lastChunk ++ r) = ([], .done r) := by
  have e : lastChunk ++ r = (hexStr 0 ++ [13]) ++ 10 :: (13 :: 10 :: r) := by
    rw [hexStr]; simp [lastChunk, hexDigit]
  rw [e, runDec_size_some (splitNl_line _ _ (by
    intro x hx
    rcases List.mem_append.1 hx with h | h
    · exact (hexStr_mem _ x h).2.1
    · rw [List.mem_singleton] at h; rw [h]; decide)), sizeLine_hex 0 (by omega)]
  simp only [if_true]
  rw [runDec, if_neg (by simp), if_neg (by simp)]
  rfl

theorem runDec_send (cs : List (List Nat)) (h : ∀ c ∈ cs, c.length < 2 ^ 64) (r : List Nat) :
    runDec .size (sendChunks cs ++ r) = (cs.flatten, .done r) := by
  induction cs with
  | nil => exact runDec_last r
  | cons c cs ih =>
    have ih := ih fun x hx => h x (List.mem_cons_of_mem _ hx)
    unfold sendChunks
    split_ifs with h0
    · rw [ih, List.flatten_cons, List.length_eq_zero_iff.1 h0, List.nil_append]
    · rw [List.append_assoc, runDec_chunk c _ h0 (h c (by simp)), ih, List.flatten_cons]

/-- C16: the server's chunks, followed by anything and split in any way, are decoded by the client to exactly the
messages sent, and the client sees the end. -/
theorem C16_stream_roundtrip (cs : List (List Nat)) (h : ∀ c ∈ cs, c.length < 2 ^ 64) (after : List Nat)
    (frags : List (List Nat)) (hf : frags.flatten = sendChunks cs ++ after) :
    (frags.foldl Dec.feed {}).seen = (cs.flatten, some true) := by
  rw [C16_split_independent, hf]
  simp only [Dec.feed, List.nil_append, runDec_send cs h after]
  rfl

theorem lineEnd_at (d : List Nat) (m f p : Nat) (h : ∀ k, k < m → ∃ c, d[p + k]? = some c ∧ c ≠ 13)
    (h1 : d[p + m]? = some 13) (h2 : d[p + m + 1]? = some 10) (hf : m < f) : lineEnd d f p = some (p + m) := by
  have hlen : p + m + 1 < d.length := (List.getElem?_eq_some_iff.1 h2).1
  induction m generalizing f p with
  | zero =>
    obtain ⟨f, rfl⟩ : ∃ g, f = g + 1 := ⟨f - 1, by omega⟩
    unfold lineEnd
    rw [if_pos (by omega)]
    simp only [Nat.add_zero] at h1 h2
    simp [crlfAt, h1, h2]
  | succ m ih =>
    obtain ⟨f, rfl⟩ : ∃ g, f = g + 1 := ⟨f - 1, by omega⟩
    unfold lineEnd
    rw [if_pos (by omega)]
    obtain ⟨c, hc, hn⟩ := h 0 (by omega)
    simp only [Nat.add_zero] at hc
    have : crlfAt d p = some false := by simp [crlfAt, hc, hn]
    rw [this]
    simp only [Option.bind_eq_bind, Option.bind_some, Bool.false_eq_true, if_false]
    rw [ih f (p + 1) (fun k hk => by rw [show p + 1 + k = p + (k + 1) by omega]; exact h (k + 1) (by omega))
      (by rw [show p + 1 + m = p + (m + 1) by omega]; exact h1) (by rw [show p + 1 + m + 1 = p + (m + 1) + 1 by omega]; exact h2)
      (by omega) (by omega)]
    congr 1
    omega

theorem sizeEnd_at (d : List Nat) (m f p : Nat) (h : ∀ k, k < m → ∃ c, d[p + k]? = some c ∧ c ≠ 59) (hf : m < f) :
    sizeEnd d (p + m) f p = some (p + m) := by
  induction m generalizing f p with
  | zero =>
    obtain ⟨f, rfl⟩ : ∃ g, f = g + 1 := ⟨f - 1, by omega⟩
    unfold sizeEnd
    rw [if_neg (by omega), Nat.add_zero]
  | succ m ih =>
    obtain ⟨f, rfl⟩ : ∃ g, f = g + 1 := ⟨f - 1, by omega⟩
    unfold sizeEnd
    rw [if_pos (by omega)]
    obtain ⟨c, hc, hn⟩ := h 0 (by omega)
    simp only [Nat.add_zero] at hc
    rw [hc]
    simp only [Option.bind_eq_bind, Option.bind_some]
    rw [if_pos hn, show p + (m + 1) = p + 1 + m by omega]
    exact ih f (p + 1) (fun k hk => by rw [show p + 1 + k = p + (k + 1) by omega]; exact h (k + 1) (by omega)) (by omega)

/-- `chunkSize` on the digits themselves. -/
def sizeOf : List Nat → Nat → Option Nat
  | [], acc => some acc
  | c :: cs, acc =>
    match hexVal c with
    | none => none
    | some v => if (2 ^ 64 - 1) >>> 4 < acc then none else sizeOf cs (((acc <<< 4) ||| v) % 2 ^ 64)

theorem chunkSize_eq (d l : List Nat) (p acc : Nat) (h : ∀ k, k < l.length → d[p + k]? = l[k]?) :
    chunkSize d (List.range' p l.length) acc = some (sizeOf l acc) := by
  induction l generalizing p acc with
  | nil => rfl
  | cons c cs ih =>
    rw [List.length_cons, List.range'_succ, chunkSize, sizeOf]
    have := h 0 (by simp)
    simp only [Nat.add_zero, List.getElem?_cons_zero] at this
    rw [this]
    simp only [Option.bind_eq_bind, Option.bind_some]
    cases hexVal c with
    | none => rfl
    | some v =>
      simp only
      split_ifs
      · rfl
      · refine ih _ _ fun k hk => ?_
        have := h (k + 1) (by simpa using hk)
        rw [List.getElem?_cons_succ] at this
        rw [← this]
        congr 1
        omega

theorem sizeOf_append (a b : List Nat) (acc : Nat) : sizeOf (a ++ b) acc = (sizeOf a acc).bind (sizeOf b) := by
  induction a generalizing acc with
  | nil => rfl
  | cons c cs ih =>
    rw [List.cons_append, sizeOf, sizeOf]
    cases hexVal c with
    | none => rfl
    | some v =>
      simp only
      split_ifs
      · rfl
      · exact ih _

theorem sizeOf_hexStr (n : Nat) (h : n < 2 ^ 64) : sizeOf (hexStr n) 0 = some n := by
  induction n using Nat.strong_induction_on with
  | _ n ih =>
    rw [hexStr]
    split_ifs with h16
    · simp only [sizeOf, (hexVal_digit n h16).1, shift_or 0 n h16, Nat.mul_zero, Nat.zero_add, Nat.mod_eq_of_lt h]
      rw [if_neg (by omega)]
    · have hm := Nat.mod_lt n (show 0 < 16 by omega)
      rw [sizeOf_append, ih (n / 16) (by omega) (by omega)]
      simp only [Option.bind_some, sizeOf, (hexVal_digit _ hm).1, shift_or _ _ hm]
      rw [Nat.div_add_mod, Nat.mod_eq_of_lt h, if_neg (by rw [Nat.shiftRight_eq_div_pow]; omega)]

theorem getElem?_mid (pre l post : List Nat) (k : Nat) (h : k < l.length) : (pre ++ l ++ post)[pre.length + k]? = l[k]? := by
  rw [List.append_assoc, List.getElem?_append_right (by omega), Nat.add_sub_cancel_left, List.getElem?_append_left h]

/-- The start of a round at a size line. -/
theorem chunkLoop_line (d pre post out : List Nat) (n f : Nat) (hd : d = pre ++ chunkHeader n ++ post) (hn : n < 2 ^ 64) :
    chunkLoop d (f + 1) pre.length out =
      (let i := pre.length + (chunkHeader n).length
       if n = 0 then do
         let ok ← trailers d (d.length + 1) i
         some (if ok then some out else none)
       else if d.length - i < n ∨ d.length - i - n < 2 then some none
       else do
         let out := out ++ (d.drop i).take n
         let i := i + n
         let a ← d[i]?
         if a ≠ 13 then some none
         else do
           let b ← d[i + 1]?
           if b ≠ 10 then some none else chunkLoop d f (i + 2) out) := by
  have hl : (chunkHeader n).length = (hexStr n).length + 2 := by simp [chunkHeader]
  have hp : 0 < (hexStr n).length := List.length_pos_iff.2 (hexStr_ne n)
  have hlen : d.length = pre.length + ((hexStr n).length + 2) + post.length := by rw [hd]; simp [hl]; omega
  have get : ∀ k, k < (hexStr n).length → d[pre.length + k]? = (hexStr n)[k]? := by
    intro k hk
    rw [hd, getElem?_mid _ _ _ _ (by omega), chunkHeader, List.getElem?_append_left hk]
  have get1 : d[pre.length + (hexStr n).length]? = some 13 := by
    rw [hd, getElem?_mid _ _ _ _ (by omega), chunkHeader, List.getElem?_append_right (by omega)]
    simp
  have get2 : d[pre.length + (hexStr n).length + 1]? = some 10 := by
    rw [hd, Nat.add_assoc, getElem?_mid _ _ _ _ (by omega), chunkHeader, List.getElem?_append_right (by omega)]
    simp
  have mem : ∀ k, k < (hexStr n).length → ∃ c, d[pre.length + k]? = some c ∧ c ≠ 13 ∧ c ≠ 59 := by
    intro k hk
    have := hexStr_mem n _ (List.getElem_mem hk)
    exact ⟨(hexStr n)[k], by rw [get k hk, List.getElem?_eq_getElem hk], this.1, this.2.2⟩
  have e1 := lineEnd_at d (hexStr n).length (d.length + 1) pre.length (fun k hk => (mem k hk).imp fun _ h => ⟨h.1, h.2.1⟩) get1 get2 (by omega)
  have e2 := sizeEnd_at d (hexStr n).length (d.length + 1) pre.length (fun k hk => (mem k hk).imp fun _ h => ⟨h.1, h.2.2⟩) (by omega)
  have e3 := chunkSize_eq d (hexStr n) pre.length 0 get
  rw [sizeOf_hexStr n hn] at e3
  conv => lhs; unfold chunkLoop
  rw [if_pos (by omega), e1]
  simp only [Option.bind_eq_bind, Option.bind_some]
  rw [if_neg (by omega), e2]
  simp only [Option.bind_some, Nat.add_sub_cancel_left]
  rw [e3]
  simp only [Option.bind_some]
  rw [if_neg (by omega), hl, Nat.add_assoc]

theorem chunkLoop_send (cs : List (List Nat)) (h : ∀ c ∈ cs, c.length < 2 ^ 64) (d pre out : List Nat) (f : Nat)
    (hd : d = pre ++ sendChunks cs) (hf : d.length < f + pre.length) :
    chunkLoop d f pre.length out = some (some (out ++ cs.flatten)) := by
  induction cs generalizing pre out f with
  | nil =>
    have hd' : d = pre ++ chunkHeader 0 ++ [13, 10] := by
      rw [hd, chunkHeader, hexStr]; simp [sendChunks, lastChunk, hexDigit]
    have hl : (chunkHeader 0).length = 3 := by rw [chunkHeader, hexStr]; simp
    have hlen : d.length = pre.length + 5 := by rw [hd']; simp [hl]
    obtain ⟨f, rfl⟩ : ∃ g, f = g + 1 := ⟨f - 1, by omega⟩
    rw [chunkLoop_line d pre [13, 10] out 0 f hd' (by omega)]
    simp only [if_true]
    have g1 : d[pre.length + (chunkHeader 0).length]? = some 13 := by
      rw [hd', List.getElem?_append_right (by simp)]
      simp
    have g2 : d[pre.length + (chunkHeader 0).length + 1]? = some 10 := by
      rw [hd', List.getElem?_append_right (by simp)]
      simp
    have : trailers d (d.length + 1) (pre.length + (chunkHeader 0).length) = some true := by
      unfold trailers
      rw [if_pos (by omega)]
      simp [crlfAt, g1, g2]
    rw [this]
    simp
  | cons c cs ih =>
    have ih := ih fun x hx => h x (List.mem_cons_of_mem _ hx)
    unfold sendChunks at hd
    split_ifs at hd with h0
    · rw [ih pre out f hd hf, List.flatten_cons, List.length_eq_zero_iff.1 h0, List.nil_append]
    · have hd' : d = pre ++ chunkHeader c.length ++ (c ++ [13, 10] ++ sendChunks cs) := by rw [hd]; simp
      have hlen : d.length = pre.length + (chunkHeader c.length).length + (c.length + 2 + (sendChunks cs).length) := by
        rw [hd']; simp; omega
      obtain ⟨f, rfl⟩ : ∃ g, f = g + 1 := ⟨f - 1, by omega⟩
      rw [chunkLoop_line d pre _ out c.length f hd' (h c (by simp))]
      simp only
      rw [if_neg h0, if_neg (by omega)]
      have hdrop : d.drop (pre.length + (chunkHeader c.length).length) = c ++ ([13, 10] ++ sendChunks cs) := by
        rw [hd', ← List.length_append, List.drop_left, List.append_assoc]
      have g1 : d[pre.length + (chunkHeader c.length).length + c.length]? = some 13 := by
        rw [← List.getElem?_drop, hdrop]; simp
      have g2 : d[pre.length + (chunkHeader c.length).length + c.length + 1]? = some 10 := by
        rw [Nat.add_assoc _ c.length 1, ← List.getElem?_drop, hdrop, List.getElem?_append_right (by omega)]; simp
      rw [g1, g2]
      simp only [Option.bind_eq_bind, Option.bind_some, ne_eq, not_true_eq_false, if_false]
      rw [hdrop, List.take_left]
      have := ih (pre ++ chunkHeader c.length ++ c ++ [13, 10]) (out ++ c) f (by rw [hd]; simp) (by simp; omega)
      rw [show pre.length + (chunkHeader c.length).length + c.length + 2 = (pre ++ chunkHeader c.length ++ c ++ [13, 10]).length by simp; omega,
        this, List.flatten_cons, List.append_assoc]

/-- C16: the decoder for a complete body returns exactly the messages the server sent. -/
theorem C16_body_roundtrip (cs : List (List Nat)) (h : ∀ c ∈ cs, c.length < 2 ^ 64) :
    decodeChunked (sendChunks cs) = some (some cs.flatten) := by
  have := chunkLoop_send cs h (sendChunks cs) [] [] ((sendChunks cs).length + 1) (by simp) (by simp)
  simpa [decodeChunked] using this

/-- Three messages, one of them empty, as sent, and the decoder fed in three pieces. -/
example : sendChunks [[1, 2], [], [3]] = [50, 13, 10, 1, 2, 13, 10, 49, 13, 10, 3, 13, 10, 48, 13, 10, 13, 10] ∧
    ([[50], [13, 10, 1], [2, 13, 10, 49, 13, 10, 3, 13, 10, 48, 13, 10, 13, 10]].foldl Dec.feed {}).seen = ([1, 2, 3], some true) := by
  have e : sendChunks [[1, 2], [], [3]] = [50, 13, 10, 1, 2, 13, 10, 49, 13, 10, 3, 13, 10, 48, 13, 10, 13, 10] := by
    simp [sendChunks, chunkHeader, hexStr, hexDigit, lastChunk]
  refine ⟨e, C16_stream_roundtrip [[1, 2], [], [3]] (by simp) [] _ ?_⟩
  rw [e]
  rfl

/-- The streaming decoder does not guard the size against overflow: a size of 2^64 written with 17 digits is taken for
the last chunk, which the decoder for a complete body rejects. -/
theorem C16_stream_size_wraps :
    (Dec.feed {} ([49] ++ List.replicate 16 48 ++ [13, 10, 13, 10])).seen = ([], some true) ∧
    decodeChunked ([49] ++ List.replicate 16 48 ++ [13, 10, 13, 10]) = some none := by
  refine ⟨?_, by decide +kernel⟩
  have e : runDec .size ([49] ++ List.replicate 16 48 ++ [13, 10, 13, 10]) = ([], .done []) := by
    rw [runDec_size_some (line := [49] ++ List.replicate 16 48 ++ [13]) (rest := [13, 10]) (by decide)]
    rw [show sizeLine ([49] ++ List.replicate 16 48 ++ [13]) = some 0 by decide +kernel]
    simp only [if_true]
    rw [runDec]
    simp
  simp only [Dec.feed, List.nil_append, e]
  rfl

end Verif.Jpip
