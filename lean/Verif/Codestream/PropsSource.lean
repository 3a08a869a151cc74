import Verif.Codestream.Source
/-
Property C37: the codestream source and the chain of tile-part bodies deliver exactly the bytes of the file.

Specification: a cursor into an ideal list of bytes.
-/
namespace Verif.Cs

/-! ## Specification of the source: a cursor `p` into the list `d` -/

/-- One operation; `none` is the exception. -/
def specStep (d : List UInt8) (p : Nat) : Op → Option (Val × Nat)
  | .byte => if h : p < d.length then some (.byte d[p], p + 1) else none
  | .word => if h : p + 1 < d.length then some (.word (d[p].toNat * 256 + d[p + 1].toNat), p + 2) else none
  | .bytes n => if p + n ≤ d.length then some (.bytes ((d.drop p).take n), p + n) else none
  | .rewind => if 2 ≤ p then some (.done, p - 2) else none
  | .forward n => if p + n ≤ d.length then some (.done, p + n) else none

def specRun (d : List UInt8) : List Op → Nat → Option (List Val × Nat)
  | [], p => some ([], p)
  | op :: ops, p => match specStep d p op with
    | none => none
    | some (v, q) => match specRun d ops q with
      | none => none
      | some (vs, r) => some (v :: vs, r)

/-- The outcome of the code that corresponds to an outcome of the specification; it is never undefined. -/
def refl (d : List UInt8) : Option (List Val × Nat) → Out (List Val × Src)
  | none => .throws
  | some (vs, q) => .ok (vs, ⟨d, q⟩)

theorem sub32_eq {a b : Nat} (h : b ≤ a) : sub32 a b = a - b := if_pos h

theorem getByte_eq {d : List UInt8} {p : Nat} (h0 : d ≠ []) (hl : d.length < 2 ^ 32) (hp : p ≤ d.length) :
    Src.getByte ⟨d, p⟩ = if h : p < d.length then .ok (d[p], ⟨d, p + 1⟩) else .throws := by
  have h1 : 0 < d.length := List.length_pos_of_ne_nil h0
  unfold Src.getByte
  simp only [sub32_eq h1]
  by_cases h : p < d.length
  · rw [if_neg (by omega), dif_pos h, List.getElem?_eq_getElem h, Nat.mod_eq_of_lt (by omega)]
  · rw [if_pos (by omega), dif_neg h]

theorem getWord_unfold (d : List UInt8) (p : Nat) : Src.getWord ⟨d, p⟩ =
    if sub32 d.length 2 < p then .throws
    else (Src.getByte ⟨d, p⟩).bind fun r => r.2.getByte.bind fun q => .ok (r.1.toNat * 256 + q.1.toNat, q.2) := by
  simp only [Src.getWord]

theorem getWord_eq {d : List UInt8} {p : Nat} (h0 : d ≠ []) (hl : d.length < 2 ^ 32) (hp : p ≤ d.length) :
    Src.getWord ⟨d, p⟩ =
      if h : p + 1 < d.length then .ok (d[p].toNat * 256 + d[p + 1].toNat, ⟨d, p + 2⟩) else .throws := by
  have h1 : 0 < d.length := List.length_pos_of_ne_nil h0
  have h3 : p + 1 < d.length → ¬ sub32 d.length 2 < p := by
    intro h; rw [sub32_eq (by omega)]; omega
  rw [getWord_unfold, getByte_eq h0 hl hp]
  by_cases h : p + 1 < d.length
  · rw [dif_pos h, if_neg (h3 h), dif_pos (by omega)]
    simp only [Out.bind]
    rw [getByte_eq h0 hl (by omega), dif_pos h]
  · rw [dif_neg h]
    by_cases hc : sub32 d.length 2 < p
    · rw [if_pos hc]
    · rw [if_neg hc]
      by_cases h2 : p < d.length
      · rw [dif_pos h2]
        simp only [Out.bind]
        rw [getByte_eq h0 hl (by omega), dif_neg h]
      · rw [dif_neg h2]; rfl

theorem step_eq {d : List UInt8} {p : Nat} {op : Op} (h0 : d ≠ []) (hl : d.length < 2 ^ 32) (hp : p ≤ d.length)
    (hf : ∀ n, op = .forward n → d.length + n < 2 ^ 32) :
    Src.step ⟨d, p⟩ op = match specStep d p op with
      | none => .throws
      | some (v, q) => .ok (v, ⟨d, q⟩) := by
  cases op with
  | byte =>
    simp only [Src.step, specStep, getByte_eq h0 hl hp]
    by_cases h : p < d.length <;> simp [h, Out.bind]
  | word =>
    simp only [Src.step, specStep, getWord_eq h0 hl hp]
    by_cases h : p + 1 < d.length <;> simp [h, Out.bind]
  | bytes n =>
    simp only [Src.step, specStep, Src.getBytes, sub32_eq hp]
    by_cases h : p + n ≤ d.length
    · rw [if_neg (by omega), if_pos h, if_pos h, Nat.mod_eq_of_lt (by omega)]; rfl
    · rw [if_pos (by omega), if_neg h]; rfl
  | rewind =>
    simp only [Src.step, specStep, Src.rewind]
    by_cases h : 2 ≤ p
    · rw [if_neg (by omega), if_pos h]; rfl
    · rw [if_pos (by omega), if_neg h]; rfl
  | forward n =>
    have := hf n rfl
    simp only [Src.step, specStep, Src.forward]
    rw [Nat.mod_eq_of_lt (by omega)]
    by_cases h : p + n ≤ d.length
    · rw [if_pos h, if_pos h]; rfl
    · rw [if_neg h, if_neg h]; rfl

theorem specStep_le {d : List UInt8} {p q : Nat} {op : Op} {v : Val} (hp : p ≤ d.length)
    (h : specStep d p op = some (v, q)) : q ≤ d.length := by
  cases op <;> simp only [specStep] at h <;> split at h <;> simp at h <;> omega

theorem specRun_le {d : List UInt8} {ops : List Op} {p q : Nat} {vs : List Val} (hp : p ≤ d.length)
    (h : specRun d ops p = some (vs, q)) : q ≤ d.length := by
  induction ops generalizing p vs with
  | nil => simp only [specRun, Option.some.injEq, Prod.mk.injEq] at h; omega
  | cons op ops ih =>
    simp only [specRun] at h
    split at h
    · simp at h
    · rename_i v r hs
      split at h
      · simp at h
      · rename_i vs' q' hr
        simp only [Option.some.injEq, Prod.mk.injEq] at h
        rw [h.2] at hr
        exact ih (specStep_le hp hs) hr

/-- **C37** (source).  On a codestream of at least one byte (and below the 4 GiB limit that `alloc_memory` enforces), any
sequence of operations behaves exactly like a cursor in the list of bytes: same values, an exception exactly when the
cursor would leave the list, and never a read outside the buffer.  The amounts passed to `forward_Nbytes` must not reach
the 32-bit limit; `C37_skip_wraps` shows what happens otherwise. -/
theorem C37_source_is_cursor (d : List UInt8) (ops : List Op) (p : Nat)
    (h0 : d ≠ []) (hl : d.length < 2 ^ 32) (hp : p ≤ d.length)
    (hf : ∀ n, Op.forward n ∈ ops → d.length + n < 2 ^ 32) :
    Src.run ops ⟨d, p⟩ = refl d (specRun d ops p) := by
  induction ops generalizing p with
  | nil => rfl
  | cons op ops ih =>
    simp only [Src.run, specRun]
    rw [step_eq h0 hl hp (fun n hn => hf n (by simp [hn]))]
    cases hs : specStep d p op with
    | none => rfl
    | some r =>
      obtain ⟨v, q⟩ := r
      simp only [Out.bind]
      rw [ih q (specStep_le hp hs) (fun n hn => hf n (by simp [hn]))]
      cases hr : specRun d ops q with
      | none => rfl
      | some r => rfl

theorem step_safe {d : List UInt8} {p : Nat} {op : Op} (h0 : d ≠ []) (hl : d.length < 2 ^ 32) (hp : p ≤ d.length) :
    Src.step ⟨d, p⟩ op = .throws ∨ ∃ v q, q ≤ d.length ∧ Src.step ⟨d, p⟩ op = .ok (v, ⟨d, q⟩) := by
  by_cases hf : ∃ n, op = .forward n
  · obtain ⟨n, rfl⟩ := hf
    simp only [Src.step, Src.forward]
    by_cases h : (p + n) % 2 ^ 32 ≤ d.length
    · right; rw [if_pos h]; exact ⟨_, _, h, rfl⟩
    · left; rw [if_neg h]; rfl
  · rw [step_eq h0 hl hp (fun n hn => absurd ⟨n, hn⟩ hf)]
    cases hs : specStep d p op with
    | none => left; rfl
    | some r => right; exact ⟨r.1, r.2, specStep_le hp hs, rfl⟩

theorem run_safe (d : List UInt8) (ops : List Op) (p : Nat) (h0 : d ≠ []) (hl : d.length < 2 ^ 32) (hp : p ≤ d.length) :
    Src.run ops ⟨d, p⟩ = .throws ∨ ∃ vs q, q ≤ d.length ∧ Src.run ops ⟨d, p⟩ = .ok (vs, ⟨d, q⟩) := by
  induction ops generalizing p with
  | nil => right; exact ⟨[], p, hp, rfl⟩
  | cons op ops ih =>
    simp only [Src.run]
    rcases step_safe (op := op) h0 hl hp with h | ⟨v, q, hq, h⟩
    · left; rw [h]; rfl
    · rw [h]
      simp only [Out.bind]
      rcases ih q hq with h2 | ⟨vs, r, hr, h2⟩
      · left; rw [h2]
      · right; exact ⟨v :: vs, r, hr, by rw [h2]⟩

/-- **C37** (safety).  For every sequence of reads and skips, of any amounts: the source stays inside the buffer exactly
when the buffer is not empty.  The property as stated asks for this also for the empty buffer; there the code reads past
the end (`C37_empty_source_overreads`). -/
theorem C37_source_safe_iff (d : List UInt8) (hl : d.length < 2 ^ 32) :
    (∀ ops, Src.run ops ⟨d, 0⟩ = .throws ∨ ∃ vs q, q ≤ d.length ∧ Src.run ops ⟨d, 0⟩ = .ok (vs, ⟨d, q⟩)) ↔ d ≠ [] := by
  constructor
  · rintro h rfl
    rcases h [.byte] with h | ⟨vs, q, -, h⟩
    · exact absurd h (by decide +kernel)
    · have hu : Src.run [.byte] ⟨[], 0⟩ = .ub := by decide +kernel
      rw [hu] at h; cases h
  · intro h0 ops
    exact run_safe d ops 0 h0 hl (Nat.zero_le _)

example : Src.run [.word, .bytes 2, .rewind, .byte, .forward 1, .byte] ⟨[0xFF, 0x4F, 1, 2, 3], 0⟩ =
    .ok ([.word 0xFF4F, .bytes [1, 2], .done, .byte 1, .done, .byte 3], ⟨[0xFF, 0x4F, 1, 2, 3], 5⟩) := by decide +kernel

/-- The code does not have the property for an empty codestream: `len - 1` wraps and the first read is outside the
buffer. -/
theorem C37_empty_source_overreads : Src.getByte ⟨[], 0⟩ = .ub ∧ Src.getWord ⟨[], 0⟩ = .ub := by decide +kernel

/-- A skip of nearly 4 GiB moves the cursor backwards instead of throwing. -/
theorem C37_skip_wraps : Src.forward ⟨[1, 2, 3], 2⟩ (2 ^ 32 - 1) = .ok ⟨[1, 2, 3], 1⟩ := by decide +kernel

/-! ## The chain -/

/-- What a chain holds, as one list. -/
def whole (nodes : List (List UInt8)) : List UInt8 := nodes.flatten

/-- The cursor is inside the chain. -/
structure Chain.Inv (c : Chain) : Prop where
  node : c.nodePos < c.nodes.length
  pos : c.pos ≤ c.curLen

/-- The bytes still to come. -/
def Chain.left (c : Chain) : List UInt8 := (c.nodes.drop c.nodePos).flatten.drop c.pos

theorem getD_node {l : List (List UInt8)} {k : Nat} (h : k < l.length) : l.getD k [] = l[k] := by
  simp [List.getD, h]

theorem left_cons {c : Chain} (h : c.Inv) :
    c.left = (c.nodes.getD c.nodePos []).drop c.pos ++ (c.nodes.drop (c.nodePos + 1)).flatten := by
  have hp := h.pos
  unfold Chain.curLen at hp
  unfold Chain.left
  rw [getD_node h.node] at hp ⊢
  rw [List.drop_eq_getElem_cons h.node, List.flatten_cons, List.drop_append_of_le_length hp]

/-- The effect of one operation on a chain: it delivers the next bytes of the chain, and zeros when there are none. -/
structure Delivers (c : Chain) (out : List UInt8) (c' : Chain) : Prop where
  inv : c'.Inv
  nodes : c'.nodes = c.nodes
  left : c'.left = c.left.drop out.length
  bytes : out = (c.left ++ List.replicate out.length 0).take out.length
  pos : c'.totalPos = c.totalPos + min out.length c.left.length

theorem deref_delivers {c : Chain} (h : c.Inv) (hlt : c.pos < c.curLen) :
    ∃ b c', c.deref = .ok (b, c') ∧ Delivers c [b] c' := by
  have hn : c.nodes.getD c.nodePos [] = c.nodes[c.nodePos]'h.node := getD_node h.node
  unfold Chain.deref
  have hx : c.pos < (c.nodes.getD c.nodePos []).length := hlt
  rw [List.getElem?_eq_getElem hx]
  refine ⟨_, _, rfl, ?_⟩
  have hinv : Chain.Inv { c with pos := c.pos + 1 } := ⟨h.node, hlt⟩
  have hl := left_cons h
  have hl' := left_cons hinv
  rw [List.drop_eq_getElem_cons hx] at hl
  simp only at hl'
  refine ⟨hinv, rfl, ?_, ?_, ?_⟩
  · rw [hl', hl]; rfl
  · rw [hl]; rfl
  · rw [hl]; simp only [Chain.totalPos, List.length_cons, List.length_nil, List.cons_append]; omega

theorem totalPos_next {c : Chain} (h : c.nodePos < c.nodes.length) (hp : c.pos = c.curLen) :
    Chain.totalPos { c with nodePos := c.nodePos + 1, pos := 0 } = c.totalPos := by
  unfold Chain.totalPos
  unfold Chain.curLen at hp
  rw [getD_node h] at hp
  simp only
  rw [List.take_add_one, List.getElem?_eq_getElem h]
  simp only [Option.toList_some, List.map_append, List.map_cons, List.map_nil, List.sum_append, List.sum_cons, List.sum_nil]
  omega

theorem left_next {c : Chain} (h : c.Inv) (hp : c.pos = c.curLen) :
    Chain.left { c with nodePos := c.nodePos + 1, pos := 0 } = c.left := by
  rw [left_cons h, hp, Chain.curLen, List.drop_length]
  rfl

theorem getByte_delivers {c : Chain} (h : c.Inv) (hne : ∀ n ∈ c.nodes, n ≠ [] ∧ n.length < 2 ^ 32) :
    ∃ b c', c.getByte = .ok (b, c') ∧ Delivers c [b] c' := by
  have hn : c.nodes.getD c.nodePos [] = c.nodes[c.nodePos]'h.node := getD_node h.node
  have hm := hne _ (List.getElem_mem h.node)
  have h1 : 0 < c.curLen := by unfold Chain.curLen; rw [hn]; exact List.length_pos_of_ne_nil hm.1
  have h2 : c.curLen < 2 ^ 32 := by unfold Chain.curLen; rw [hn]; exact hm.2
  have hp := h.pos
  unfold Chain.getByte
  rw [sub32_eq h1]
  by_cases hc : c.curLen - 1 < c.pos
  · rw [if_pos hc]
    have he : c.pos = c.curLen := by omega
    by_cases hl : c.nodes.length ≤ c.nodePos + 1
    · rw [if_pos hl]
      have hnil : c.left = [] := by
        rw [left_cons h, he, Chain.curLen, List.drop_length, List.drop_eq_nil_of_le hl]; rfl
      refine ⟨_, _, rfl, h, rfl, ?_, ?_, ?_⟩ <;> simp [hnil]
    · rw [if_neg hl]
      have hb : c.nodePos + 1 < c.nodes.length := by omega
      have hm' := hne _ (List.getElem_mem hb)
      have hinv : Chain.Inv { c with nodePos := c.nodePos + 1, pos := 0 } := ⟨hb, Nat.zero_le _⟩
      obtain ⟨b, c', e, d⟩ := deref_delivers hinv (by
        unfold Chain.curLen; simp only
        rw [getD_node hb]; exact List.length_pos_of_ne_nil hm'.1)
      refine ⟨b, c', e, d.inv, d.nodes, ?_, ?_, ?_⟩
      · rw [d.left, left_next h he]
      · have := d.bytes; rw [left_next h he] at this; exact this
      · rw [d.pos, totalPos_next h.node he, left_next h he]
  · rw [if_neg hc]
    exact deref_delivers h (by omega)

/-- Body bytes: what is delivered is the next `m` bytes, `m` the smaller of the request and what the node holds. -/
theorem body_delivers {c : Chain} (h : c.Inv) (n : Nat) :
    ∃ out c', c.body n = .ok (out, c') ∧ out.length = min n (c.curLen - c.pos) ∧ Delivers c out c' := by
  have hp := h.pos
  have hr : c.nodeRemaining = c.curLen - c.pos := by unfold Chain.nodeRemaining; split <;> omega
  have hle : c.pos + min n (c.curLen - c.pos) ≤ c.curLen := by omega
  unfold Chain.body Chain.borrow
  rw [hr, if_pos hle]
  generalize hm : min n (c.curLen - c.pos) = m at *
  have hlen : (((c.nodes.getD c.nodePos []).drop c.pos).take m).length = m := by
    rw [List.length_take, List.length_drop]; unfold Chain.curLen at hle hp; omega
  have hd : m ≤ ((c.nodes.getD c.nodePos []).drop c.pos).length := by
    rw [List.length_drop]; unfold Chain.curLen at hle hp; omega
  have hinv : Chain.Inv { c with pos := c.pos + m } := ⟨h.node, hle⟩
  refine ⟨_, _, rfl, hlen, hinv, rfl, ?_, ?_, ?_⟩
  · rw [left_cons hinv, left_cons h, hlen]
    simp only
    rw [List.drop_append_of_le_length hd, List.drop_drop]
  · rw [left_cons h, hlen, List.append_assoc, List.take_append_of_le_length hd]
  · rw [left_cons h, hlen]
    simp only [Chain.totalPos, List.length_append]
    omega

theorem pad_take (l : List UInt8) (a b : Nat) :
    (l ++ List.replicate (a + b) 0).take (a + b) =
      (l ++ List.replicate a 0).take a ++ (l.drop a ++ List.replicate b 0).take b := by
  apply List.ext_getElem?
  intro i
  by_cases h1 : i < a
  · rw [List.getElem?_append_left (by simp; omega), List.getElem?_take, List.getElem?_take, if_pos (by omega), if_pos h1]
    by_cases h2 : i < l.length
    · rw [List.getElem?_append_left h2, List.getElem?_append_left h2]
    · rw [List.getElem?_append_right (by omega), List.getElem?_append_right (by omega), List.getElem?_replicate,
        List.getElem?_replicate, if_pos (by omega), if_pos (by omega)]
  · rw [List.getElem?_append_right (by simp; omega), List.getElem?_take]
    have hla : ((l ++ List.replicate a 0).take a).length = a := by simp
    rw [hla, List.getElem?_take]
    by_cases h3 : i < a + b
    · rw [if_pos h3, if_pos (by omega)]
      by_cases h2 : i < l.length
      · rw [List.getElem?_append_left h2, List.getElem?_append_left (by simp; omega), List.getElem?_drop,
          show a + (i - a) = i by omega]
      · rw [List.getElem?_append_right (by omega), List.getElem?_append_right (by simp; omega), List.getElem?_replicate,
          List.getElem?_replicate, if_pos (by omega), if_pos (by simp; omega)]
    · rw [if_neg h3, if_neg (by omega)]

/-- **C37** (chain).  Over nodes none of which is empty, any interleaving of byte reads and (clamped) body reads is free of
undefined behaviour; the delivered bytes, put together, are the concatenation of the nodes, continued by zeros when the
chain is exhausted; and the reported position is the number of bytes delivered, stopping at the end. -/
theorem C37_chain_delivers_in_order (ops : List COp) (c : Chain) (h : c.Inv)
    (hne : ∀ n ∈ c.nodes, n ≠ [] ∧ n.length < 2 ^ 32) :
    ∃ outs c', Chain.run ops c = .ok (outs, c') ∧ outs.length = ops.length ∧
      Delivers c outs.flatten c' := by
  induction ops generalizing c with
  | nil =>
    exact ⟨[], c, rfl, rfl, h, rfl, by simp, by simp, by simp⟩
  | cons op ops ih =>
    have key : ∃ o c', c.step op = .ok (o, c') ∧ Delivers c o c' := by
      cases op with
      | byte =>
        obtain ⟨b, c', e, d⟩ := getByte_delivers h hne
        exact ⟨[b], c', by simp only [Chain.step, e, Out.bind], d⟩
      | body n =>
        obtain ⟨o, c', e, -, d⟩ := body_delivers h n
        exact ⟨o, c', e, d⟩
    obtain ⟨o, c1, e, d⟩ := key
    obtain ⟨os, c2, e2, hl, d2⟩ := ih c1 d.inv (by rw [d.nodes]; exact hne)
    refine ⟨o :: os, c2, ?_, by simp [hl], d2.inv, d2.nodes.trans d.nodes, ?_, ?_, ?_⟩
    · simp only [Chain.run, e, e2, Out.bind]
    · rw [d2.left, d.left, List.flatten_cons, List.length_append, List.drop_drop]
    · rw [List.flatten_cons, List.length_append, pad_take, ← d.left, ← d.bytes, ← d2.bytes]
    · rw [d2.pos, d.pos, d.left, List.flatten_cons, List.length_append, List.length_drop]
      omega

/-- Reading `n` bytes one by one. -/
def readN (n : Nat) (c : Chain) : Out (List (List UInt8) × Chain) := Chain.run (List.replicate n .byte) c

/-- From the start of a chain: what comes out is what was put in, then zeros. -/
theorem C37_chain_from_start (nodes : List (List UInt8)) (n : Nat) (h0 : nodes ≠ [])
    (hne : ∀ x ∈ nodes, x ≠ [] ∧ x.length < 2 ^ 32) :
    ∃ c outs c', Chain.activate nodes = .ok c ∧ readN n c = .ok (outs, c') ∧
      outs.flatten = (whole nodes ++ List.replicate n 0).take n ∧ c'.totalPos = min n (whole nodes).length := by
  obtain ⟨a, t, rfl⟩ := List.exists_cons_of_ne_nil h0
  refine ⟨⟨a :: t, 0, 0⟩, ?_⟩
  have hi : Chain.Inv ⟨a :: t, 0, 0⟩ := ⟨by simp, Nat.zero_le _⟩
  have hleft : Chain.left ⟨a :: t, 0, 0⟩ = whole (a :: t) := rfl
  obtain ⟨outs, c', e, hl, d⟩ := C37_chain_delivers_in_order (List.replicate n .byte) _ hi hne
  have hlen : ∀ (k : Nat) (c c' : Chain) (outs : List (List UInt8)),
      Chain.run (List.replicate k .byte) c = .ok (outs, c') → outs.flatten.length = k := by
    intro k
    induction k with
    | zero => intro c c' outs h; simp only [List.replicate_zero, Chain.run, Out.ok.injEq, Prod.mk.injEq] at h; rw [← h.1]; rfl
    | succ k ih =>
      intro c c' outs h
      simp only [List.replicate_succ, Chain.run, Chain.step] at h
      cases hb : c.getByte with
      | throws => simp [hb, Out.bind] at h
      | ub => simp [hb, Out.bind] at h
      | ok r =>
        simp only [hb, Out.bind] at h
        cases hr : Chain.run (List.replicate k .byte) r.2 with
        | throws => simp [hr] at h
        | ub => simp [hr] at h
        | ok q =>
          simp only [hr, Out.ok.injEq, Prod.mk.injEq] at h
          have := ih _ q.2 q.1 hr
          rw [← h.1]; simp [this]
  have hn := hlen n _ _ _ e
  refine ⟨outs, c', rfl, e, ?_, ?_⟩
  · have := d.bytes; rw [hn, hleft] at this; exact this
  · rw [d.pos, hn, hleft]; simp [Chain.totalPos]

example : Chain.run [.byte, .body 9, .byte, .byte, .byte] ⟨[[1, 2, 3], [4, 5]], 0, 0⟩ =
    .ok ([[1], [2, 3], [4], [5], [0]], ⟨[[1, 2, 3], [4, 5]], 1, 2⟩) := by decide +kernel

/-! ## The tile buffer: unset nodes behind the bodies -/

/-- A chain as `create_tile_buf` builds it: bodies, then `k` unset nodes; the cursor is not behind the last body. -/
structure TileInv (fs : List (List UInt8)) (k : Nat) (c : Chain) : Prop where
  nodes : c.nodes = fs ++ List.replicate k []
  node : c.nodePos < max 1 fs.length
  inv : c.Inv

theorem flatten_replicate_nil (k : Nat) : (List.replicate k ([] : List UInt8)).flatten = [] := by
  induction k with
  | zero => rfl
  | succ k ih => simp

theorem tile_getByte_more {fs : List (List UInt8)} {k : Nat} {c : Chain} (hf : ∀ x ∈ fs, x ≠ [] ∧ x.length < 2 ^ 32)
    (h : TileInv fs k c) (hl : c.left ≠ []) : ∃ b c', c.getByte = .ok (b, c') ∧ Delivers c [b] c' ∧ TileInv fs k c' := by
  have hfs : fs ≠ [] := by
    rintro rfl
    apply hl
    unfold Chain.left
    rw [h.nodes]
    simp
  have hpos : 0 < fs.length := List.length_pos_of_ne_nil hfs
  have hn : c.nodePos < fs.length := by have := h.node; omega
  have hcur : c.nodes.getD c.nodePos [] = fs[c.nodePos] := by
    rw [getD_node h.inv.node]; simp only [h.nodes]; rw [List.getElem_append_left hn]
  have hm := hf _ (List.getElem_mem hn)
  have h1 : 0 < c.curLen := by unfold Chain.curLen; rw [hcur]; exact List.length_pos_of_ne_nil hm.1
  have hp := h.inv.pos
  have keep : ∀ b c', c.deref = .ok (b, c') → c'.nodePos = c.nodePos := by
    intro b c' hd
    unfold Chain.deref at hd
    split at hd
    · simp at hd
    · simp only [Out.ok.injEq, Prod.mk.injEq] at hd
      rw [← hd.2]
  unfold Chain.getByte
  rw [sub32_eq h1]
  by_cases hc : c.curLen - 1 < c.pos
  · have he : c.pos = c.curLen := by omega
    have hb : c.nodePos + 1 < fs.length := by
      by_contra hcon
      apply hl
      rw [left_cons h.inv, he, Chain.curLen, List.drop_length, h.nodes, List.drop_append, List.drop_eq_nil_of_le (by omega)]
      simp
    have hb' : c.nodePos + 1 < c.nodes.length := by rw [h.nodes, List.length_append]; omega
    have hcur' : c.nodes.getD (c.nodePos + 1) [] = fs[c.nodePos + 1] := by
      rw [getD_node hb']; simp only [h.nodes]; rw [List.getElem_append_left hb]
    have hm' := hf _ (List.getElem_mem hb)
    rw [if_pos hc, if_neg (by omega)]
    have hinv : Chain.Inv { c with nodePos := c.nodePos + 1, pos := 0 } := ⟨hb', Nat.zero_le _⟩
    obtain ⟨b, c', e, d⟩ := deref_delivers hinv (by
      unfold Chain.curLen; simp only; rw [hcur']; exact List.length_pos_of_ne_nil hm'.1)
    refine ⟨b, c', e, ⟨d.inv, d.nodes, ?_, ?_, ?_⟩, ⟨d.nodes.trans h.nodes, ?_, d.inv⟩⟩
    · rw [d.left, left_next h.inv he]
    · have := d.bytes; rw [left_next h.inv he] at this; exact this
    · rw [d.pos, totalPos_next h.inv.node he, left_next h.inv he]
    · unfold Chain.deref at e
      split at e
      · simp at e
      · simp only [Out.ok.injEq, Prod.mk.injEq] at e
        rw [← e.2]; simp only; omega
  · rw [if_neg hc]
    obtain ⟨b, c', e, d⟩ := deref_delivers h.inv (by omega)
    exact ⟨b, c', e, d, d.nodes.trans h.nodes, by rw [keep b c' e]; exact h.node, d.inv⟩

theorem tile_getByte_end {fs : List (List UInt8)} {k : Nat} {c : Chain} (hf : ∀ x ∈ fs, x ≠ [] ∧ x.length < 2 ^ 32)
    (h : TileInv fs k c) (hk : 0 < k) (hl : c.left = []) : c.getByte = .ub := by
  have hp := h.inv.pos
  have hpe : c.pos = c.curLen := by
    rw [left_cons h.inv] at hl
    have := (List.append_eq_nil_iff.1 hl).1
    rw [List.drop_eq_nil_iff] at this
    unfold Chain.curLen at hp ⊢
    omega
  unfold Chain.getByte
  by_cases hfs : fs = []
  · subst hfs
    have h0 : c.nodePos = 0 := by have := h.node; simpa using this
    have hcur : c.nodes.getD c.nodePos [] = [] := by
      rw [h0, h.nodes]; cases k with
      | zero => omega
      | succ k => rfl
    have hlen : c.curLen = 0 := by unfold Chain.curLen; rw [hcur]; rfl
    rw [if_neg (by rw [hlen, hpe, hlen]; simp), Chain.deref, hcur]
    rfl
  · have hpos : 0 < fs.length := List.length_pos_of_ne_nil hfs
    have hn : c.nodePos < fs.length := by have := h.node; omega
    have hcur : c.nodes.getD c.nodePos [] = fs[c.nodePos] := by
      rw [getD_node h.inv.node]; simp only [h.nodes]; rw [List.getElem_append_left hn]
    have hm := hf _ (List.getElem_mem hn)
    have h1 : 0 < c.curLen := by unfold Chain.curLen; rw [hcur]; exact List.length_pos_of_ne_nil hm.1
    have hlast : ¬ c.nodePos + 1 < fs.length := by
      intro hb
      have hm' := hf _ (List.getElem_mem hb)
      rw [left_cons h.inv] at hl
      have h2 := (List.append_eq_nil_iff.1 hl).2
      rw [List.flatten_eq_nil_iff] at h2
      apply hm'.1
      apply h2
      rw [h.nodes, List.drop_append_of_le_length (by omega)]
      apply List.mem_append_left
      rw [List.drop_eq_getElem_cons hb]
      exact List.mem_cons_self
    have hlen : c.nodes.length = fs.length + k := by rw [h.nodes]; simp
    rw [sub32_eq h1, if_pos (by omega), if_neg (by omega), Chain.deref]
    have hcur' : c.nodes.getD (c.nodePos + 1) [] = [] := by
      rw [getD_node (by omega)]; simp only [h.nodes]; rw [List.getElem_append_right (by omega)]; simp
    simp only [hcur']
    rfl

theorem tile_run {fs : List (List UInt8)} {k : Nat} (hf : ∀ x ∈ fs, x ≠ [] ∧ x.length < 2 ^ 32) (hk : 0 < k) (n : Nat)
    (c : Chain) (h : TileInv fs k c) :
    (n ≤ c.left.length → ∃ outs c', readN n c = .ok (outs, c') ∧ outs.flatten = c.left.take n) ∧
    (c.left.length < n → readN n c = .ub) := by
  induction n generalizing c with
  | zero => exact ⟨fun _ => ⟨[], c, rfl, rfl⟩, fun h => absurd h (by omega)⟩
  | succ n ih =>
    have hun : readN (n + 1) c = (c.getByte.bind fun r => .ok ([r.1], r.2)).bind fun r =>
        (readN n r.2).bind fun q => .ok (r.1 :: q.1, q.2) := rfl
    by_cases hl : c.left = []
    · refine ⟨fun hx => by rw [hl] at hx; simp at hx, fun _ => ?_⟩
      rw [hun, tile_getByte_end hf h hk hl]; rfl
    · obtain ⟨b, c', e, d, ht⟩ := tile_getByte_more hf h hl
      obtain ⟨i1, i2⟩ := ih c' ht
      have hlt : 0 < c.left.length := List.length_pos_of_ne_nil hl
      have hd : c'.left.length = c.left.length - 1 := by rw [d.left, List.length_drop]; rfl
      have hun' : readN (n + 1) c = (readN n c').bind fun q => .ok ([b] :: q.1, q.2) := by rw [hun, e]; rfl
      constructor
      · intro hx
        obtain ⟨outs, c2, e2, h2⟩ := i1 (by omega)
        refine ⟨[b] :: outs, c2, by rw [hun', e2]; rfl, ?_⟩
        have hb := d.bytes
        have hcl : c.left = b :: c'.left := by
          have h3 : c'.left = c.left.drop 1 := d.left
          cases hcc : c.left with
          | nil => exact absurd hcc hl
          | cons x xs =>
            rw [hcc] at hb h3
            simp only [List.length_cons, List.length_nil, List.cons_append, List.take_succ_cons, Nat.zero_add,
              List.take_zero, List.cons.injEq, and_true] at hb
            rw [h3, hb]; rfl
        rw [List.flatten_cons, h2, hcl]; rfl
      · intro hx
        rw [hun', i2 (by omega)]; rfl

theorem all_filter {parts : List (List UInt8)} (h : [] ∉ parts) : parts.filter (· ≠ []) = parts := by
  rw [List.filter_eq_self]
  intro a ha
  simp only [ne_eq, decide_not, Bool.not_eq_eq_eq_not, Bool.not_true, decide_eq_false_iff_not]
  rintro rfl
  exact h ha

theorem flatten_filter (parts : List (List UInt8)) : (parts.filter (· ≠ [])).flatten = parts.flatten := by
  induction parts with
  | nil => rfl
  | cons a t ih =>
    by_cases h : a = []
    · subst h; simpa using ih
    · rw [List.filter_cons_of_pos (by simpa using h), List.flatten_cons, ih, List.flatten_cons]

/-- **C37** (tile).  The bodies of the tile-parts of a tile, in order, are what the tile's packets are read from: for any
number of reads up to the total size, the bytes delivered are those of the concatenated bodies — empty bodies included. -/
theorem C37_tile_bytes_in_order (parts : List (List UInt8)) (n : Nat) (h0 : parts ≠ []) (h255 : parts.length ≤ 255)
    (hlen : ∀ x ∈ parts, x.length < 2 ^ 32) (hn : n ≤ (whole parts).length) :
    ∃ c outs c', Chain.activate (tileNodes parts) = .ok c ∧ readN n c = .ok (outs, c') ∧
      outs.flatten = (whole parts).take n := by
  have hpos : 0 < parts.length := List.length_pos_of_ne_nil h0
  have htk : parts.take (parts.length % 256) = parts := by rw [Nat.mod_eq_of_lt (by omega), List.take_length]
  have hT : tileNodes parts = parts.filter (· ≠ []) ++ List.replicate (parts.filter (· = [])).length [] := by
    unfold tileNodes; rw [htk]
  have hf : ∀ x ∈ parts.filter (· ≠ []), x ≠ [] ∧ x.length < 2 ^ 32 := by
    intro x hx
    rw [List.mem_filter] at hx
    exact ⟨by simpa using hx.2, hlen x hx.1⟩
  by_cases hk : 0 < (parts.filter (· = [])).length
  · have hne : tileNodes parts ≠ [] := by
      rw [hT]; intro hc
      have := (List.append_eq_nil_iff.1 hc).2
      rw [List.replicate_eq_nil_iff] at this
      omega
    obtain ⟨a, t, hat⟩ := List.exists_cons_of_ne_nil hne
    have hti : TileInv (parts.filter (· ≠ [])) (parts.filter (· = [])).length ⟨tileNodes parts, 0, 0⟩ :=
      ⟨hT, by simp, ⟨by rw [hat]; simp, Nat.zero_le _⟩⟩
    have hleft : Chain.left ⟨tileNodes parts, 0, 0⟩ = whole parts := by
      show (tileNodes parts).flatten = parts.flatten
      rw [hT, List.flatten_append, flatten_filter, flatten_replicate_nil, List.append_nil]
    obtain ⟨outs, c', e, ho⟩ := (tile_run hf hk n _ hti).1 (by rw [hleft]; exact hn)
    exact ⟨_, outs, c', by rw [hat]; rfl, by rw [← hat]; exact e, by rw [ho, hleft]⟩
  · have hno : [] ∉ parts := by
      intro hm
      apply hk
      exact List.length_pos_of_mem (List.mem_filter.2 ⟨hm, by simp⟩)
    have hT' : tileNodes parts = parts := by
      rw [hT, all_filter hno, Nat.eq_zero_of_not_pos hk]; simp
    obtain ⟨c, outs, c', h1, h2, h3, -⟩ := C37_chain_from_start parts n h0
      (fun x hx => ⟨by rintro rfl; exact hno hx, hlen x hx⟩)
    refine ⟨c, outs, c', by rw [hT']; exact h1, h2, ?_⟩
    rw [h3, List.take_append_of_le_length hn]

/-- **C37** (tile, past the end).  Reading past the end of the tile's bytes is what a truncated file leads to.  It is
defined (and yields zeros, `C37_chain_from_start`) exactly when no tile-part of the tile is empty. -/
theorem C37_reading_past_end_iff (parts : List (List UInt8)) (n : Nat) (h0 : parts ≠ []) (h255 : parts.length ≤ 255)
    (hlen : ∀ x ∈ parts, x.length < 2 ^ 32) (hn : (whole parts).length < n) :
    ∃ c, Chain.activate (tileNodes parts) = .ok c ∧ (readN n c ≠ .ub ↔ [] ∉ parts) := by
  have hpos : 0 < parts.length := List.length_pos_of_ne_nil h0
  have htk : parts.take (parts.length % 256) = parts := by rw [Nat.mod_eq_of_lt (by omega), List.take_length]
  have hT : tileNodes parts = parts.filter (· ≠ []) ++ List.replicate (parts.filter (· = [])).length [] := by
    unfold tileNodes; rw [htk]
  have hf : ∀ x ∈ parts.filter (· ≠ []), x ≠ [] ∧ x.length < 2 ^ 32 := by
    intro x hx
    rw [List.mem_filter] at hx
    exact ⟨by simpa using hx.2, hlen x hx.1⟩
  by_cases hm : [] ∈ parts
  · have hk : 0 < (parts.filter (· = [])).length := List.length_pos_of_mem (List.mem_filter.2 ⟨hm, by simp⟩)
    have hne : tileNodes parts ≠ [] := by
      rw [hT]; intro hc
      have := (List.append_eq_nil_iff.1 hc).2
      rw [List.replicate_eq_nil_iff] at this
      omega
    obtain ⟨a, t, hat⟩ := List.exists_cons_of_ne_nil hne
    have hti : TileInv (parts.filter (· ≠ [])) (parts.filter (· = [])).length ⟨tileNodes parts, 0, 0⟩ :=
      ⟨hT, by simp, ⟨by rw [hat]; simp, Nat.zero_le _⟩⟩
    have hleft : Chain.left ⟨tileNodes parts, 0, 0⟩ = whole parts := by
      show (tileNodes parts).flatten = parts.flatten
      rw [hT, List.flatten_append, flatten_filter, flatten_replicate_nil, List.append_nil]
    refine ⟨_, by rw [hat]; rfl, ?_⟩
    have := (tile_run hf hk n _ hti).2 (by rw [hleft]; exact hn)
    rw [hat] at this
    simp [this, hm]
  · have hT' : tileNodes parts = parts := by
      rw [hT, all_filter hm]
      have : (parts.filter (· = [])).length = 0 := by
        rw [List.length_eq_zero_iff, List.filter_eq_nil_iff]
        intro a ha
        simp only [decide_eq_true_eq]
        rintro rfl
        exact hm ha
      rw [this]; simp
    obtain ⟨c, outs, c', h1, h2, h3, -⟩ := C37_chain_from_start parts n h0
      (fun x hx => ⟨by rintro rfl; exact hm hx, hlen x hx⟩)
    exact ⟨c, by rw [hT']; exact h1, by simp [h2, hm]⟩

example : ∃ c, Chain.activate (tileNodes [[1, 2], [3]]) = .ok c ∧ readN 5 c ≠ .ub := by
  obtain ⟨c, h1, h2⟩ := C37_reading_past_end_iff [[1, 2], [3]] 5 (by simp) (by simp) (by simp) (by simp [whole])
  exact ⟨c, h1, h2.2 (by simp)⟩

/-- The code does not have the property: a file cut right after the header of the second tile-part makes the reader
follow a null pointer. -/
theorem C37_empty_tile_part_overreads :
    ∃ c, Chain.activate (tileNodes [[1, 2], []]) = .ok c ∧ readN 3 c = .ub := ⟨_, rfl, by decide +kernel⟩

/-- A tile with 256 tile-parts: the counter is 0 and the first node of an empty vector is taken. -/
theorem C37_many_tile_parts_undefined (parts : List (List UInt8)) (h : parts.length % 256 = 0) :
    Chain.activate (tileNodes parts) = .ub := by
  unfold tileNodes
  rw [h]; rfl

/-! ## The body of a tile-part -/

theorem eocScan_le {rest : List UInt8} {n i : Nat} (h : eocScan rest n = some i) : i + 2 ≤ n := by
  induction n with
  | zero => simp [eocScan] at h
  | succ n ih =>
    cases n with
    | zero => simp [eocScan] at h
    | succ k =>
      rw [eocScan] at h
      split at h
      · simp only [Option.some.injEq] at h; omega
      · have := ih h; omega

theorem bodyLength_le (psot markers : Nat) (rest : List UInt8) : bodyLength psot markers rest ≤ rest.length := by
  unfold bodyLength
  split
  · cases h : eocScan rest rest.length with
    | none => simp only [Option.getD_none]; split <;> omega
    | some i => have := eocScan_le h; simp only [Option.getD_some]; omega
  · exact Nat.min_le_right _ _

/-- **C37** (body).  Whatever the SOT segment declares, the body of a tile-part lies inside the file: reading it never
throws and never goes past the end. -/
theorem C37_body_inside (s : Src) (psot markers : Nat) (hl : s.buf.length < 2 ^ 32) (hp : s.pos ≤ s.buf.length) :
    ∃ n, n ≤ s.buf.length - s.pos ∧
      readBody s psot markers = .ok ((s.buf.drop s.pos).take n, ⟨s.buf, s.pos + n⟩) := by
  have h := bodyLength_le psot markers (s.buf.drop s.pos)
  rw [List.length_drop] at h
  refine ⟨_, h, ?_⟩
  unfold readBody Src.forward
  simp only
  rw [Nat.mod_eq_of_lt (by omega), if_pos (by omega)]
  rfl

/-- **C37** (body, declared length).  With a correct length the body is exactly what follows the header. -/
theorem C37_body_declared (s : Src) (psot markers : Nat) (body tail : List UInt8) (hl : s.buf.length < 2 ^ 32)
    (hs : s.buf.drop s.pos = body ++ tail) (hp : s.pos ≤ s.buf.length) (hm : 0 < markers)
    (hpsot : psot = markers + body.length) : ∃ s', readBody s psot markers = .ok (body, s') ∧ s'.pos = s.pos + body.length := by
  have hbl : bodyLength psot markers (s.buf.drop s.pos) = body.length := by
    unfold bodyLength
    rw [if_neg (by omega), sub32_eq (by omega), hs, List.length_append]; omega
  have hle : s.pos + body.length ≤ s.buf.length := by
    have := congrArg List.length hs
    rw [List.length_drop, List.length_append] at this; omega
  refine ⟨⟨s.buf, s.pos + body.length⟩, ?_, rfl⟩
  unfold readBody
  simp only
  rw [hbl, Src.forward, Nat.mod_eq_of_lt (by omega), if_pos hle, hs]
  simp [Out.bind]

theorem eocScan_last (body tail : List UInt8) (ht : ∀ i : Nat, ¬ (tail[i]? = some (0xFF : UInt8) ∧ tail[i + 1]? = some (0xD9 : UInt8))) (k : Nat)
    (hk : k ≤ tail.length) :
    eocScan (body ++ 0xFF :: 0xD9 :: tail) (body.length + 2 + k) = some body.length := by
  induction k with
  | zero =>
    rw [Nat.add_zero, eocScan, if_pos]
    constructor <;> simp [List.getD]
  | succ k ih =>
    rw [show body.length + 2 + (k + 1) = (body.length + 1 + k) + 2 by omega, eocScan, if_neg,
      show body.length + 1 + k + 1 = body.length + 2 + k by omega]
    · exact ih (by omega)
    · rw [List.getD, List.getD, List.getElem?_append_right (by omega), List.getElem?_append_right (by omega),
        show body.length + 1 + k - body.length = k + 1 by omega,
        show body.length + 1 + k + 1 - body.length = k + 1 + 1 by omega, List.getElem?_cons_succ, List.getElem?_cons_succ,
        List.getElem?_cons_succ]
      cases k with
      | zero => simp
      | succ k =>
        rw [List.getElem?_cons_succ]
        have h1 : tail[k]? = some (tail[k]'(by omega)) := List.getElem?_eq_getElem (by omega)
        have h2 : tail[k + 1]? = some (tail[k + 1]'(by omega)) := List.getElem?_eq_getElem (by omega)
        have := ht k
        rw [h1, h2] at this ⊢
        simpa using this

/-- **C37** (body, open length).  With `Psot = 0` the body extends to the last end-of-codestream marker, whatever
padding follows it. -/
theorem C37_body_open (s : Src) (markers : Nat) (body tail : List UInt8) (hl : s.buf.length < 2 ^ 32)
    (hs : s.buf.drop s.pos = body ++ 0xFF :: 0xD9 :: tail) (hp : s.pos ≤ s.buf.length)
    (ht : ∀ i : Nat, ¬ (tail[i]? = some (0xFF : UInt8) ∧ tail[i + 1]? = some (0xD9 : UInt8))) :
    ∃ s', readBody s 0 markers = .ok (body, s') ∧ s'.pos = s.pos + body.length := by
  have hlen := congrArg List.length hs
  rw [List.length_drop, List.length_append, List.length_cons, List.length_cons] at hlen
  have hbl : bodyLength 0 markers (s.buf.drop s.pos) = body.length := by
    unfold bodyLength
    rw [if_pos rfl, hs]
    have := eocScan_last body tail ht tail.length (Nat.le_refl _)
    rw [List.length_append, List.length_cons, List.length_cons,
      show body.length + (tail.length + 1 + 1) = body.length + 2 + tail.length by omega, this]
    rfl
  refine ⟨⟨s.buf, s.pos + body.length⟩, ?_, rfl⟩
  unfold readBody
  simp only
  rw [hbl, Src.forward, Nat.mod_eq_of_lt (by omega), if_pos (by omega), hs]
  simp [Out.bind]

example : readBody ⟨[0xFF, 0x93, 7, 8, 9, 0xFF, 0xD9, 0], 2⟩ 0 14 = .ok ([7, 8, 9], ⟨[0xFF, 0x93, 7, 8, 9, 0xFF, 0xD9, 0], 5⟩) := by
  decide +kernel

/-- A declared length smaller than the header itself is not rejected: the subtraction wraps and the body is the whole rest
of the file, further tile-parts included. -/
theorem C37_short_length_takes_rest (s : Src) (psot markers : Nat) (h0 : psot ≠ 0) (h1 : psot < markers)
    (hl : s.buf.length + markers ≤ 2 ^ 32) (hp : s.pos ≤ s.buf.length) :
    readBody s psot markers = .ok (s.buf.drop s.pos, ⟨s.buf, s.buf.length⟩) := by
  have hbl : bodyLength psot markers (s.buf.drop s.pos) = s.buf.length - s.pos := by
    unfold bodyLength sub32
    rw [if_neg h0, if_neg (by omega), List.length_drop]; omega
  unfold readBody
  simp only
  rw [hbl, Src.forward, Nat.mod_eq_of_lt (by omega), if_pos (by omega), show s.pos + (s.buf.length - s.pos) = s.buf.length by omega,
    List.take_of_length_le (by rw [List.length_drop])]
  rfl

end Verif.Cs
