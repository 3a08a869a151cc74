import Verif.Codestream.PropsSafe

/-!
# The packet headers of the PPM marker segments (C48)

The joined contents of the PPM segments are cut exactly where the 32-bit lengths say.
-/

namespace Verif.Cs

/-- A 32-bit number, high byte first. -/
def wd32 (n : Nat) : List UInt8 :=
  [UInt8.ofNat (n / 2 ^ 24), UInt8.ofNat (n / 2 ^ 16), UInt8.ofNat (n / 2 ^ 8), UInt8.ofNat n]

/-- The nodes as they are written: a length and as many bytes, for each. -/
def ppmText (ns : List (List UInt8)) : List UInt8 := ns.flatMap fun n => wd32 n.length ++ n

theorem wd32_val (a b c d : UInt8) : wd32 (a.toNat * 2 ^ 24 + b.toNat * 2 ^ 16 + c.toNat * 2 ^ 8 + d.toNat) = [a, b, c, d] := by
  have := a.toNat_lt
  have := b.toNat_lt
  have := c.toNat_lt
  have := d.toNat_lt
  unfold wd32
  simp only [List.cons.injEq, and_true]
  refine ⟨?_, ?_, ?_, ?_⟩ <;> apply UInt8.toNat_inj.1 <;> rw [UInt8.toNat_ofNat'] <;> omega

theorem val_wd32 (n : Nat) (h : n < 2 ^ 32) : (UInt8.ofNat (n / 2 ^ 24)).toNat * 2 ^ 24 + (UInt8.ofNat (n / 2 ^ 16)).toNat * 2 ^ 16 +
    (UInt8.ofNat (n / 2 ^ 8)).toNat * 2 ^ 8 + (UInt8.ofNat n).toNat = n := by
  simp only [UInt8.toNat_ofNat']
  omega

/-- C48: the headers joined from the PPM segments are accepted exactly when they are nodes, each as long as its length
says, with at most three bytes left over; and the nodes are then those. -/
theorem C48_ppm_nodes (b : List UInt8) (ns : List (List UInt8)) :
    cutPpm b = .ok ns ↔ (∀ n ∈ ns, n.length < 2 ^ 32) ∧ ∃ tail : List UInt8, tail.length < 4 ∧ b = ppmText ns ++ tail := by
  induction b using cutPpm.induct generalizing ns with
  | case1 a b c d rest n hlt =>
    rw [cutPpm, if_pos hlt]
    simp only [reduceCtorEq, false_iff, not_and, not_exists]
    rintro h tail ht e
    cases ns with
    | nil =>
      simp only [ppmText, List.flatMap_nil, List.nil_append] at e
      rw [← e] at ht
      simp at ht
      omega
    | cons x xs =>
      have hx := h x (by simp)
      simp only [ppmText, List.flatMap_cons, wd32, List.cons_append, List.nil_append, List.cons.injEq] at e
      obtain ⟨rfl, rfl, rfl, rfl, e⟩ := e
      have hn : n = x.length := val_wd32 _ hx
      rw [hn, e] at hlt
      simp at hlt
  | case2 a b c d rest n hlt ih =>
    rw [cutPpm, if_neg hlt]
    have hn : wd32 n = [a, b, c, d] := wd32_val a b c d
    have hn32 : n < 2 ^ 32 := by
      have := a.toNat_lt
      have := b.toNat_lt
      have := c.toNat_lt
      have := d.toNat_lt
      show a.toNat * 2 ^ 24 + b.toNat * 2 ^ 16 + c.toNat * 2 ^ 8 + d.toNat < 2 ^ 32
      omega
    constructor
    · intro h
      cases hc : cutPpm (rest.drop n) with
      | throws => rw [show cutPpm (rest.drop _) = _ from hc] at h; simp [Out.bind] at h
      | ub => rw [show cutPpm (rest.drop _) = _ from hc] at h; simp [Out.bind] at h
      | ok r =>
        rw [show cutPpm (rest.drop _) = _ from hc] at h
        simp only [Out.bind, Out.ok.injEq] at h
        subst h
        obtain ⟨h1, tail, h2, h3⟩ := (ih r).1 hc
        have hl : (rest.take n).length = n := by rw [List.length_take]; omega
        refine ⟨?_, tail, h2, ?_⟩
        · intro x hx
          rcases List.mem_cons.1 hx with rfl | hx
          · exact hl ▸ hn32
          · exact h1 x hx
        · show a :: b :: c :: d :: rest = ppmText (rest.take n :: r) ++ tail
          simp only [ppmText, List.flatMap_cons, hl, hn, List.append_assoc]
          have : rest = rest.take n ++ (ppmText r ++ tail) := by rw [← h3, List.take_append_drop]
          conv => lhs; rw [this]
          simp [ppmText]
    · rintro ⟨h, tail, ht, e⟩
      cases ns with
      | nil =>
        simp only [ppmText, List.flatMap_nil, List.nil_append] at e
        rw [← e] at ht
        simp at ht
        omega
      | cons x xs =>
        have hx := h x (by simp)
        simp only [ppmText, List.flatMap_cons, wd32, List.cons_append, List.nil_append, List.cons.injEq, List.append_assoc] at e
        obtain ⟨rfl, rfl, rfl, rfl, e⟩ := e
        have hn : n = x.length := val_wd32 _ hx
        have := (ih xs).2 ⟨fun y hy => h y (List.mem_cons_of_mem _ hy), tail, ht, by rw [hn, e, List.drop_left]; rfl⟩
        show ((cutPpm (rest.drop n)).bind fun r => .ok (rest.take n :: r)) = _
        rw [this, hn]
        simp only [Out.bind, Out.ok.injEq, List.cons.injEq, and_true]
        rw [e, List.take_left]
  | case3 l hl =>
    have h4 : l.length < 4 := by
      rcases l with _ | ⟨a, _ | ⟨b, _ | ⟨c, _ | ⟨d, r⟩⟩⟩⟩
      · simp
      · simp
      · simp
      · simp
      · exact absurd rfl (hl a b c d r)
    rw [cutPpm]
    · simp only [Out.ok.injEq]
      constructor
      · rintro rfl
        exact ⟨by simp, l, h4, by simp [ppmText]⟩
      · rintro ⟨h, tail, ht, e⟩
        cases ns with
        | nil => rfl
        | cons x xs =>
          rw [e] at h4
          simp [ppmText, wd32] at h4
          omega
    · exact hl

/-- Two nodes, one empty, and two bytes left over. -/
example : cutPpm [0, 0, 0, 2, 7, 8, 0, 0, 0, 0, 1, 2] = .ok [[7, 8], []] :=
  (C48_ppm_nodes _ _).2 ⟨by simp, [1, 2], by simp, by decide⟩

end Verif.Cs
