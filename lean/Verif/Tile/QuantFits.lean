import Verif.Tile.QuantGains
import Verif.Tile.PropsQuant
import Verif.Dwt.PropsGain

/-!
# How often each gain is halved, and that it is often enough

Lemmas for C65 with any number of levels.
-/

namespace Verif.Tile.Gains

theorem outL_eq (l : Nat) : outL l = after cdfL l := by
  induction l with
  | zero => rfl
  | succ l ih => rw [outL, ih]; rfl

theorem outH_eq (l : Nat) : outH l = after [-4, 8, -4] l := by
  induction l with
  | zero => rfl
  | succ l ih => rw [outH, ih]; rfl

/-- A lower bound from level `m` on, in units of `8 ^ (l + 1)`. -/
theorem lower {f : List Int} {a b m : Nat} (h : a * 8 ^ (m + 1) ≤ b * absSum (after f m)) {l : Nat} (hl : m ≤ l) :
    a * 8 ^ (l + 1) ≤ b * absSum (after f l) := by
  obtain ⟨n, rfl⟩ := Nat.exists_eq_add_of_le hl
  calc a * 8 ^ (m + n + 1) = 8 ^ n * (a * 8 ^ (m + 1)) := by rw [show m + n + 1 = n + (m + 1) by ring, pow_add]; ring
    _ ≤ 8 ^ n * (b * absSum (after f m)) := Nat.mul_le_mul_left _ h
    _ = b * (8 ^ n * absSum (after f m)) := by ring
    _ ≤ _ := Nat.mul_le_mul_left _ (after_lower f m n)

/-- An upper bound for every level, from level `m`. -/
theorem upper {f : List Int} {a b m : Nat}
    (h : b * (2 * absSum (after f m) + absSum (diff2 (after f m))) ≤ 2 * a * 8 ^ (m + 1)) (l : Nat) :
    b * absSum (after f l) ≤ a * 8 ^ (l + 1) := by
  rcases Nat.le_total m l with hl | hl
  · obtain ⟨n, rfl⟩ := Nat.exists_eq_add_of_le hl
    have h1 := after_upper f m n
    have h2 : 2 * (b * absSum (after f (m + n))) ≤ 2 * (a * 8 ^ (m + n + 1)) := by
      calc 2 * (b * absSum (after f (m + n))) = b * (2 * absSum (after f (m + n))) := by ring
        _ ≤ b * (8 ^ n * (2 * absSum (after f m) + absSum (diff2 (after f m)))) := Nat.mul_le_mul_left _ (by omega)
        _ = 8 ^ n * (b * (2 * absSum (after f m) + absSum (diff2 (after f m)))) := by ring
        _ ≤ 8 ^ n * (2 * a * 8 ^ (m + 1)) := Nat.mul_le_mul_left _ h
        _ = _ := by rw [show m + n + 1 = n + (m + 1) by ring, pow_add _ n]; ring
    omega
  · obtain ⟨n, rfl⟩ := Nat.exists_eq_add_of_le hl
    have h1 := after_lower f l n
    have h2 : 8 ^ n * (2 * (b * absSum (after f l))) ≤ 8 ^ n * (2 * (a * 8 ^ (l + 1))) := by
      calc 8 ^ n * (2 * (b * absSum (after f l))) = b * (2 * (8 ^ n * absSum (after f l))) := by ring
        _ ≤ b * (2 * absSum (after f (l + n)) + absSum (diff2 (after f (l + n)))) :=
          Nat.mul_le_mul_left _ (by omega)
        _ ≤ _ := h
        _ = _ := by rw [show l + n + 1 = n + (l + 1) by ring, pow_add _ n]; ring
    have := Nat.le_of_mul_le_mul_left h2 (by positivity)
    omega

theorem low_upper (l : Nat) : 1000 * absSum (outL l) ≤ 1886 * 8 ^ (l + 1) := by
  rw [outL_eq]; exact upper (m := 5) (by decide +kernel) l

theorem high_upper (l : Nat) : 1000 * absSum (outH l) ≤ 3341 * 8 ^ (l + 1) := by
  rw [outH_eq]; exact upper (m := 5) (by decide +kernel) l

theorem low_lower (l : Nat) : 3 * 8 ^ (l + 1) ≤ 2 * absSum (outL l) := by
  rw [outL_eq]; exact lower (m := 0) (by decide +kernel) (by omega)

theorem low_lower1 {l : Nat} (h : 1 ≤ l) : 13 * 8 ^ (l + 1) ≤ 8 * absSum (outL l) := by
  rw [outL_eq]; exact lower (m := 1) (by decide +kernel) h

theorem high_lower1 {l : Nat} (h : 1 ≤ l) : 5 * 8 ^ (l + 1) ≤ 2 * absSum (outH l) := by
  rw [outH_eq]; exact lower (m := 1) (by decide +kernel) h

theorem high_lower2 {l : Nat} (h : 2 ≤ l) : 11 * 8 ^ (l + 1) ≤ 4 * absSum (outH l) := by
  rw [outH_eq]; exact lower (m := 2) (by decide +kernel) h

theorem halvings_eq {num den K : Nat} (hd : 0 < den) (hK : 1 ≤ K) (h1 : 10 * num ≤ 9 * den * 2 ^ K)
    (h2 : 9 * den * 2 ^ (K - 1) < 10 * num) : halvings (num + 1) num den = K := by
  obtain ⟨a, b⟩ := halvings_spec (num + 1) num den (by
    have : num < 2 ^ num := Nat.lt_two_pow_self
    have h1 : 1 * 2 ^ num ≤ den * 2 ^ num := Nat.mul_le_mul_right _ hd
    rw [pow_succ]
    calc 10 * num ≤ 18 * (1 * 2 ^ num) := by omega
      _ ≤ 18 * (den * 2 ^ num) := Nat.mul_le_mul_left _ h1
      _ = _ := by ring)
  rcases Nat.lt_trichotomy (halvings (num + 1) num den) K with hlt | he | hgt
  · have : 9 * den * 2 ^ halvings (num + 1) num den ≤ 9 * den * 2 ^ (K - 1) :=
      Nat.mul_le_mul_left _ (Nat.pow_le_pow_right (by omega) (by omega))
    omega
  · exact he
  · have := b K hgt
    omega

/-- How often the gain of a band is halved. -/
def count (g : Nat × Nat) : Nat := halvings (g.1 + 1) g.1 g.2

theorem prod_le {a b x y p q u v : Nat} (h1 : u * x ≤ a * p) (h2 : v * y ≤ b * q) : u * v * (x * y) ≤ a * b * (p * q) := by
  calc u * v * (x * y) = (u * x) * (v * y) := by ring
    _ ≤ (a * p) * (b * q) := Nat.mul_le_mul h1 h2
    _ = _ := by ring

theorem den_eq (l : Nat) : 8 ^ (l + 1) * 8 ^ (l + 1) = 64 ^ (l + 1) := by rw [← Nat.mul_pow]

theorem count_ll (l : Nat) : count (absSum (outL l) * absSum (outL l), 64 ^ (l + 1)) = 2 := by
  have h1 := prod_le (low_upper l) (low_upper l)
  have h2 := prod_le (low_lower l) (low_lower l)
  rw [den_eq] at h1 h2
  have := Nat.pow_pos (n := l + 1) (show 0 < 64 by omega)
  exact halvings_eq this (by omega) (by simp only; omega) (by simp only; omega)

theorem count_hl {l : Nat} (hl : 1 ≤ l) : count (absSum (outL l) * absSum (outH l), 64 ^ (l + 1)) = 3 := by
  have h1 := prod_le (low_upper l) (high_upper l)
  have h2 := prod_le (low_lower1 hl) (high_lower1 hl)
  rw [den_eq] at h1 h2
  have := Nat.pow_pos (n := l + 1) (show 0 < 64 by omega)
  exact halvings_eq this (by omega) (by simp only; omega) (by simp only; omega)

theorem count_hh {l : Nat} (hl : 2 ≤ l) : count (absSum (outH l) * absSum (outH l), 64 ^ (l + 1)) = 4 := by
  have h1 := prod_le (high_upper l) (high_upper l)
  have h2 := prod_le (high_lower2 hl) (high_lower2 hl)
  rw [den_eq] at h1 h2
  have := Nat.pow_pos (n := l + 1) (show 0 < 64 by omega)
  exact halvings_eq this (by omega) (by simp only; omega) (by simp only; omega)

/-- The bit-planes a band has beyond the bit depth less one, in the order HL, LH, HH, at detail level `l`. -/
def extra (l : Nat) : List Nat :=
  [if l = 0 then 2 else 3, if l = 0 then 2 else 3, if l ≤ 1 then 3 else 4]

theorem count_level (l : Nat) : (levelGains l).reverse.map count = extra l := by
  unfold levelGains extra
  simp only [List.reverse_cons, List.reverse_nil, List.nil_append, List.cons_append, List.map_cons, List.map_nil]
  match l with
  | 0 => decide +kernel
  | 1 => decide +kernel
  | l + 2 =>
    rw [Nat.mul_comm (absSum (outH (l + 2))) (absSum (outL (l + 2))), count_hl (by omega), count_hh (by omega)]
    simp

theorem count_gains (n : Nat) : (gains n).reverse.map count =
    (if n = 0 then 1 else 2) :: (List.range n).reverse.flatMap extra := by
  unfold gains
  split_ifs with h
  · subst h; decide +kernel
  · obtain ⟨n, rfl⟩ := Nat.exists_eq_succ_of_ne_zero h
    rw [List.reverse_append, List.map_append, List.reverse_singleton, List.map_singleton, Nat.succ_sub_one, count_ll n,
      List.singleton_append]
    congr 1
    clear h
    generalize n.succ = m
    induction m with
    | zero => rfl
    | succ m ih =>
      rw [List.range_succ, List.flatMap_append, List.reverse_append, List.map_append, List.reverse_append,
        List.flatMap_append, ih]
      simpa using count_level m

theorem extra_get (n : Nat) : ∀ {l b : Nat}, l < n → b < 3 →
    ((List.range n).reverse.flatMap extra)[3 * (n - 1 - l) + b]? = (extra l)[b]? := by
  induction n with
  | zero => intro l b h; omega
  | succ n ih =>
    intro l b hl hb
    rw [List.range_succ, List.reverse_append, List.reverse_singleton, List.singleton_append, List.flatMap_cons]
    have hlen : (extra n).length = 3 := rfl
    rcases Nat.lt_or_ge l n with h | h
    · rw [List.getElem?_append_right (by omega), hlen, ← ih h hb]
      congr 1; omega
    · obtain rfl : l = n := by omega
      rw [List.getElem?_append_left (by omega)]
      congr 1; omega

end Verif.Tile.Gains
