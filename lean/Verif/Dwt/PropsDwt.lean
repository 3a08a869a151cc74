import Verif.Dwt.ImageLemmas

/-!
# Properties of the wavelet and colour transforms (C27, C28, C29)

The statements below mention only model functions of `Verif/Dwt/Filter.lean` and `Verif/Dwt/Image.lean`; a result
`some …` says that the code reads only samples it has written before.
-/

namespace Verif.Dwt

/-! ## C27 -/

/-- C27, one dimension: for every signal of one sample or more and every start coordinate, the forward 5/3
transform (in both of its variants) is defined, keeps the length, and the inverse transform gives the signal
back. -/
theorem C27_row_round_trip (i0 : Int) (h0 : 0 ≤ i0) (x : List Int) (hx : x ≠ []) :
    ∃ y, analyseRow rev53 double i0 x = some y ∧ analyseExt rev53 double i0 x = some y ∧
      y.length = x.length ∧ synthesiseRow rev53Inv halve i0 y = some x := by
  obtain ⟨y, e1, e2, l, -, s, -⟩ := reconstruct1d rev53_undoes (sg := double) (sg' := halve)
    (fun a _ => ⟨trivial, halve_double a⟩) h0 (fun _ _ => trivial) hx
  exact ⟨y, e2, e1, l, s⟩

example : analyseRow rev53 double 3 [7, -2, 40, 40, 9] = some [9, 6, 21, 38, -31] ∧
    synthesiseRow rev53Inv halve 3 [9, 6, 21, 38, -31] = some [7, -2, 40, 40, 9] := by decide +kernel

/-- C27, two dimensions and any number `n` of levels: for every image whose rows have `w` samples, placed at any
`(u0, v0)`, whose width is not zero at any of the levels, the decomposition is defined, has `n` levels of detail
bands, and recomposition gives the image back.  The width of level `l` is
`⌈(u0 + w) / 2^l⌉ - ⌈u0 / 2^l⌉`; there is no condition on the number of rows. -/
theorem C27_image_round_trip (n : Nat) (u0 v0 : Int) (hu : 0 ≤ u0) (hv : 0 ≤ v0) (w : Nat)
    (rows : List (List Int)) (hrows : ∀ r ∈ rows, r.length = w)
    (hw : ∀ l < n, (u0 + 2 ^ l - 1) / 2 ^ l < (u0 + w + 2 ^ l - 1) / 2 ^ l) :
    ∃ ll ds, analyseLevels n u0 v0 rows = some (ll, ds) ∧ ds.length = n ∧
      synthesiseLevels u0 v0 ll ds = some rows :=
  levels n hu hv hrows hw

example : ∀ l < 2, ((3 : Int) + 2 ^ l - 1) / 2 ^ l < (3 + 5 + 2 ^ l - 1) / 2 ^ l := by decide

/-- C27 the other way round, as a consequence of the code being a bijection in one dimension: two different
signals never have the same transform. -/
theorem C27_row_injective (i0 : Int) (h0 : 0 ≤ i0) (x x' : List Int) (hx : x ≠ []) (hx' : x' ≠ [])
    (h : analyseRow rev53 double i0 x = analyseRow rev53 double i0 x') : x = x' := by
  obtain ⟨y, e, -, -, s⟩ := C27_row_round_trip i0 h0 x hx
  obtain ⟨y', e', -, -, s'⟩ := C27_row_round_trip i0 h0 x' hx'
  rw [e, e', Option.some.injEq] at h
  subst h
  rw [s, Option.some.injEq] at s'
  exact s'

/-- The reversible steps on 32-bit words that wrap around, as the vector kernels compute them. -/
def rev53Wrap : Filter (BitVec 32) :=
  .two (fun a b t => t - (a + b).sshiftRight 1) (fun a b t => t + (a + b + 2).sshiftRight 2)

/-- The inverse of `rev53Wrap`. -/
def rev53WrapInv : Filter (BitVec 32) :=
  .two (fun a b t => t + (a + b).sshiftRight 1) (fun a b t => t - (a + b + 2).sshiftRight 2)

/-- C27 on machine words: with wrapping 32-bit arithmetic the transform of two samples or more is still undone
exactly, whatever the samples are (overflow in the forward direction is cancelled in the inverse one). -/
theorem C27_wrapping_round_trip (i0 : Int) (h0 : 0 ≤ i0) (x : List (BitVec 32)) (hx : 2 ≤ x.length) :
    ∃ y, (∀ f, analyseRow rev53Wrap f i0 x = some y) ∧ y.length = x.length ∧
      ∀ f, synthesiseRow rev53WrapInv f i0 y = some x := by
  have h : UndoesAll (fun _ => True) rev53Wrap rev53WrapInv := by
    refine .two ⟨?_, ?_, ?_⟩ ⟨?_, ?_, ?_⟩
    · intros; trivial
    · intro a b t _ _ _; rw [BitVec.add_comm a b]
    · intro a b t _ _ _; exact BitVec.sub_add_cancel _ _
    · intros; trivial
    · intro a b t _ _ _; rw [BitVec.add_comm a b]
    · intro a b t _ _ _; exact BitVec.add_sub_cancel _ _
  obtain ⟨y, -, e, l, -, s, -, -⟩ := reconstruct1d h (sg := id) (sg' := id) (fun a _ => ⟨trivial, rfl⟩) h0
    (x := x) (fun _ _ => trivial) (by rintro rfl; simp at hx)
  refine ⟨y, fun f => ?_, l, fun f => ?_⟩
  · rw [← e]; unfold analyseRow; rw [if_neg (by omega), if_neg (by omega)]
  · rw [← s]; unfold synthesiseRow; rw [if_neg (by omega), if_neg (by omega)]

/-- The four 9/7 steps with coefficients `a b c d` in a commutative ring (fdwt.cpp:129-159, without rounding). -/
def irrev97 {R : Type} [CommRing R] (a b c d : R) : Filter R :=
  .four (fun p q t => t + a * (p + q)) (fun p q t => t + b * (p + q)) (fun p q t => t + c * (p + q))
    (fun p q t => t + d * (p + q))

/-- C27 for the irreversible filter in exact arithmetic: over any commutative ring and for any four coefficients
the synthesis with the negated coefficients undoes the analysis, so all loss comes from rounding. -/
theorem C27_irreversible_exact {R : Type} [CommRing R] (a b c d : R) (i0 : Int) (h0 : 0 ≤ i0) (x : List R)
    (hx : x ≠ []) :
    ∃ y, analyseRow (irrev97 a b c d) id i0 x = some y ∧ y.length = x.length ∧
      synthesiseRow (irrev97 (-a) (-b) (-c) (-d)) id i0 y = some x := by
  have key : ∀ e : R, Undoes (fun _ => True) (fun p q t => t + e * (p + q)) (fun p q t => t + -e * (p + q)) := by
    intro e
    refine ⟨by intros; trivial, fun p q t _ _ _ => by ring, fun p q t _ _ _ => by ring⟩
  obtain ⟨y, -, e, l, -, s, -⟩ := reconstruct1d (.four (key a) (key b) (key c) (key d)) (sg := id) (sg' := id)
    (fun a _ => ⟨trivial, rfl⟩) h0 (x := x) (fun _ _ => trivial) hx
  exact ⟨y, e, l, s⟩

/-- Finding: the width condition is needed.  The width-one image column at an odd coordinate has an empty LL band;
the next level then filters rows of no samples, and the extension reads outside the row. -/
theorem C27_empty_level_undefined : analyseLevels 2 1 0 [[3], [4]] = none ∧ analyseRow rev53 double 0 [] = none := by
  decide +kernel

/-- Finding: the whole-tile vertical inverse `idwt_rev_ver_sr_fixed` catches a single row only at odd
coordinates; at even ones the extension divides by zero, although the forward transform is defined there. -/
theorem C27_single_even_row_undefined (flt : Filter (List Int)) (f : List Int → List Int) (r : List Int)
    (v0 : Int) (hv : v0 % 2 = 0) :
    synthesiseCols flt false f v0 [r] = none ∧ analyseExt flt f v0 [r] = some [r] := by
  constructor
  · unfold synthesiseCols
    rw [if_neg (by simp [hv])]
    unfold synthesiseExt extend
    have h1 : ∃ m, synthesisLeft flt v0 = m + 1 := by
      cases flt <;> simp only [synthesisLeft, if_pos hv] <;> exact ⟨_, rfl⟩
    obtain ⟨m, hm⟩ := h1
    have h2 : ∀ (n : Nat) (b : Buf (List Int)), loopM (n + 1) (fun i b =>
        (pseo (v0 - (i + 1)) v0 (v0 + ([r].length : Nat))).bind fun s => copyTo (-(i + 1)) s b) b = none := by
      intro n b
      rw [loopM]
      cases hb : loopM n (fun i b =>
        (pseo (v0 - (i + 1)) v0 (v0 + ([r].length : Nat))).bind fun s => copyTo (-(i + 1)) s b) b with
      | none => rfl
      | some c =>
        rw [Option.bind_some]
        have : pseo (v0 - ((n : Int) + 1)) v0 (v0 + ([r].length : Nat)) = none := by
          unfold pseo
          simp
        rw [this]; rfl
    simp only [hm]
    rw [h2]
    rfl
  · unfold analyseExt
    simp [hv]

/-! ## C28 -/

/-- C28: the inverse reversible colour transform undoes the forward one, on every triple of integers. -/
theorem C28_colour_round_trip (r g b : Int) : rctInv (rct (r, g, b)) = (r, g, b) := by
  simp only [rct, rctInv, Prod.mk.injEq]
  omega

/-- C28, ranges: if the samples lie between `lo` and `hi`, so does the luma sample, and the two chroma samples
have at most the magnitude `hi - lo`; with `n`-bit samples that is one bit more. -/
theorem C28_colour_range (lo hi r g b : Int) (hr : lo ≤ r ∧ r ≤ hi) (hg : lo ≤ g ∧ g ≤ hi)
    (hb : lo ≤ b ∧ b ≤ hi) :
    lo ≤ (rct (r, g, b)).1 ∧ (rct (r, g, b)).1 ≤ hi ∧
      |(rct (r, g, b)).2.1| ≤ hi - lo ∧ |(rct (r, g, b)).2.2| ≤ hi - lo := by
  simp only [rct]
  refine ⟨by omega, by omega, ?_, ?_⟩ <;> rw [abs_le] <;> constructor <;> omega

example : rct (255, 0, 255) = (127, 255, 255) ∧ rct (0, 255, 0) = (127, -255, -255) := by decide

/-- C28, overflow: with samples below `2^29` in magnitude no sum formed by either direction leaves `int32_t`. -/
theorem C28_no_overflow (r g b : Int) (hr : |r| < 2 ^ 29) (hg : |g| < 2 ^ 29) (hb : |b| < 2 ^ 29) :
    |r + 2 * g| < 2 ^ 31 ∧ |r + 2 * g + b| < 2 ^ 31 ∧ |(rct (r, g, b)).2.1 + (rct (r, g, b)).2.2| < 2 ^ 31 := by
  simp only [rct, abs_lt] at *
  omega

/-! ## C29 -/

/-- C29: for every filter (the 9/7 and the 5/3 steps are instances), every row of two samples or more at any
start coordinate and every column window, the restricted synthesis is defined, keeps the length, and agrees with
the full synthesis at every column of the window. -/
theorem C29_window_agrees {α : Type} (flt : Filter α) (single : α → α) (u0 : Int) (h0 : 0 ≤ u0) (x : List α)
    (hx : 2 ≤ x.length) (colLo colHi : Int) :
    ∃ full win, synthesiseRow flt single u0 x = some full ∧ synthesiseWindow flt u0 colLo colHi x = some win ∧
      win.length = x.length ∧ full.length = x.length ∧
      ∀ k : Nat, colLo ≤ u0 + k → u0 + k < colHi → win[k]? = full[k]? := by
  obtain ⟨s, hs⟩ := ext_exists hx
  obtain ⟨full, ef, lf, hf⟩ := synthesiseRow_spec (flt := flt) (single := single) h0 hx hs
  obtain ⟨b, eb, ab⟩ := fillRow_spec hs hx (synthesisLeft_le flt u0) (synthesisRight_le flt (u0 + x.length)) u0
  by_cases hfull : colLo ≤ u0 ∧ colHi ≥ u0 + x.length
  · refine ⟨full, full, ef, ?_, lf, lf, fun _ _ _ => rfl⟩
    unfold synthesiseWindow
    unfold synthesiseRow at ef
    rw [if_neg (by omega)] at ef
    simp only [hfull, and_self, if_true]
    exact ef
  · have hX := fromLeft_agree ab (synthesisLeft flt u0)
    generalize hw : flt.widen = widen
    have hwpos : 0 ≤ widen := by rw [← hw]; cases flt <;> simp [Filter.widen]
    obtain ⟨X', e, f', a'⟩ := synthesiseClipped_spec (flt := flt) h0 hx (X := fromLeft (synthesisLeft flt u0) b)
      (s := shift (synthesisLeft flt u0) s) (L := synthesisLeft flt u0)
      (p := ((synthesisLeft flt u0 : Int) + u0) % 2) rfl rfl (hX.mono (by omega) (by omega))
      (lo := if colLo - widen < u0 then none else some (colLo - u0 - widen + synthesisLeft flt u0))
      (hi := if colHi + widen > u0 + x.length then none
        else some (colHi - u0 - 1 + widen + synthesisLeft flt u0))
      (wn := widen) hw.symm (a := max (colLo - u0 + synthesisLeft flt u0) (synthesisLeft flt u0))
      (z := min (colHi - u0 - 1 + synthesisLeft flt u0) (synthesisLeft flt u0 + x.length - 1))
      (by omega) (by omega)
      (by intro v hv; split_ifs at hv; simp at hv; omega)
      (by intro v hv; split_ifs at hv; simp at hv; omega)
      (by intro v hv; split_ifs at hv; simp at hv; omega)
      (by intro v hv; split_ifs at hv; simp at hv; omega)
    obtain ⟨win, er, lr, hr⟩ := readBack_filled (left := synthesisLeft flt u0) (w := x.length) f' (by omega)
    refine ⟨full, win, ef, ?_, lr, lf, ?_⟩
    · unfold synthesiseWindow
      simp only [if_neg hfull, eb, Option.bind_some, hw, e, er]
    · intro k k1 k2
      by_cases hk : k < x.length
      · have e1 := hr k (by omega)
        have e2 := hf k (by omega) (by omega)
        simp only [Int.toNat_natCast] at e2
        rw [e1, e2, a' _ (by omega) (by omega),
          synthesiseAll_shift s (q := u0 % 2) (by omega) (by omega)]
        simp [shift]
      · rw [List.getElem?_eq_none (by omega), List.getElem?_eq_none (by omega)]

/-- A window of four columns strictly inside a row of fourteen: the samples of the window agree, others do not. -/
example : (synthesiseWindow rev53Inv 3 8 12 [5, 9, -3, 8, 1, 7, 2, -6, 4, 3, 3, 0, 8, 1]).map (List.take 4 ∘ List.drop 5) =
    (synthesiseRow rev53Inv halve 3 [5, 9, -3, 8, 1, 7, 2, -6, 4, 3, 3, 0, 8, 1]).map (List.take 4 ∘ List.drop 5) ∧
    synthesiseWindow rev53Inv 3 8 12 [5, 9, -3, 8, 1, 7, 2, -6, 4, 3, 3, 0, 8, 1] ≠
      synthesiseRow rev53Inv halve 3 [5, 9, -3, 8, 1, 7, 2, -6, 4, 3, 3, 0, 8, 1] := by decide +kernel

end Verif.Dwt
