import Verif.Img.FilesLemmas
/-
C76: picture files written by the decoder program and read by the encoder program.
Models in `Img/Files`; the specification is `Plane.Valid` (`Img/FilesLemmas`), `Plane.zero` and `Alike` below.
-/
namespace Verif.Img

/-- What stands for zero in a PGM file: half of the range for signed components. -/
def Plane.zero (C : Plane) : Int := if C.signed then 2 ^ (C.depth - 1) else 0

/-- Components that can be written with the number of bytes and the offset of `C0`. -/
structure Alike (C0 C : Plane) : Prop where
  bytes : C0.depth ≤ 8 ↔ C.depth ≤ 8
  signed : C0.signed = C.signed
  depth : C.signed = true → C0.depth = C.depth

theorem Alike.refl (C : Plane) : Alike C C := ⟨Iff.rfl, rfl, fun _ => rfl⟩

theorem Plane.Valid.shift {C : Plane} (h : C.Valid) {r : List Int} (hr : r ∈ C.rows) {v : Int} (hv : v ∈ r) :
    0 ≤ v + C.zero ∧ v + C.zero < 2 ^ C.depth := by
  have := h.range r hr v hv
  unfold Plane.zero
  have h1 := h.depth.1
  obtain ⟨d, hd⟩ : ∃ d, C.depth = d + 1 := ⟨C.depth - 1, by omega⟩
  rw [hd] at this ⊢
  simp only [Nat.add_sub_cancel] at this ⊢
  have e : (2 : Int) ^ (d + 1) = 2 * 2 ^ d := by rw [Int.pow_succ]; omega
  rw [e] at this ⊢
  generalize (2 : Int) ^ d = p at *
  split <;> simp_all
  omega

theorem pow_le_bytes {d : Nat} (h : d ≤ 16) : (2 : Int) ^ d ≤ if bpsOf d = 1 then 256 else 65536 := by
  have : ∀ d : Fin 17, (2 : Int) ^ d.1 ≤ if bpsOf d.1 = 1 then 256 else 65536 := by decide +kernel
  exact this ⟨d, by omega⟩

theorem Alike.offset {C0 C : Plane} (h : Alike C0 C) : offset .pgm C0.depth C0.signed = C.zero := by
  unfold Img.offset Plane.zero
  rw [h.signed]
  by_cases hs : C.signed = true
  · rw [if_pos ⟨rfl, hs⟩, if_pos hs, h.depth hs]
  · rw [if_neg (fun e => hs e.2), if_neg hs]

theorem Alike.bps {C0 C : Plane} (h : Alike C0 C) (h0 : C0.Valid) : bytesPer C0.depth = bpsOf C.depth := by
  rw [bytesPer_bps h0.depth.1 h0.depth.2]
  unfold bpsOf
  have := h.bytes
  split <;> split <;> omega

theorem mapM_files {α β : Type} (f : α → Option β) : ∀ l : List α, (∀ a ∈ l, ∃ b, f a = some b) →
    ∃ r, l.mapM f = some r ∧ r.length = l.length ∧ ∀ i (hi : i < l.length) (hr : i < r.length), f l[i] = some r[i]
  | [], _ => ⟨[], rfl, rfl, fun i hi => absurd hi (Nat.not_lt_zero _)⟩
  | a :: l, h => by
    obtain ⟨b, hb⟩ := h a List.mem_cons_self
    obtain ⟨r, h1, h2, h3⟩ := mapM_files f l fun c hc => h c (List.mem_cons_of_mem _ hc)
    refine ⟨b :: r, ?_, by simp [h2], fun i hi hr => ?_⟩
    · rw [List.mapM_cons, hb, h1]; rfl
    · cases i with
      | zero => exact hb
      | succ i => exact h3 i (by simpa using hi) (by simpa using hr)

/-- The file of a component. -/
theorem pgm_form {C0 C : Plane} (h0 : C0.Valid) (hC : C.Valid) (h : Alike C0 C) :
    compFile .pgm (bytesPer C0.depth) (offset .pgm C0.depth C0.signed) C = some ([80, 53, 32] ++ fmtD C.width ++ [32] ++ fmtD C.height ++ [32]
      ++ fmtD (2 ^ C.depth - 1) ++ [10] ++ bodyPx (enc .pgm (bpsOf C.depth) C.zero) (C.rows.map fun r => r.map fun v => [v])) := by
  have hb : bytesPer C0.depth = 1 ∨ bytesPer C0.depth = 2 := by rw [h.bps h0]; exact bpsOf_two _
  have hh : compHeader .pgm C = some ([80, 53, 32] ++ fmtD C.width ++ [32] ++ fmtD C.height ++ [32] ++ fmtD (2 ^ C.depth - 1) ++ [10]) := by
    have := hC.depth.2
    unfold compHeader
    simp only
    rw [if_pos (by omega)]
  rw [compFile_eq hb C hh, body_px, h.offset, h.bps h0]

theorem pgx_form {C0 C : Plane} (h0 : C0.Valid) (hb : C0.depth ≤ 8 ↔ C.depth ≤ 8) :
    compFile .pgx (bytesPer C0.depth) (offset .pgx C0.depth C0.signed) C = some ([80, 71, 32, 76, 77, 32, if C.signed then 45 else 43, 32] ++
      fmtD C.depth ++ [32] ++ fmtD C.width ++ [32] ++ fmtD C.height ++ [10] ++ body .pgx (bpsOf C.depth) 0 C.rows) := by
  have hbb : bytesPer C0.depth = bpsOf C.depth := by
    rw [bytesPer_bps h0.depth.1 h0.depth.2]
    unfold bpsOf
    split <;> split <;> omega
  have hoff : offset .pgx C0.depth C0.signed = 0 := by unfold Img.offset; rw [if_neg (by simp)]
  rw [compFile_eq (by rw [hbb]; exact bpsOf_two _) C (hd := [80, 71, 32, 76, 77, 32, if C.signed then 45 else 43, 32] ++ fmtD C.depth ++ [32] ++
    fmtD C.width ++ [32] ++ fmtD C.height ++ [10]) rfl, hoff, hbb]

theorem pgx_range {C : Plane} (h : C.Valid) {r : List Int} (hr : r ∈ C.rows) {v : Int} (hv : v ∈ r) :
    if C.signed then (if bpsOf C.depth = 1 then -128 ≤ v ∧ v < 128 else -32768 ≤ v ∧ v < 32768)
      else (if bpsOf C.depth = 1 then 0 ≤ v ∧ v < 256 else 0 ≤ v ∧ v < 65536) := by
  have := h.range r hr v hv
  have hp := pow_le_bytes h.depth.2
  obtain ⟨d, hd⟩ : ∃ d, C.depth = d + 1 := ⟨C.depth - 1, by have := h.depth.1; omega⟩
  rw [hd] at this hp ⊢
  simp only [Nat.add_sub_cancel] at this
  have e : (2 : Int) ^ (d + 1) = 2 * 2 ^ d := by rw [Int.pow_succ]; omega
  rw [e] at this hp
  generalize (2 : Int) ^ d = p at *
  split <;> split <;> simp_all <;> omega

/-! ### Files of components -/

/-- **C76** PGM files: every file written for a component is opened by the streaming reader with the size and depth of the component, and every row read is the
row of the component, signed samples moved by half of the range. -/
theorem C76_pgm_files (C0 : Plane) (l : List Plane) (hV : ∀ C ∈ C0 :: l, C.Valid) (hA : ∀ C ∈ l, Alike C0 C) :
    ∃ files, compFiles .pgm (C0 :: l) = some files ∧ files.length = (C0 :: l).length ∧
      ∀ i (hi : i < (C0 :: l).length) (hf : i < files.length), ∃ p, pnmOpen files[i] = .ok p ∧
        p.width = (C0 :: l)[i].width ∧ p.height = (C0 :: l)[i].height ∧ p.depth = (C0 :: l)[i].depth ∧ p.nc = 1 ∧
        ∀ y (hy : y < (C0 :: l)[i].rows.length), pnmRow p y = .ok [(C0 :: l)[i].rows[y].map (· + (C0 :: l)[i].zero)] := by
  have h0 : C0.Valid := hV C0 List.mem_cons_self
  have hAll : ∀ C ∈ C0 :: l, Alike C0 C := fun C hC => by
    rcases List.mem_cons.1 hC with h | h
    · rw [h]; exact Alike.refl _
    · exact hA C h
  obtain ⟨files, h1, h2, h3⟩ := mapM_files (compFile .pgm (bytesPer C0.depth) (offset .pgm C0.depth C0.signed)) (C0 :: l)
    fun C hC => ⟨_, pgm_form h0 (hV C hC) (hAll C hC)⟩
  refine ⟨files, h1, h2, fun i hi hf => ?_⟩
  have hm : (C0 :: l)[i] ∈ C0 :: l := List.getElem_mem _
  have hfile := h3 i hi hf
  generalize (C0 :: l)[i] = C at *
  have hC := hV C hm
  rw [pgm_form h0 hC (hAll C hm)] at hfile
  rw [← Option.some.inj hfile, pnmOpen_eq hC.width hC.height hC.depth.1 hC.depth.2 (.inl rfl)]
  refine ⟨_, rfl, rfl, rfl, rfl, rfl, fun y hy => ?_⟩
  rw [pnmRow_eq (rows := C.rows.map fun r => r.map fun v => [v]) (k := .pgm) (off := C.zero) (by simp) ⟨[], by simp⟩ ?_ ?_ ?_ (by simpa using hy)]
  · simp
  · intro r hr
    obtain ⟨r', hr', rfl⟩ := List.mem_map.1 hr
    simp [hC.cols r' hr']
  · intro r hr q hq
    obtain ⟨r', hr', rfl⟩ := List.mem_map.1 hr
    obtain ⟨v, hv, rfl⟩ := List.mem_map.1 hq
    rfl
  · intro r hr q hq v hv
    obtain ⟨r', hr', rfl⟩ := List.mem_map.1 hr
    obtain ⟨v', hv', rfl⟩ := List.mem_map.1 hq
    simp at hv
    subst hv
    have a := hC.shift hr' hv'
    have b := pow_le_bytes hC.depth.2
    exact ⟨a.1, Int.lt_of_lt_of_le a.2 b⟩

theorem pgxRow_eq : ∀ (l : List (Pgx × Nat × Nat)) (g : Pgx × Nat × Nat → List Int) (y : Nat), (∀ C ∈ l, pgxRow1 C y = .ok (g C)) → pgxRow l y = .ok (l.map g)
  | [], _, _, _ => rfl
  | C :: l, g, y, h => by
    rw [pgxRow, h C List.mem_cons_self]
    simp only [Out.bind]
    rw [pgxRow_eq l g y fun D hD => h D (List.mem_cons_of_mem _ hD)]
    rfl

/-- **C76** PGX files: the files written for the components are opened together by the streaming reader and row `y` of the picture is, in every component,
the row it was written from (components with fewer rows give each of their rows several times). -/
theorem C76_pgx_files (C0 : Plane) (l : List Plane) (hV : ∀ C ∈ C0 :: l, C.Valid) (hA : ∀ C ∈ l, C0.depth ≤ 8 ↔ C.depth ≤ 8)
    (hpos : 0 < C0.height) (hS : ∀ C ∈ l, 0 < C.width ∧ 0 < C.height ∧ C.width ∣ C0.width ∧ C.height ∣ C0.height ∧ C0.height / C.height < 256) :
    ∃ files opened, compFiles .pgx (C0 :: l) = some files ∧ pgxOpen files = .ok opened ∧
      opened.map (fun p => (p.1.width, p.1.height, p.1.depth, p.1.signed)) = (C0 :: l).map (fun C => (C.width, C.height, C.depth, C.signed)) ∧
      ∀ y < C0.height, ∃ rows, pgxRow opened y = .ok rows ∧ rows.length = (C0 :: l).length ∧
        ∀ i (hi : i < (C0 :: l).length), rows[i]? = (C0 :: l)[i].rows[y / (C0.height / (C0 :: l)[i].height)]? := by
  have h0 : C0.Valid := hV C0 List.mem_cons_self
  have hAll : ∀ C ∈ C0 :: l, C0.depth ≤ 8 ↔ C.depth ≤ 8 := fun C hC => by
    rcases List.mem_cons.1 hC with h | h
    · rw [h]
    · exact hA C h
  let hdr := fun C : Plane => ([80, 71, 32, 76, 77, 32, if C.signed then 45 else 43, 32] ++
      fmtD C.depth ++ [32] ++ fmtD C.width ++ [32] ++ fmtD C.height ++ [10] ++ body .pgx (bpsOf C.depth) 0 C.rows)
  let op := fun C : Plane => (⟨C.width, C.height, C.depth, C.signed, false, body .pgx (bpsOf C.depth) 0 C.rows⟩ : Pgx)
  have h1 : compFiles .pgx (C0 :: l) = some ((C0 :: l).map hdr) :=
    mapM_map_some _ _ _ fun C hC => pgx_form h0 (hAll C hC)
  have h2 : ((C0 :: l).map hdr).mapM pgxHeader = some ((C0 :: l).map op) := by
    have := mapM_map_some (fun C => pgxHeader (hdr C)) op (C0 :: l) fun C hC =>
      pgxHeader_eq C.signed (hV C hC).width (hV C hC).height (hV C hC).depth.2 _
    rw [← this]
    generalize C0 :: l = L
    induction L with
    | nil => rfl
    | cons a L ih => rw [List.map_cons, List.mapM_cons, List.mapM_cons, ih]
  let fin := fun C : Plane => (op C, (C0.width / C.width % 256, C0.height / C.height % 256))
  refine ⟨_, (op C0, 1, 1) :: l.map fin, h1, ?_, ?_, ?_⟩
  · unfold pgxOpen
    rw [h2, List.map_cons]
    simp only
    rw [if_neg, if_neg]
    · simp only [List.map_map]; rfl
    · rintro ⟨P, hP, hbad⟩
      obtain ⟨C, hC, rfl⟩ := List.mem_map.1 hP
      have := hS C hC
      have e1 := Nat.mod_eq_zero_of_dvd this.2.2.1
      have e2 := Nat.mod_eq_zero_of_dvd this.2.2.2.1
      rcases hbad with h | h
      · exact h e1
      · exact h e2
    · rintro ⟨P, hP, hbad⟩
      obtain ⟨C, hC, rfl⟩ := List.mem_map.1 hP
      have := hS C hC
      rcases hbad with h | h
      · exact absurd h (by show C.width ≠ 0; omega)
      · exact absurd h (by show C.height ≠ 0; omega)
  · simp [op, fin]
  · intro y hy
    have key : ∀ C ∈ C0 :: l, ∀ xr, 0 < C0.height / C.height ∧ y / (C0.height / C.height) < C.rows.length ∧
        pgxRow1 (op C, xr, C0.height / C.height) y = .ok (C.rows.getD (y / (C0.height / C.height)) []) := by
      intro C hC xr
      have hCV := hV C hC
      have hd : 0 < C.height ∧ C.height ∣ C0.height := by
        rcases List.mem_cons.1 hC with h | h
        · rw [h]; exact ⟨hpos, Nat.dvd_refl _⟩
        · exact ⟨(hS C h).2.1, (hS C h).2.2.2.1⟩
      obtain ⟨q, hq⟩ := hd.2
      have hdiv : C0.height / C.height = q := by rw [hq, Nat.mul_div_cancel_left _ hd.1]
      have hq0 : 0 < q := by
        rcases Nat.eq_zero_or_pos q with h | h
        · rw [h] at hq; omega
        · exact h
      have hlt : y / q < C.rows.length := by
        rw [hCV.rows]
        exact Nat.div_lt_of_lt_mul (by rw [Nat.mul_comm, ← hq]; exact hy)
      rw [hdiv]
      refine ⟨hq0, hlt, ?_⟩
      rw [pgxRow1_eq (C := op C) (rows := C.rows) rfl ⟨[], by simp [op]⟩ hCV.cols (fun r hr v hv => pgx_range hCV hr hv) hq0 hlt]
      rw [List.getD_eq_getElem?_getD, List.getElem?_eq_getElem hlt]; rfl
    let g : Plane → List Int := fun C => C.rows.getD (y / (C0.height / C.height)) []
    have k0 := key C0 List.mem_cons_self 1
    rw [Nat.div_self hpos] at k0
    have hrest : ∀ L : List Plane, (∀ C ∈ L, C ∈ l) → pgxRow (L.map fin) y = .ok (L.map g) := by
      intro L
      induction L with
      | nil => intro _; rfl
      | cons C L ih =>
        intro hL
        have hC := hL C List.mem_cons_self
        rw [List.map_cons, pgxRow, ih fun D hD => hL D (List.mem_cons_of_mem _ hD)]
        have hk := key C (List.mem_cons_of_mem _ hC) (C0.width / C.width % 256)
        have hfin : fin C = (op C, C0.width / C.width % 256, C0.height / C.height) := by
          simp only [fin, Nat.mod_eq_of_lt (hS C hC).2.2.2.2]
        rw [hfin, hk.2.2]
        rfl
    refine ⟨(C0 :: l).map g, ?_, by simp, fun i hi => ?_⟩
    · rw [pgxRow, k0.2.2, hrest l fun _ h => h]
      simp only [Out.bind, List.map_cons, g, Nat.div_self hpos]
    · have hm : (C0 :: l)[i] ∈ C0 :: l := List.getElem_mem _
      have hk := key _ hm 1
      have hlt := hk.2.1
      clear hk
      rw [List.getElem?_map, List.getElem?_eq_getElem hi, Option.map_some, List.getElem?_eq_getElem hlt]
      simp only [g, List.getD_eq_getElem?_getD, List.getElem?_eq_getElem hlt, Option.getD_some]

/-! ### PPM files -/

theorem ppmSample_enc {bpp : Nat} (v : Int) : ppmSample bpp v = enc .pgm bpp 0 v := by
  unfold ppmSample enc
  rw [if_neg (show ¬ Kind.pgm = Kind.pgx by simp), Int.add_zero]

theorem clampPpm_id {d : Nat} {v : Int} (h0 : 0 ≤ v) (h1 : v < 2 ^ d) : clampPpm d v = v := by
  unfold clampPpm
  rw [if_neg (by omega), if_neg (by omega)]

/-- Rows of three components of widths `w0`, `w1`, `w2` with unsigned samples of `d` bits. -/
structure Triple (d w0 w1 w2 : Nat) (r : List Int × List Int × List Int) : Prop where
  len0 : r.1.length = w0
  len1 : r.2.1.length = w1
  len2 : r.2.2.length = w2
  range0 : ∀ v ∈ r.1, 0 ≤ v ∧ v < 2 ^ d
  range1 : ∀ v ∈ r.2.1, 0 ≤ v ∧ v < 2 ^ d
  range2 : ∀ v ∈ r.2.2, 0 ≤ v ∧ v < 2 ^ d

/-- The pixels of a PPM row. -/
def pixels (w0 w1 w2 : Nat) (r : List Int × List Int × List Int) : List (List Int) :=
  (List.range w0).map fun n => [r.1.getD n 0, r.2.1.getD (n * w1 / w0) 0, r.2.2.getD (n * w2 / w0) 0]

theorem ppmRow_eq {bpp d w0 w1 w2 : Nat} {r : List Int × List Int × List Int} (h : Triple d w0 w1 w2 r)
    (hw : w0 * w1 < 2 ^ 32 ∧ w0 * w2 < 2 ^ 32 ∧ 0 < w1 ∧ 0 < w2 ∨ w0 = w1 ∧ w0 = w2) :
    ppmRow bpp d w0 w1 w2 r.1 r.2.1 r.2.2 = some ((pixels w0 w1 w2 r).flatMap fun p => p.flatMap (enc .pgm bpp 0)) := by
  unfold ppmRow
  rw [mapM_map_some _ (fun n => [r.1.getD n 0, r.2.1.getD (n * w1 / w0) 0, r.2.2.getD (n * w2 / w0) 0].flatMap (enc .pgm bpp 0))]
  · rw [Option.map_some, pixels, List.flatMap_map, List.flatMap_def]
  · intro n hn
    have hn := List.mem_range.1 hn
    have hi : n < r.1.length := by rw [h.len0]; exact hn
    have a0 := h.range0 _ (List.getElem_mem hi)
    by_cases he : w0 = w1 ∧ w0 = w2
    · have hi1 : n < r.2.1.length := by rw [h.len1]; omega
      have hi2 : n < r.2.2.length := by rw [h.len2]; omega
      have a1 := h.range1 _ (List.getElem_mem hi1)
      have a2 := h.range2 _ (List.getElem_mem hi2)
      have e : n * w0 / w0 = n := Nat.mul_div_cancel _ (by omega)
      rw [if_pos he, ← he.1, ← he.2, e]
      simp only [List.getD_eq_getElem?_getD, List.getElem?_eq_getElem hi, List.getElem?_eq_getElem hi1, List.getElem?_eq_getElem hi2, Option.bind_some,
        Option.map_some, Option.getD_some, clampPpm_id a0.1 a0.2, clampPpm_id a1.1 a1.2, clampPpm_id a2.1 a2.2, ppmSample_enc]
      simp
    · have hw : w0 * w1 < 2 ^ 32 ∧ w0 * w2 < 2 ^ 32 ∧ 0 < w1 ∧ 0 < w2 := by
        rcases hw with h | h
        · exact h
        · exact absurd h he
      have b1 : n * w1 < w0 * w1 := Nat.mul_lt_mul_of_pos_right hn hw.2.2.1
      have b2 : n * w2 < w0 * w2 := Nat.mul_lt_mul_of_pos_right hn hw.2.2.2
      have hi1 : n * w1 / w0 < r.2.1.length := by rw [h.len1]; exact Nat.div_lt_of_lt_mul b1
      have hi2 : n * w2 / w0 < r.2.2.length := by rw [h.len2]; exact Nat.div_lt_of_lt_mul b2
      rw [if_neg he, Nat.mod_eq_of_lt (show n * w1 < 2 ^ 32 by omega), Nat.mod_eq_of_lt (show n * w2 < 2 ^ 32 by omega)]
      simp only [List.getD_eq_getElem?_getD, List.getElem?_eq_getElem hi, List.getElem?_eq_getElem hi1, List.getElem?_eq_getElem hi2, Option.bind_some,
        Option.map_some, Option.getD_some, ppmSample_enc]
      simp

theorem ppm_form {w0 h0 d w1 w2 : Nat} {rows : List (List Int × List Int × List Int)} (h1 : 1 ≤ d) (h2 : d ≤ 16)
    (hr : ∀ r ∈ rows, Triple d w0 w1 w2 r) (hw : w0 * w1 < 2 ^ 32 ∧ w0 * w2 < 2 ^ 32 ∧ 0 < w1 ∧ 0 < w2 ∨ w0 = w1 ∧ w0 = w2) :
    ppmFile w0 h0 d w1 w2 rows = some ([80, 54, 32] ++ fmtD w0 ++ [32] ++ fmtD h0 ++ [32] ++ fmtD (2 ^ d - 1) ++ [10]
      ++ bodyPx (enc .pgm (bpsOf d) 0) (rows.map (pixels w0 w1 w2))) := by
  unfold ppmFile
  rw [bytesPer_bps h1 h2, if_neg (by have := bpsOf_two d; omega),
    mapM_map_some _ (fun r => (pixels w0 w1 w2 r).flatMap fun p => p.flatMap (enc .pgm (bpsOf d) 0)) _ fun r h => ppmRow_eq (hr r h) hw,
    Option.map_some, bodyPx, List.flatMap_map, List.flatMap_def]

theorem pixels_len {w0 w1 w2 : Nat} {r : List Int × List Int × List Int} : (pixels w0 w1 w2 r).length = w0 := by simp [pixels]

theorem pixels_nc {w0 w1 w2 : Nat} {r : List Int × List Int × List Int} : ∀ q ∈ pixels w0 w1 w2 r, q.length = 3 := by
  intro q hq
  obtain ⟨n, _, rfl⟩ := List.mem_map.1 hq
  rfl

theorem getD_range {d : Nat} {l : List Int} (h : ∀ v ∈ l, 0 ≤ v ∧ v < 2 ^ d) (n : Nat) : 0 ≤ l.getD n 0 ∧ l.getD n 0 < 2 ^ d := by
  rw [List.getD_eq_getElem?_getD]
  cases hn : l[n]? with
  | none => exact ⟨by simp, by have : (0 : Int) < 2 ^ d := Int.pow_pos (by omega); simp [this]⟩
  | some v => exact h v (List.mem_of_getElem? hn)

theorem pixels_range {d w0 w1 w2 : Nat} {r : List Int × List Int × List Int} (h : Triple d w0 w1 w2 r) :
    ∀ q ∈ pixels w0 w1 w2 r, ∀ v ∈ q, 0 ≤ v ∧ v < 2 ^ d := by
  intro q hq v hv
  obtain ⟨n, _, rfl⟩ := List.mem_map.1 hq
  simp only [List.mem_cons, List.not_mem_nil, or_false] at hv
  rcases hv with rfl | rfl | rfl
  · exact getD_range h.range0 _
  · exact getD_range h.range1 _
  · exact getD_range h.range2 _

/-- Component `c` of the pixels. -/
theorem pixels_comp {d w0 w1 w2 : Nat} {r : List Int × List Int × List Int} (h : Triple d w0 w1 w2 r)
    (hw : 0 < w1 ∧ 0 < w2 ∨ w0 = w1 ∧ w0 = w2) :
    ∃ b c, ((List.range 3).map fun i => (pixels w0 w1 w2 r).map fun q => q.getD i 0 + 0) = [r.1, b, c] ∧ b.length = w0 ∧ c.length = w0 ∧
      ∀ n < w0, b[n]? = r.2.1[n * w1 / w0]? ∧ c[n]? = r.2.2[n * w2 / w0]? := by
  refine ⟨(List.range w0).map fun n => r.2.1.getD (n * w1 / w0) 0, (List.range w0).map fun n => r.2.2.getD (n * w2 / w0) 0, ?_, by simp, by simp, ?_⟩
  · rw [show List.range 3 = [0, 1, 2] from rfl]
    simp only [List.map_cons, List.map_nil, pixels, List.map_map, Int.add_zero]
    congr 1
    refine List.ext_getElem (by simp [h.len0]) fun i hi1 hi2 => ?_
    simp [hi2]
  · intro n hn
    have h1 : n * w1 / w0 < r.2.1.length := by
      rw [h.len1]
      refine Nat.div_lt_of_lt_mul (Nat.mul_lt_mul_of_pos_right hn ?_)
      omega
    have h2 : n * w2 / w0 < r.2.2.length := by
      rw [h.len2]
      refine Nat.div_lt_of_lt_mul (Nat.mul_lt_mul_of_pos_right hn ?_)
      omega
    constructor
    · rw [List.getElem?_map, List.getElem?_range hn, Option.map_some, List.getD_eq_getElem?_getD, List.getElem?_eq_getElem h1]; rfl
    · rw [List.getElem?_map, List.getElem?_range hn, Option.map_some, List.getD_eq_getElem?_getD, List.getElem?_eq_getElem h2]; rfl

/-- **C76** PPM files: the file is opened by the streaming reader with the size and depth of component 0 and every row read is the row of component 0 and the rows of
the other components, stretched to its width by repeating samples. -/
theorem C76_ppm_file (w0 h0 d w1 w2 : Nat) (rows : List (List Int × List Int × List Int)) (hw0 : w0 < 2 ^ 31) (hh0 : h0 < 2 ^ 31) (h1 : 1 ≤ d) (h2 : d ≤ 16)
    (hr : ∀ r ∈ rows, Triple d w0 w1 w2 r) (hw : w0 * w1 < 2 ^ 32 ∧ w0 * w2 < 2 ^ 32 ∧ 0 < w1 ∧ 0 < w2 ∨ w0 = w1 ∧ w0 = w2) :
    ∃ file p, ppmFile w0 h0 d w1 w2 rows = some file ∧ pnmOpen file = .ok p ∧ p.width = w0 ∧ p.height = h0 ∧ p.nc = 3 ∧ p.depth = d ∧
      ∀ y (hy : y < rows.length), ∃ b c, pnmRow p y = .ok [rows[y].1, b, c] ∧ b.length = w0 ∧ c.length = w0 ∧
        ∀ n < w0, b[n]? = rows[y].2.1[n * w1 / w0]? ∧ c[n]? = rows[y].2.2[n * w2 / w0]? := by
  refine ⟨_, _, ppm_form h1 h2 hr hw, pnmOpen_eq hw0 hh0 h1 h2 (.inr rfl) _, rfl, rfl, rfl, rfl, fun y hy => ?_⟩
  have hmem : rows[y] ∈ rows := List.getElem_mem _
  obtain ⟨b, c, e, h⟩ := pixels_comp (hr _ hmem) (by omega)
  refine ⟨b, c, ?_, h⟩
  rw [pnmRow_eq (rows := rows.map (pixels w0 w1 w2)) (k := .pgm) (off := 0) (by simp) ⟨[], by simp⟩ ?_ ?_ ?_ (by simpa using hy)]
  · rw [← e]; simp
  · intro r hr
    obtain ⟨r', _, rfl⟩ := List.mem_map.1 hr
    exact pixels_len
  · intro r hr
    obtain ⟨r', _, rfl⟩ := List.mem_map.1 hr
    exact pixels_nc
  · intro r hr' q hq v hv
    obtain ⟨r', hr2, rfl⟩ := List.mem_map.1 hr'
    have a := pixels_range (hr r' hr2) q hq v hv
    rw [Int.add_zero]
    exact ⟨a.1, Int.lt_of_lt_of_le a.2 (pow_le_bytes h2)⟩

/-! ### The reader of the other encoder path -/

/-- Bytes that this reader takes for the end of the header: space, line feed, carriage return. -/
def Blank (b : Int) : Prop := b = 32 ∨ b = 10 ∨ b = 13

instance (b : Int) : Decidable (Blank b) := by unfold Blank; infer_instance

theorem readFile_gen {file data : List Nat} {head : Head} {s : List (List Int)} (hh : readHead file = .ok head) (hrest : head.rest = data)
    (hline : head.nc * ((head.depth + 7) / 8) * head.width < 2 ^ 32)
    (hlen : data.length = head.height * (head.nc * ((head.depth + 7) / 8) * head.width)) (hs : samplesOf head data = .ok s)
    {b : Nat} {t : List Nat} (hb : data = b :: t) :
    (¬ Blank b → readFile file = .ok (head, s)) ∧ (Blank b → 2 ≤ data.length → readFile file = .fail) := by
  unfold readFile
  rw [hh]
  simp only [Out.bind]
  rw [hrest]
  constructor
  · intro h
    rw [rasterOf_keep (fun c hc => ?_) (by rw [hb]; simp)]
    · simp only
      rw [hs]
    · rw [hb] at hc
      simp at hc
      subst hc
      unfold Blank at h
      simp [ws3]
      omega
  · intro h h2
    rcases rasterOf_lose (file := file) (data := data) ⟨b, by rw [hb]; rfl, by unfold Blank at h; simp [ws3]; omega⟩ h2 with e | ⟨r, e, hr⟩
    · rw [e]
    · rw [e]
      simp only
      rw [samplesOf_short hline (by omega)]

theorem bodyPx_len {nc b w : Nat} {e : Int → List Nat} {rows : List (List (List Int))} (he : ∀ v, (e v).length = b) (hw : ∀ r ∈ rows, r.length = w)
    (hc : ∀ r ∈ rows, ∀ q ∈ r, q.length = nc) : (bodyPx e rows).length = rows.length * (nc * b * w) := by
  rw [bodyPx, flatMap_len (k := w * nc * b) fun r hr => pxRow_len (hw r hr) (hc r hr) he]
  congr 1
  rw [Nat.mul_assoc, Nat.mul_comm]

theorem two_le_raster {d w h : Nat} (hw1 : 1 ≤ w) (hh1 : 1 ≤ h) (h2 : 8 < d ∨ 2 ≤ w * h) : 2 ≤ h * (1 * bpsOf d * w) := by
  have := Nat.mul_le_mul hh1 hw1
  rcases h2 with h2 | h2
  · have hb1 : bpsOf d = 2 := by unfold bpsOf; rw [if_pos h2]
    rw [hb1]
    have := Nat.mul_le_mul hh1 (show 2 ≤ 1 * 2 * w by omega)
    omega
  · rw [Nat.one_mul]
    rcases bpsOf_two d with e | e <;> rw [e]
    · rw [Nat.one_mul, Nat.mul_comm]; exact h2
    · have := Nat.mul_le_mul hh1 (show 2 ≤ 2 * w by omega)
      omega

theorem bodyPx_head {e : Int → List Nat} {v : Int} {b : Nat} {t : List Nat} (h : e v = b :: t) (q : List Int) (px : List (List Int))
    (rs : List (List (List Int))) : ∃ t', bodyPx e (((v :: q) :: px) :: rs) = b :: t' := by
  refine ⟨t ++ q.flatMap e ++ (px.flatMap fun p => p.flatMap e) ++ bodyPx e rs, ?_⟩
  simp [bodyPx, h]

theorem enc_head_pnm {k : Kind} (hk : k ≠ .pgx) {d : Nat} {off v : Int} (h0 : 0 ≤ v + off) (h1 : v + off < if bpsOf d = 1 then 256 else 65536) :
    ∃ t, enc k (bpsOf d) off v = (if d ≤ 8 then v + off else (v + off) / 256).toNat :: t := by
  unfold enc byte
  by_cases h8 : d ≤ 8
  · have hb1 : bpsOf d = 1 := by unfold bpsOf; rw [if_neg (by omega)]
    rw [hb1] at h1 ⊢
    simp only [if_true] at h1
    rw [if_pos h8, if_pos rfl]
    exact ⟨[], by congr 1; omega⟩
  · have hb1 : bpsOf d = 2 := by unfold bpsOf; rw [if_pos (by omega)]
    rw [hb1] at h1 ⊢
    simp only [if_neg (show ¬ (2 : Nat) = 1 by omega)] at h1
    rw [if_neg h8, if_neg (by omega), if_neg hk]
    exact ⟨_, by congr 1; omega⟩

theorem enc_head_pgx {d : Nat} {v : Int} : ∃ t, enc .pgx (bpsOf d) 0 v = (v % 256).toNat :: t := by
  unfold enc byte
  split
  · exact ⟨[], by rw [Int.add_zero]⟩
  · rw [if_pos rfl]; exact ⟨_, rfl⟩

/-- **C76** The other reader on a PGM file written for a component: the samples are read back if the first byte of the samples is not a blank; if it is a blank
and there are two bytes or more, the file is refused. -/
theorem C76_buffered_pgm (C0 C : Plane) (h0 : C0.Valid) (hC : C.Valid) (hA : Alike C0 C) (v : Int) (r : List Int) (rs : List (List Int))
    (hfirst : C.rows = (v :: r) :: rs) :
    ∃ file, compFile .pgm (bytesPer C0.depth) (offset .pgm C0.depth C0.signed) C = some file ∧
      (¬ Blank (if C.depth ≤ 8 then v + C.zero else (v + C.zero) / 256) →
        ∃ h, readFile file = .ok (h, [(C.rows.map fun r => r.map (· + C.zero)).flatten]) ∧
          h.width = C.width ∧ h.height = C.height ∧ h.depth = C.depth ∧ h.signed = false) ∧
      (Blank (if C.depth ≤ 8 then v + C.zero else (v + C.zero) / 256) → 8 < C.depth ∨ 2 ≤ C.width * C.height → readFile file = .fail) := by
  have hb := bpsOf_two C.depth
  have hbb : (C.depth + 7) / 8 = bpsOf C.depth := bytesPer_bps hC.depth.1 hC.depth.2
  have hmem : v :: r ∈ C.rows := by rw [hfirst]; exact List.mem_cons_self
  have hw1 : 1 ≤ C.width := by rw [← hC.cols _ hmem]; simp
  have hh1 : 1 ≤ C.height := by rw [← hC.rows, hfirst]; simp
  have hv := hC.shift hmem List.mem_cons_self
  have hv2 := Int.lt_of_lt_of_le hv.2 (pow_le_bytes hC.depth.2)
  refine ⟨_, pgm_form h0 hC hA, ?_⟩
  have hcols : ∀ q ∈ C.rows.map fun r => r.map fun v => [v], q.length = C.width := by
    intro q hq
    obtain ⟨q', hq', rfl⟩ := List.mem_map.1 hq
    simp [hC.cols q' hq']
  have hnc : ∀ q ∈ C.rows.map fun r => r.map fun v => [v], ∀ p ∈ q, p.length = 1 := by
    intro q hq p hp
    obtain ⟨q', hq', rfl⟩ := List.mem_map.1 hq
    obtain ⟨v, hv, rfl⟩ := List.mem_map.1 hp
    rfl
  have hline : 1 * ((C.depth + 7) / 8) * C.width < 2 ^ 32 := by
    rw [hbb]
    have := hC.width
    rcases hb with e | e <;> rw [e] <;> omega
  have hlen : (bodyPx (enc .pgm (bpsOf C.depth) C.zero) (C.rows.map fun r => r.map fun v => [v])).length = C.height * (1 * bpsOf C.depth * C.width) := by
    rw [bodyPx_len (fun v => enc_len hb v) hcols hnc, List.length_map, hC.rows]
  have hs := samplesOf_eq (h := ⟨C.width, C.height, C.depth, 1, false, true, bodyPx (enc .pgm (bpsOf C.depth) C.zero) (C.rows.map fun r => r.map fun v => [v])⟩)
    (rows := C.rows.map fun r => r.map fun v => [v]) (e := enc .pgm (bpsOf C.depth) C.zero) (g := fun v => v + C.zero) _ ⟨[], (List.append_nil _).symm⟩
    (by simp only [hbb]; exact hb) (fun v => by simp only [hbb]; exact enc_len hb v) (by simp [hC.rows]) (by simpa using hline) hcols hnc
    (by
      intro q hq p hp v hv raw i hr
      obtain ⟨q', hq', rfl⟩ := List.mem_map.1 hq
      obtain ⟨v', hv', rfl⟩ := List.mem_map.1 hp
      simp at hv
      subst hv
      have a := hC.shift hq' hv'
      simp only [hbb] at hr ⊢
      rw [sampleB_be]
      exact be_enc (by simp) hb a.1 (Int.lt_of_lt_of_le a.2 (pow_le_bytes hC.depth.2)) hr)
  have hsv : samplesOf ⟨C.width, C.height, C.depth, 1, false, true, bodyPx (enc .pgm (bpsOf C.depth) C.zero) (C.rows.map fun r => r.map fun v => [v])⟩
      (bodyPx (enc .pgm (bpsOf C.depth) C.zero) (C.rows.map fun r => r.map fun v => [v])) = .ok [(C.rows.map fun r => r.map (· + C.zero)).flatten] := by
    rw [hs]
    simp only [List.range_one, List.map_cons, List.map_nil, List.map_map, Function.comp_def, List.getD_cons_zero]
  obtain ⟨t, ht⟩ : ∃ t, bodyPx (enc .pgm (bpsOf C.depth) C.zero) (C.rows.map fun r => r.map fun v => [v])
      = (if C.depth ≤ 8 then v + C.zero else (v + C.zero) / 256).toNat :: t := by
    rw [hfirst]
    obtain ⟨t, ht⟩ := enc_head_pnm (k := .pgm) (by simp) hv.1 hv2
    exact bodyPx_head ht _ _ _
  have hpos : 0 ≤ (if C.depth ≤ 8 then v + C.zero else (v + C.zero) / 256) := by split <;> omega
  have main := readFile_gen (readHead_pnm hC.width hC.height hC.depth.1 hC.depth.2 (.inl rfl) _) rfl (by simpa using hline)
    (by simp only [hbb]; exact hlen) hsv ht
  rw [Int.toNat_of_nonneg hpos] at main
  refine ⟨fun h => ⟨_, main.1 h, rfl, rfl, rfl, rfl⟩, fun h h2 => main.2 h ?_⟩
  rw [hlen]
  exact two_le_raster hw1 hh1 h2

/-- **C76** The other reader on a PGX file. -/
theorem C76_buffered_pgx (C0 C : Plane) (h0 : C0.Valid) (hC : C.Valid) (hA : C0.depth ≤ 8 ↔ C.depth ≤ 8) (v : Int) (r : List Int) (rs : List (List Int))
    (hfirst : C.rows = (v :: r) :: rs) :
    ∃ file, compFile .pgx (bytesPer C0.depth) (offset .pgx C0.depth C0.signed) C = some file ∧
      (¬ Blank (v % 256) → ∃ h, readFile file = .ok (h, [C.rows.flatten]) ∧
          h.width = C.width ∧ h.height = C.height ∧ h.depth = C.depth ∧ h.signed = C.signed) ∧
      (Blank (v % 256) → 8 < C.depth ∨ 2 ≤ C.width * C.height → readFile file = .fail) := by
  have hb := bpsOf_two C.depth
  have hbb : (C.depth + 7) / 8 = bpsOf C.depth := bytesPer_bps hC.depth.1 hC.depth.2
  have hmem : v :: r ∈ C.rows := by rw [hfirst]; exact List.mem_cons_self
  have hw1 : 1 ≤ C.width := by rw [← hC.cols _ hmem]; simp
  have hh1 : 1 ≤ C.height := by rw [← hC.rows, hfirst]; simp
  have hform := pgx_form h0 hA
  rw [body_px] at hform
  refine ⟨_, hform, ?_⟩
  have hcols : ∀ q ∈ C.rows.map fun r => r.map fun v => [v], q.length = C.width := by
    intro q hq
    obtain ⟨q', hq', rfl⟩ := List.mem_map.1 hq
    simp [hC.cols q' hq']
  have hnc : ∀ q ∈ C.rows.map fun r => r.map fun v => [v], ∀ p ∈ q, p.length = 1 := by
    intro q hq p hp
    obtain ⟨q', hq', rfl⟩ := List.mem_map.1 hq
    obtain ⟨v, hv, rfl⟩ := List.mem_map.1 hp
    rfl
  have hline : 1 * ((C.depth + 7) / 8) * C.width < 2 ^ 32 := by
    rw [hbb]
    have := hC.width
    rcases hb with e | e <;> rw [e] <;> omega
  have hlen : (bodyPx (enc .pgx (bpsOf C.depth) 0) (C.rows.map fun r => r.map fun v => [v])).length = C.height * (1 * bpsOf C.depth * C.width) := by
    rw [bodyPx_len (fun v => enc_len hb v) hcols hnc, List.length_map, hC.rows]
  have hs := samplesOf_eq (h := ⟨C.width, C.height, C.depth, 1, C.signed, false, bodyPx (enc .pgx (bpsOf C.depth) 0) (C.rows.map fun r => r.map fun v => [v])⟩)
    (rows := C.rows.map fun r => r.map fun v => [v]) (e := enc .pgx (bpsOf C.depth) 0) (g := fun v => v) _ ⟨[], (List.append_nil _).symm⟩
    (by simp only [hbb]; exact hb) (fun v => by simp only [hbb]; exact enc_len hb v) (by simp [hC.rows]) (by simpa using hline) hcols hnc
    (by
      intro q hq p hp v hv raw i hr
      obtain ⟨q', hq', rfl⟩ := List.mem_map.1 hq
      obtain ⟨v', hv', rfl⟩ := List.mem_map.1 hp
      simp at hv
      subst hv
      simp only [hbb] at hr ⊢
      rw [sampleB_pgx ⟨0, 0, C.depth, C.signed, false, []⟩ rfl]
      exact pgx_enc (C := ⟨0, 0, C.depth, C.signed, false, []⟩) rfl rfl (pgx_range hC hq' hv') hr)
  have hsv : samplesOf ⟨C.width, C.height, C.depth, 1, C.signed, false, bodyPx (enc .pgx (bpsOf C.depth) 0) (C.rows.map fun r => r.map fun v => [v])⟩
      (bodyPx (enc .pgx (bpsOf C.depth) 0) (C.rows.map fun r => r.map fun v => [v])) = .ok [C.rows.flatten] := by
    rw [hs]
    simp only [List.range_one, List.map_cons, List.map_nil, List.map_map, Function.comp_def, List.getD_cons_zero, List.map_id']
  obtain ⟨t, ht⟩ : ∃ t, bodyPx (enc .pgx (bpsOf C.depth) 0) (C.rows.map fun r => r.map fun v => [v]) = (v % 256).toNat :: t := by
    rw [hfirst]
    obtain ⟨t, ht⟩ := enc_head_pgx (d := C.depth) (v := v)
    exact bodyPx_head ht _ _ _
  have main := readFile_gen (readHead_pgx C.signed hC.width hC.height hC.depth.2 _) rfl (by simpa using hline)
    (by simp only [hbb]; exact hlen) hsv ht
  rw [Int.toNat_of_nonneg (by omega)] at main
  refine ⟨fun h => ⟨_, main.1 h, rfl, rfl, rfl, rfl⟩, fun h h2 => main.2 h ?_⟩
  rw [hlen]
  exact two_le_raster hw1 hh1 h2

/-- **C76** The other reader on a PPM file; `6 * w0` bytes of a row must be counted in 32 bits. -/
theorem C76_buffered_ppm (w0 h0 d w1 w2 : Nat) (rows : List (List Int × List Int × List Int)) (hw0 : 6 * w0 < 2 ^ 32) (hh0 : rows.length = h0) (hh : h0 < 2 ^ 31)
    (h1 : 1 ≤ d) (h2 : d ≤ 16) (hr : ∀ r ∈ rows, Triple d w0 w1 w2 r)
    (hw : w0 * w1 < 2 ^ 32 ∧ w0 * w2 < 2 ^ 32 ∧ 0 < w1 ∧ 0 < w2 ∨ w0 = w1 ∧ w0 = w2)
    (v : Int) (r : List Int) (r1 r2 : List Int) (rs : List (List Int × List Int × List Int)) (hfirst : rows = (v :: r, r1, r2) :: rs) :
    ∃ file, ppmFile w0 h0 d w1 w2 rows = some file ∧
      (¬ Blank (if d ≤ 8 then v else v / 256) → 
        ∃ h, readFile file = .ok (h, [(rows.map fun r => r.1).flatten,
            (rows.map fun r => (List.range w0).map fun n => r.2.1.getD (n * w1 / w0) 0).flatten,
            (rows.map fun r => (List.range w0).map fun n => r.2.2.getD (n * w2 / w0) 0).flatten]) ∧
          h.width = w0 ∧ h.height = h0 ∧ h.depth = d ∧ h.signed = false) ∧
      (Blank (if d ≤ 8 then v else v / 256) → readFile file = .fail) := by
  have hb := bpsOf_two d
  have hbb : (d + 7) / 8 = bpsOf d := bytesPer_bps h1 h2
  have hmem : (v :: r, r1, r2) ∈ rows := by rw [hfirst]; exact List.mem_cons_self
  have hw1 : 1 ≤ w0 := by rw [← (hr _ hmem).len0]; simp
  have hh1 : 1 ≤ h0 := by rw [← hh0, hfirst]; simp
  have hv := (hr _ hmem).range0 v List.mem_cons_self
  have hv2 := Int.lt_of_lt_of_le hv.2 (pow_le_bytes h2)
  refine ⟨_, ppm_form h1 h2 hr hw, ?_⟩
  have hcols : ∀ q ∈ rows.map (pixels w0 w1 w2), q.length = w0 := by
    intro q hq
    obtain ⟨q', hq', rfl⟩ := List.mem_map.1 hq
    exact pixels_len
  have hnc : ∀ q ∈ rows.map (pixels w0 w1 w2), ∀ p ∈ q, p.length = 3 := by
    intro q hq
    obtain ⟨q', hq', rfl⟩ := List.mem_map.1 hq
    exact pixels_nc
  have hline : 3 * ((d + 7) / 8) * w0 < 2 ^ 32 := by
    rw [hbb]
    rcases hb with e | e <;> rw [e] <;> omega
  have hlen : (bodyPx (enc .pgm (bpsOf d) 0) (rows.map (pixels w0 w1 w2))).length = h0 * (3 * bpsOf d * w0) := by
    rw [bodyPx_len (fun v => enc_len hb v) hcols hnc, List.length_map, hh0]
  have hs := samplesOf_eq (h := ⟨w0, h0, d, 3, false, true, bodyPx (enc .pgm (bpsOf d) 0) (rows.map (pixels w0 w1 w2))⟩)
    (rows := rows.map (pixels w0 w1 w2)) (e := enc .pgm (bpsOf d) 0) (g := fun v => v + 0) _ ⟨[], (List.append_nil _).symm⟩
    (by simp only [hbb]; exact hb) (fun v => by simp only [hbb]; exact enc_len hb v) (by simp [hh0]) (by simpa using hline) hcols hnc
    (by
      intro q hq p hp v hv raw i hraw
      obtain ⟨q', hq', rfl⟩ := List.mem_map.1 hq
      have a := pixels_range (hr q' hq') p hp v hv
      simp only [hbb] at hraw ⊢
      rw [sampleB_be]
      exact be_enc (by simp) hb (by omega) (by rw [Int.add_zero]; exact Int.lt_of_lt_of_le a.2 (pow_le_bytes h2)) hraw)
  obtain ⟨t, ht⟩ : ∃ t, bodyPx (enc .pgm (bpsOf d) 0) (rows.map (pixels w0 w1 w2)) = (if d ≤ 8 then v else v / 256).toNat :: t := by
    rw [hfirst, List.map_cons]
    obtain ⟨t, ht⟩ := enc_head_pnm (k := .pgm) (d := d) (off := 0) (v := v) (by simp) (by omega) (by rw [Int.add_zero]; exact hv2)
    rw [Int.add_zero] at ht
    have : pixels w0 w1 w2 (v :: r, r1, r2) = [v, r1.getD (0 * w1 / w0) 0, r2.getD (0 * w2 / w0) 0] :: (pixels w0 w1 w2 (v :: r, r1, r2)).tail := by
      unfold pixels
      obtain ⟨m, rfl⟩ : ∃ m, w0 = m + 1 := ⟨w0 - 1, by omega⟩
      rw [List.range_succ_eq_map]
      simp
    rw [this]
    exact bodyPx_head ht _ _ _
  have hpos : 0 ≤ (if d ≤ 8 then v else v / 256) := by split <;> omega
  have main := readFile_gen (readHead_pnm (show w0 < 2 ^ 31 by omega) hh h1 h2 (.inr rfl) _) rfl (by simpa using hline)
    (by simp only [hbb]; exact hlen) hs ht
  rw [Int.toNat_of_nonneg hpos] at main
  constructor
  · intro h
    refine ⟨⟨w0, h0, d, 3, false, true, bodyPx (enc .pgm (bpsOf d) 0) (rows.map (pixels w0 w1 w2))⟩, ?_, rfl, rfl, rfl, rfl⟩
    refine (main.1 h).trans ?_
    congr 2
    simp only [show List.range 3 = [0, 1, 2] from rfl, List.map_cons, List.map_nil, List.map_map, Function.comp_def, pixels, Int.add_zero,
      List.getD_cons_zero, List.getD_cons_succ]
    congr 2
    refine List.map_congr_left fun q hq => ?_
    have := (hr q hq).len0
    refine List.ext_getElem (by simp [this]) fun i hi1 hi2 => ?_
    simp [hi2]
  · intro h
    refine main.2 h ?_
    rw [hlen]
    have := Nat.mul_le_mul hh1 (show 2 ≤ 3 * bpsOf d * w0 by
      have := Nat.mul_le_mul (show 3 ≤ 3 * bpsOf d by omega) hw1
      omega)
    omega

/-! ### Vector code -/

theorem packBe16_inj {row row' : List Int} (h : packBe16 0 row = packBe16 0 row') (hl : row.length = row'.length) :
    ∀ i (h1 : i < row.length) (h2 : i < row'.length), row[i] % 65536 = row'[i] % 65536 := by
  induction row generalizing row' with
  | nil => intro i h1; simp at h1
  | cons a l ih =>
    cases row' with
    | nil => simp at hl
    | cons b l' =>
      simp only [packBe16, List.flatMap_cons, List.cons_append, List.nil_append, List.cons.injEq, byte] at h
      intro i h1 h2
      cases i with
      | zero => simp only [List.getElem_cons_zero]; omega
      | succ i =>
        simp only [List.getElem_cons_succ]
        exact ih (row' := l') h.2.2 (by simpa using hl) i (by simpa using h1) (by simpa using h2)

theorem packBe16_len (off : Int) (row : List Int) : (packBe16 off row).length = row.length * 2 :=
  flatMap_len fun _ _ => rfl

theorem packBe16_append (off : Int) (a b : List Int) : packBe16 off (a ++ b) = packBe16 off a ++ packBe16 off b := by simp [packBe16]

theorem packBe16_off (off : Int) (a : List Int) : packBe16 off a = packBe16 0 (a.map (· + off)) := by
  simp [packBe16, List.flatMap_map]

/-- **C76** The AVX2 code and the scalar code give the same bytes exactly if no sample of the whole groups of 16, with the offset added and in the range of 16 bits with or
without sign, is above 32767. -/
theorem C76_be16_avx2 (off : Int) (row : List Int) (hr : ∀ v ∈ row, -32768 ≤ v + off ∧ v + off ≤ 65535) :
    packBe16Avx2 off row = packBe16 off row ↔ ∀ i (h : i < row.length), i < row.length / 16 * 16 → row[i] + off ≤ 32767 := by
  unfold packBe16Avx2
  generalize hk : row.length / 16 * 16 = k
  have hkl : k ≤ row.length := by omega
  conv => lhs; rhs; rw [← List.take_append_drop k row, packBe16_append]
  rw [List.append_left_inj, packBe16_off off]
  constructor
  · intro h i hi hik
    have := packBe16_inj h (by simp) i (by simp; omega) (by simp; omega)
    simp only [List.getElem_map, List.getElem_take] at this
    have b := hr _ (List.getElem_mem hi)
    unfold sat16 at this
    split at this
    · omega
    · split at this <;> omega
  · intro h
    congr 1
    refine List.map_congr_left fun v hv => ?_
    obtain ⟨i, hi, rfl⟩ := List.getElem_of_mem hv
    simp only [List.length_take] at hi
    have a := h i (by omega) (by omega)
    have b := hr _ (List.getElem_mem (show i < row.length by omega))
    simp only [List.getElem_take]
    unfold sat16
    rw [if_neg (by omega), if_neg (by omega)]

/-- A 16-bit picture of width 16 with samples of 40000 is written as 32767 by the AVX2 code. -/
theorem C76_be16_avx2_wrong : packBe16Avx2 0 (List.replicate 16 40000) = packBe16 0 (List.replicate 16 32767) := by decide +kernel

/-! ### The depth of files of other programs -/

theorem bdLoop_spec (m f bd : Nat) (h1 : m < 2 ^ (bd + f)) :
    m < 2 ^ bdLoop m f bd ∧ ∀ d, bd ≤ d → m < 2 ^ d → bdLoop m f bd ≤ d := by
  induction f generalizing bd with
  | zero => exact ⟨h1, fun d hd _ => hd⟩
  | succ f ih =>
    unfold bdLoop
    by_cases h : 2 ^ bd ≤ m
    · rw [if_pos h]
      obtain ⟨a, b⟩ := ih (bd + 1) (by rw [show bd + 1 + f = bd + (f + 1) by omega]; exact h1)
      refine ⟨a, fun d hd hm => b d ?_ hm⟩
      rcases Nat.lt_or_ge bd d with hlt | hge
      · exact hlt
      · have : d = bd := by omega
        subst this; omega
    · rw [if_neg h]
      exact ⟨by omega, fun d hd _ => hd⟩

/-- **C76** For every maximal value of 1 to 65535 in the header of a PNM file, not only those the decoder writes, the streaming reader takes the smallest depth in which
all samples up to this value fit. -/
theorem C76_pnm_depth {w h x m : Nat} (hw : w < 2 ^ 31) (hh : h < 2 ^ 31) (h1 : 1 ≤ x) (h2 : x ≤ 65535) (hm : m = 53 ∨ m = 54) (data : List Nat) :
    ∃ p, pnmOpen ([80, m, 32] ++ fmtD w ++ [32] ++ fmtD h ++ [32] ++ fmtD x ++ [10] ++ data) = .ok p ∧
      p.width = w ∧ p.height = h ∧ p.nc = (if m = 53 then 1 else 3) ∧ p.data = data ∧
      1 ≤ p.depth ∧ x < 2 ^ p.depth ∧ ∀ d, 1 ≤ d → x < 2 ^ d → p.depth ≤ d := by
  rw [fmtD_small hw, fmtD_small hh, fmtD_small (by omega)]
  have e : [80, m, 32] ++ dec w ++ [32] ++ dec h ++ [32] ++ dec x ++ [10] ++ data
      = 80 :: m :: 32 :: (dec w ++ 32 :: (dec h ++ 32 :: (dec x ++ 10 :: data))) := by simp
  rw [e]
  unfold pnmOpen
  simp only [if_pos hm]
  have a1 := readUint_dec (n := w) (c := 32) (by omega) (by decide) (dec h ++ 32 :: (dec x ++ 10 :: data))
  have a2 := readUint_dec (n := h) (c := 32) (by omega) (by decide) (dec x ++ 10 :: data)
  have a3 := readUint_dec (n := x) (c := 10) (by omega) (by decide) data
  rw [a1]
  simp only
  rw [a2]
  simp only
  rw [a3]
  simp only
  rw [if_neg (by decide), if_neg (by omega)]
  obtain ⟨s1, s2⟩ := bdLoop_spec x 17 1 (by omega)
  refine ⟨_, rfl, rfl, rfl, rfl, rfl, ?_, s1, s2⟩
  by_contra hc
  have : bdLoop x 17 1 = 0 := by simp only at hc; omega
  rw [this] at s1
  omega

/-- A file of another program: the greatest value is 256, so nine bits are needed. -/
example : (pnmOpen ([80, 53, 32] ++ fmtD 1 ++ [32] ++ fmtD 1 ++ [32] ++ fmtD 256 ++ [10] ++ [1, 0])).bind (fun p => .ok p.depth) = .ok 9 := by
  decide +kernel

/-! ### Where files do not come back -/

/-- The rows `y` of all components in files of components, and what comes of them. -/
def through (l : List Plane) (y : Nat) : Option (Out (List (List Int))) :=
  (compFiles .pgx l).map fun files => (pgxOpen files).bind fun o => pgxRow o y

/-- A component of 12 bits and one of 8 bits: the second file says 8 bits and has two bytes per sample.  The rows read are wrong. -/
theorem C76_mixed_depths :
    ∃ C0 C1 : Plane, C0.Valid ∧ C1.Valid ∧ C0.signed = C1.signed ∧ C0.width = C1.width ∧ C0.height = C1.height ∧ C1.rows = [[5, 7], [9, 11]] ∧
      through [C0, C1] 0 = some (.ok [[1, 2], [5, 0]]) ∧ through [C0, C1] 1 = some (.ok [[3, 4], [7, 0]]) :=
  ⟨⟨2, 2, 12, false, [[1, 2], [3, 4]]⟩, ⟨2, 2, 8, false, [[5, 7], [9, 11]]⟩, ⟨by decide, by decide, by decide, by decide, by decide, by decide⟩,
    ⟨by decide, by decide, by decide, by decide, by decide, by decide⟩, rfl, rfl, rfl, rfl, by decide +kernel, by decide +kernel⟩

/-- The subsampling factor is kept in 8 bits: 256 rows for one row of the second component give a division by zero when rows are read. -/
theorem C76_height_ratio :
    ∃ C0 C1 : Plane, C0.Valid ∧ C1.Valid ∧ C0.depth = C1.depth ∧ C1.height ∣ C0.height ∧ C0.height / C1.height = 256 ∧ through [C0, C1] 0 = some .ub :=
  ⟨⟨1, 256, 8, false, List.replicate 256 [7]⟩, ⟨1, 1, 8, false, [[9]]⟩,
    ⟨by decide, by decide, by decide, List.length_replicate, fun r hr => by rw [List.eq_of_mem_replicate hr]; rfl,
      fun r hr => by rw [List.eq_of_mem_replicate hr]; decide⟩,
    ⟨by decide, by decide, by decide, by decide, by decide, by decide⟩, rfl, by decide, by decide, by decide +kernel⟩

/-- A second file of size zero by zero: the streaming reader divides by zero when it is opened. -/
theorem C76_empty_component : ∃ file : List Nat, (pgxHeader file).isSome = true ∧
    pgxOpen [[80, 71, 32, 77, 76, 32, 43, 32, 56, 32, 49, 32, 49, 10, 5], file] = .ub :=
  ⟨[80, 71, 32, 77, 76, 32, 43, 32, 56, 32, 48, 32, 48, 10], by decide +kernel, by decide +kernel⟩

/-- The other reader does not end on a file that is cut inside the header; the streaming reader reports an error. -/
theorem C76_cut_header : readFile [80, 53, 32, 49, 50] = .hang ∧ pnmOpen [80, 53, 32, 49, 50] = .fail ∧
    readFile [80, 71, 32, 77, 76, 32] = .hang ∧ pgxOpen [[80, 71, 32, 77, 76, 32]] = .fail := by
  refine ⟨by decide +kernel, by decide +kernel, by decide +kernel, by decide +kernel⟩

/-- A header of any length that is cut before the first white space behind a number is never left. -/
theorem C76_number_hangs (l : List Nat) (h : ∀ c ∈ l, ws3 c = false) (v : Nat) : number v l = none := by
  induction l generalizing v with
  | nil => rfl
  | cons c l ih => rw [number, h c List.mem_cons_self, if_neg (by simp), ih fun d hd => h d (List.mem_cons_of_mem _ hd)]

/-- Signed components in a PPM file: nothing is added and negative samples are written as 0 (all widths the same) or modulo 256 (otherwise). -/
theorem C76_ppm_signed : ppmRow 1 8 1 1 1 [-5] [-128] [7] = some [0, 0, 7] ∧ ppmRow 1 8 2 1 1 [-5, 0] [-128] [7] = some [251, 128, 7, 0, 128, 7] := by
  constructor <;> decide +kernel

/-! ### Cases -/

/-- A signed component of 12 bits and two unsigned ones of 8 bits, half as wide and high. -/
def exPlane : Plane := ⟨3, 2, 12, true, [[-2048, 0, 2047], [5, -6, 7]]⟩
@[inherit_doc exPlane]
def exPlanes : List Plane := [⟨4, 2, 8, false, [[1, 2, 3, 255], [5, 6, 7, 8]]⟩, ⟨2, 1, 7, true, [[-64, 63]]⟩]

example : exPlane.Valid := ⟨by decide, by decide, by decide, by decide, by decide, by decide⟩
example : ∀ C ∈ exPlanes, C.Valid := by
  intro C hC
  rcases List.mem_cons.1 hC with rfl | hC
  · exact ⟨by decide, by decide, by decide, by decide, by decide, by decide⟩
  · rw [List.mem_singleton.1 hC]
    exact ⟨by decide, by decide, by decide, by decide, by decide, by decide⟩

/-- The second file is read with its row twice. -/
example : through exPlanes 1 = some (.ok [[5, 6, 7, 8], [-64, 63]]) := by decide +kernel

/-- The file of `exPlane`, moved by 2048 to be unsigned. -/
example : compFile .pgm 2 2048 exPlane = some ([80, 53, 32, 51, 32, 50, 32, 52, 48, 57, 53, 10] ++ [0, 0, 8, 0, 15, 255, 8, 5, 7, 250, 8, 7]) := by decide +kernel

/-- The first byte is not a blank: the other reader gets the samples. -/
example : ((compFile .pgm 2 2048 exPlane).map fun f => (readFile f).bind fun r => .ok r.2) = some (.ok [[0, 2048, 4095, 2053, 2042, 2055]]) := by
  decide +kernel

/-- A grey picture of two samples of 32: refused by the other reader, read by the streaming reader. -/
example : ((compFile .pgm 1 0 ⟨2, 1, 8, false, [[32, 32]]⟩).map fun f => ((readFile f).bind fun r => .ok r.2, (pnmOpen f).bind fun p => pnmRow p 0)) =
    some (.fail, .ok [[32, 32]]) := by decide +kernel

example : Triple 8 4 2 2 ([1, 2, 3, 4], [5, 6], [7, 8]) := ⟨rfl, rfl, rfl, by decide, by decide, by decide⟩
/-- Stretched rows. -/
example : ((ppmFile 4 1 8 2 2 [([1, 2, 3, 4], [5, 6], [7, 8])]).map fun f => (pnmOpen f).bind fun p => pnmRow p 0) =
    some (.ok [[1, 2, 3, 4], [5, 5, 6, 6], [7, 7, 8, 8]]) := by decide +kernel

end Verif.Img
