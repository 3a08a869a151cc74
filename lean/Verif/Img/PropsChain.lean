import Verif.Img.PropsFiles
import Verif.Tile.PropsCodestream
/-
C76, continued: from files to a codestream and back to the same files.
-/
namespace Verif.Img
open Verif.Tile.Pipe (Request Picture encodeCodestream decodeCodestream C70_codestream_lossless)
open Verif.Tile (numTiles)

/-- main_dec.cpp:640-822: component `c` of a picture from the decoder's output buffers. -/
def planeOf (P : Picture) (o : Nat → Nat → Int) (c : Nat) : Plane :=
  ⟨P.width c, P.height c, P.depth c, P.signed c, (List.range (P.height c)).map fun y => (List.range (P.width c)).map fun x => o c (y * P.width c + x)⟩

/-- Rows in one piece. -/
theorem flatten_get {rows : List (List Int)} {w : Nat} (h : ∀ r ∈ rows, r.length = w) {y x : Nat} (hy : y < rows.length) (hx : x < w) :
    rows.flatten[y * w + x]? = (rows[y])[x]? := by
  have := flatMap_get (g := fun r : List Int => r) h hy hx
  rwa [List.flatMap_id'] at this

theorem flatten_len {rows : List (List Int)} {w : Nat} (h : ∀ r ∈ rows, r.length = w) : rows.flatten.length = rows.length * w := by
  have := flatMap_len (g := fun r : List Int => r) h
  rwa [List.flatMap_id'] at this

/-- **C76** Files of components, read by the encoder (the path that holds the picture in memory), coded without loss, decoded and written again: the files are the same, byte by
byte. -/
theorem C76_file_to_file (q : Request) (h : q.Ok) (hl : q.picture.Legal) (hp : q.picture.Plain) (C0 : Plane) (l : List Plane)
    (hn : (C0 :: l).length = q.comps.length) (hV : ∀ C ∈ C0 :: l, C.Valid)
    (hm : ∀ c (hc : c < (C0 :: l).length), (C0 :: l)[c].width = q.picture.width c ∧ (C0 :: l)[c].height = q.picture.height c ∧
      (C0 :: l)[c].depth = q.picture.depth c ∧ (C0 :: l)[c].signed = q.picture.signed c)
    (hb : ∀ C ∈ l, C0.depth ≤ 8 ↔ C.depth ≤ 8)
    (hf : ∀ C ∈ C0 :: l, ∃ v r rs, C.rows = (v :: r) :: rs ∧ ¬ Blank (v % 256)) (E : Nat → Verif.Tile.Pipe.Env) (hE : ∀ t, (E t).Sane) :
    ∃ files img bytes N, compFiles .pgx (C0 :: l) = some files ∧ files.length = (C0 :: l).length ∧
      (∀ c (hc : c < files.length), ∃ head, readFile files[c] = .ok (head, [img c])) ∧
      encodeCodestream q img = some bytes ∧
      ∀ pad post fuel o, (bytes ++ post).length < 2 ^ 32 → N ≤ fuel →
        ∃ o', decodeCodestream pad E fuel (bytes ++ post) o = some (q.picture, o') ∧
          compFiles .pgx ((List.range (C0 :: l).length).map (planeOf q.picture o')) = some files := by
  have h0 : C0.Valid := hV C0 List.mem_cons_self
  have hAll : ∀ C ∈ C0 :: l, C0.depth ≤ 8 ↔ C.depth ≤ 8 := fun C hC => by
    rcases List.mem_cons.1 hC with h | h
    · rw [h]
    · exact hb C h
  obtain ⟨files, h1, h2, h3⟩ := mapM_files (compFile .pgx (bytesPer C0.depth) (offset .pgx C0.depth C0.signed)) (C0 :: l)
    fun C hC => ⟨_, pgx_form h0 (hAll C hC)⟩
  have hnc : q.picture.nc = q.comps.length := rfl
  generalize hL : C0 :: l = L at *
  let img : Nat → List Int := fun c => ((L[c]?).map fun C => C.rows.flatten).getD []
  have himg : ∀ c (hc : c < L.length), img c = L[c].rows.flatten := fun c hc => by
    simp only [img, List.getElem?_eq_getElem hc, Option.map_some, Option.getD_some]
  have hs : q.picture.Samples img := by
    intro c hc
    have hc : c < L.length := by rw [hn, ← hnc]; exact hc
    have hC := hV _ (List.getElem_mem hc)
    obtain ⟨m1, m2, m3, m4⟩ := hm c hc
    rw [himg c hc]
    refine ⟨?_, fun v hv => ?_⟩
    · rw [flatten_len hC.cols, hC.rows, m1, m2, Nat.mul_comm]
    · obtain ⟨r, hr, hv⟩ := List.mem_flatten.1 hv
      rw [← m3, ← m4]
      exact hC.range r hr v hv
  obtain ⟨bytes, N, hen, hde⟩ := C70_codestream_lossless q h hl hp img hs E hE
  refine ⟨files, img, bytes, N, by rw [← hL] at h1 ⊢; exact h1, h2, fun c hc => ?_, hen, fun pad post fuel o hlt hN => ?_⟩
  · have hc' : c < L.length := by omega
    have hmem : L[c] ∈ L := List.getElem_mem _
    obtain ⟨v, r, rs, e, hbl⟩ := hf _ hmem
    obtain ⟨file, hfile, hgood, -⟩ := C76_buffered_pgx C0 L[c] h0 (hV _ hmem) (hAll _ hmem) v r rs e
    obtain ⟨head, hread, -⟩ := hgood hbl
    have := h3 c hc' hc
    rw [hfile] at this
    rw [← Option.some.inj this, himg c hc']
    exact ⟨head, hread⟩
  · obtain ⟨o', hd, ho⟩ := hde pad post fuel o hlt hN
    refine ⟨o', hd, ?_⟩
    have : (List.range L.length).map (planeOf q.picture o') = L := by
      refine List.ext_getElem (by simp) fun c hc1 hc => ?_
      have hC := hV _ (List.getElem_mem hc)
      obtain ⟨m1, m2, m3, m4⟩ := hm c hc
      have ho := (ho c (by omega)).2
      rw [himg c hc] at ho
      rw [List.getElem_map, List.getElem_range]
      unfold planeOf
      rw [← m1, ← m2, ← m3, ← m4]
      generalize L[c] = C at *
      have hrows : ((List.range C.height).map fun y => (List.range C.width).map fun x => o' c (y * C.width + x)) = C.rows := by
        refine List.ext_getElem (by simp [hC.rows]) fun y hy1 hy => ?_
        have hcol := hC.cols _ (List.getElem_mem hy)
        rw [List.getElem_map, List.getElem_range]
        refine List.ext_getElem (by simp [hcol]) fun x hx1 hx => ?_
        rw [List.getElem_map, List.getElem_range]
        have hxw : x < C.width := by rw [← hcol]; exact hx
        have hg := flatten_get hC.cols hy hxw
        have hi : y * C.width + x < C.rows.flatten.length := by
          rw [flatten_len hC.cols]
          have := Nat.mul_le_mul_right C.width (show y + 1 ≤ C.rows.length from hy)
          rw [Nat.succ_mul] at this
          omega
        rw [ho _ hi]
        rw [List.getElem?_eq_getElem hi, List.getElem?_eq_getElem hx] at hg
        exact Option.some.inj hg
      rw [hrows]
    rw [this, ← hL]
    rw [← hL] at h1
    exact h1

/-- Components that suit the request of `Tile/PropsCodestream` (whose other hypotheses are shown there). -/
def exComp (c : Nat) : Plane := planeOf Verif.Tile.Pipe.exRequest.picture (fun c i => (Verif.Tile.Pipe.exPixels c).getD i 0) c

example : ∀ c < 3, (exComp c).Valid := by
  intro c hc
  have : c = 0 ∨ c = 1 ∨ c = 2 := by omega
  rcases this with rfl | rfl | rfl <;>
    exact ⟨by decide, by decide, by decide, by decide, by decide +kernel, by decide +kernel⟩

example : ∀ c < 3, ∃ v r rs, (exComp c).rows = (v :: r) :: rs ∧ ¬ Blank (v % 256) := by
  intro c hc
  have : c = 0 ∨ c = 1 ∨ c = 2 := by omega
  rcases this with rfl | rfl | rfl
  · exact ⟨0, _, _, rfl, by decide⟩
  · exact ⟨101, _, _, rfl, by decide⟩
  · exact ⟨202, _, _, rfl, by decide⟩

example : [exComp 0, exComp 1, exComp 2].length = Verif.Tile.Pipe.exRequest.comps.length := rfl

end Verif.Img
