import Verif.Tile.Codestream
import Verif.Tile.Bytes
import Verif.Codestream.PropsContainer

/-!
From the parameters of the encoder to its main header and to the picture both sides make of it.
-/

namespace Verif.Tile.Pipe
open Verif.Cs (Out Hdr Siz Cod Qcd CodParams Part Written mkSiz mkCod mkQcd wantedPrecinct)

/-! ### What is asked for -/

/-- The picture that the parameters describe: sizes, components, and coding parameters as they were given.  A tile size of zero
stands for the whole image.  The colour transform is used if asked for with three or more components, but not for exactly three
that differ both in their horizontal and in their vertical subsampling. -/
def Request.picture (q : Request) : Picture :=
  let whole : Bool := decide (q.xtsiz = 0 ∨ q.ytsiz = 0)
  let comp := fun k => q.comps.getD k (0, 0, 0)
  let cycc : Bool := decide (q.cod.colour = 1) && decide (3 ≤ q.comps.length) &&
    !(decide (q.comps.length = 3) && (decide ((comp 0).2.1 ≠ (comp 1).2.1) || decide ((comp 1).2.1 ≠ (comp 2).2.1)) &&
      (decide ((comp 0).2.2 ≠ (comp 1).2.2) || decide ((comp 1).2.2 ≠ (comp 2).2.2)))
  { ax := ⟨q.xsiz, q.xosiz, if whole then q.xsiz - q.xosiz else q.xtsiz, q.xtosiz⟩
    ay := ⟨q.ysiz, q.yosiz, if whole then q.ysiz - q.yosiz else q.ytsiz, q.ytosiz⟩
    depth := fun k => (comp k).1 % 128 + 1
    signed := fun k => decide (128 ≤ (comp k).1)
    cycc := cycc
    base :=
      { T := ⟨(0, 0), (0, 0), q.cod.layers, q.comps.length, fun k =>
          ⟨q.cod.levels, (comp k).2.1, (comp k).2.2,
            fun r => if r ≤ q.cod.levels then (if q.cod.maxPrecincts then 15 else (wantedPrecinct q.cod r).1) else 0,
            fun r => if r ≤ q.cod.levels then (if q.cod.maxPrecincts then 15 else (wantedPrecinct q.cod r).2) else 0⟩⟩
        poc := []
        po := q.cod.order
        xcb := q.cod.xcb + 2
        ycb := q.cod.ycb + 2
        sop := q.cod.sop
        eph := q.cod.eph
        causal := decide (q.cod.style = 0x48)
        guard := q.guard
        steps := fun _ => quantSteps q.guard q.cod.levels ((comp 0).1 % 128 + 1) (if cycc then 1 else 0) } }

/-- What the fields of the marker segments can hold, and what the model covers. -/
structure Request.Ok (q : Request) : Prop where
  rsiz : q.rsiz < 2 ^ 16
  comps : 1 ≤ q.comps.length ∧ q.comps.length ≤ 16384
  ssiz : ∀ p ∈ q.comps, p.1 < 256
  guard : q.guard < 8
  ht : q.cod.style = 0x40 ∨ q.cod.style = 0x48
  reversible : q.cod.reversible = 1
  colour : q.cod.colour ≤ 1
  pp : q.cod.ppx.length = q.cod.ppy.length
  ppx : ∀ v ∈ q.cod.ppx, v ≤ 15
  ppy : ∀ v ∈ q.cod.ppy, v ≤ 15
  /-- As many tiles as TLM can list. -/
  tiles : numTiles q.picture.ax * numTiles q.picture.ay ≤ 10921
  /-- The area of a tile does not vanish modulo 2^32. -/
  area : 2 ^ 32 ∣ q.xtsiz * q.ytsiz → q.xtsiz * q.ytsiz = 0

section
variable {q : Request}

theorem picture_mct : q.picture.mct = q.picture.cycc := by
  unfold Picture.mct Picture.nc Picture.sx Picture.sy Request.picture
  simp only
  generalize decide (q.cod.colour = 1) = a
  generalize decide (3 ≤ q.comps.length) = b
  generalize (decide (q.comps.length = 3) && _ && _) = c
  cases a <;> cases b <;> cases c <;> rfl

theorem colourUsed_eq (h : q.cod.colour ≤ 1) : colourUsed q = if q.picture.cycc then 1 else 0 := by
  unfold colourUsed Request.picture
  simp only
  by_cases h1 : q.cod.colour = 1
  · rw [if_pos h1, h1]
    by_cases h3 : q.comps.length < 3
    · rw [if_neg (by omega), if_pos h3]
      rw [if_neg]
      simp only [Bool.and_eq_true, decide_eq_true_eq, not_and]
      omega
    · by_cases h2 : q.comps.length = 3 ∧
        ((q.comps.getD 0 (0, 0, 0)).2.1 ≠ (q.comps.getD 1 (0, 0, 0)).2.1 ∨
          (q.comps.getD 1 (0, 0, 0)).2.1 ≠ (q.comps.getD 2 (0, 0, 0)).2.1) ∧
        ((q.comps.getD 0 (0, 0, 0)).2.2 ≠ (q.comps.getD 1 (0, 0, 0)).2.2 ∨
          (q.comps.getD 1 (0, 0, 0)).2.2 ≠ (q.comps.getD 2 (0, 0, 0)).2.2)
      · rw [if_pos h2, if_neg]
        obtain ⟨a, b, c⟩ := h2
        simp only [Bool.and_eq_true, decide_eq_true_eq, Bool.not_eq_true', not_and, Bool.and_eq_false_iff]
        simp only [← Bool.not_eq_true, Bool.or_eq_true, decide_eq_true_eq]
        intro _
        rintro ((h | h) | h)
        · exact h a
        · exact h b
        · exact h c
      · rw [if_neg h2, if_neg h3, if_pos]
        simp only [Bool.and_eq_true, Bool.not_eq_true', Bool.and_eq_false_iff]
        simp only [← Bool.not_eq_true, Bool.or_eq_true, decide_eq_true_eq]
        refine ⟨⟨trivial, by omega⟩, ?_⟩
        by_contra h
        push Not at h
        exact h2 ⟨h.1.1, h.1.2, h.2⟩
  · rw [if_neg h1, if_neg]
    · omega
    · simp only [Bool.and_eq_true, decide_eq_true_eq]
      tauto

theorem tileSize_eq (h : q.Ok) (hx : q.xosiz ≤ q.xsiz) (hy : q.yosiz ≤ q.ysiz) :
    tileSize q = (q.picture.ax.tsiz, q.picture.ay.tsiz) := by
  have e : w32 (q.xtsiz * q.ytsiz) = 0 ↔ (q.xtsiz = 0 ∨ q.ytsiz = 0) := by
    rw [← Nat.mul_eq_zero]
    constructor
    · intro h0
      exact h.area (Nat.dvd_of_mod_eq_zero h0)
    · intro h0; rw [h0]; rfl
  unfold tileSize Request.picture
  simp only
  by_cases h0 : q.xtsiz = 0 ∨ q.ytsiz = 0
  · rw [if_pos (e.2 h0), decide_eq_true h0, if_pos rfl, if_pos rfl, usub_eq hx, usub_eq hy]
  · rw [if_neg (fun x => h0 (e.1 x)), decide_eq_false h0]
    rfl

theorem not_refused (h : q.Ok) (hl : q.picture.Legal) : refused q = false := by
  have a1 : q.xtosiz ≤ q.xosiz := hl.ax.org
  have a2 : q.xosiz < q.xtosiz + q.picture.ax.tsiz := hl.ax.first
  have a3 : q.xosiz < q.xsiz := hl.ax.img
  have a4 : q.xsiz + q.picture.ax.tsiz ≤ 2 ^ 32 := hl.ax.room
  have b1 : q.ytosiz ≤ q.yosiz := hl.ay.org
  have b2 : q.yosiz < q.ytosiz + q.picture.ay.tsiz := hl.ay.first
  have b3 : q.yosiz < q.ysiz := hl.ay.img
  have b4 : q.ysiz + q.picture.ay.tsiz ≤ 2 ^ 32 := hl.ay.room
  unfold refused
  rw [tileSize_eq h (by omega) (by omega)]
  simp only
  rw [w32_eq (by omega), w32_eq (by omega), decide_eq_false (by omega), decide_eq_false (by omega), decide_eq_false (by omega),
    decide_eq_false (by omega), decide_eq_false (by omega), decide_eq_false (by omega)]
  rfl

/-- The list of calls that make CAP. -/
theorem capFor_eq (order : Nat) (sp : List Nat) :
    capFor order sp = Cs.capOf ((ccap15 sp, 15) :: if order = 5 then [(2 ^ 14, 2)] else []) := by
  unfold capFor
  split <;> rfl

theorem ccap15_lt (sp : List Nat) : ccap15 sp < 2 ^ 16 := by
  unfold ccap15
  simp only
  generalize magb sp = m
  split_ifs <;> omega

theorem sign_bit : ∀ x < 256, (x &&& 0x80 != 0) = decide (128 ≤ x) := by decide +kernel

theorem quantSteps_length (guard levels ri ycc : Nat) : (quantSteps guard levels ri ycc).length = 3 * levels + 1 := by
  unfold quantSteps
  rw [List.length_map, List.length_reverse, gains_length]

/-- A main header of the segments the encoder writes. -/
def hdrOf (z : Siz) (cd : Cod) (qd : Qcd) (cap : Option Cs.Cap) (tlm : List Cs.Tlm) (com : List Cs.Com) : Hdr :=
  { siz := some z, cod := some cd, qcd := some qd, cap := cap, tlm := tlm, com := com }

/-- The main header of the encoder: how it is made, that each segment survives, and what both sides make of it. -/
theorem header_made (h : q.Ok) (hl : q.picture.Legal) :
    ∃ z cd qd, headerFor q = some (hdrOf z cd qd
        (some (capFor q.cod.order (quantSteps q.guard q.cod.levels (((q.comps.getD 0 (0, 0, 0)).1 &&& 0x7F) + 1) (colourUsed q))))
        [] [Cs.mkCom comment true]) ∧
      z.xsiz = q.xsiz ∧ z.xtosiz = q.xtosiz ∧ z.xtsiz = q.picture.ax.tsiz ∧
      z.ysiz = q.ysiz ∧ z.ytosiz = q.ytosiz ∧ z.ytsiz = q.picture.ay.tsiz ∧
      Cs.RoundTrip 0xFF51 z.write (fun pad => Cs.segment pad Cs.readSiz) z ∧
      Cs.RoundTrip 0xFF52 cd.write (fun pad => Cs.segment pad Cs.readCod) cd ∧
      Cs.RoundTrip 0xFF5C qd.write (fun pad => Cs.segment pad Cs.readQcd) { qd with reversible := false } ∧
      (∀ cap tlm com, pictureOf (hdrOf z cd qd cap tlm com) = some q.picture) ∧
      ∀ cap tlm com, pictureOf (hdrOf z cd { qd with reversible := false } cap tlm com) = some q.picture := by
  have a1 : q.xtosiz ≤ q.xosiz := hl.ax.org
  have a3 : q.xosiz < q.xsiz := hl.ax.img
  have a4 : q.xsiz + q.picture.ax.tsiz ≤ 2 ^ 32 := hl.ax.room
  have a5 : q.xsiz ≤ 2 ^ 31 := hl.sizx
  have b1 : q.ytosiz ≤ q.yosiz := hl.ay.org
  have b3 : q.yosiz < q.ysiz := hl.ay.img
  have b4 : q.ysiz + q.picture.ay.tsiz ≤ 2 ^ 32 := hl.ay.room
  have b5 : q.ysiz ≤ 2 ^ 31 := hl.sizy
  have htiles : 0 < numTiles q.picture.ax * numTiles q.picture.ay := by
    rw [numTiles_eq hl.ax, numTiles_eq hl.ay]
    refine Nat.mul_pos ((lt_cdiv hl.ax.tile).2 ?_) ((lt_cdiv hl.ay.tile).2 ?_)
    · show 0 * _ < q.xsiz - q.xtosiz
      rw [Nat.zero_mul]; omega
    · show 0 * _ < q.ysiz - q.ytosiz
      rw [Nat.zero_mul]; omega
  have hc := hl.tile 0 htiles
  have hnc : q.picture.nc = q.comps.length := rfl
  -- SIZ
  have hsiz : Cs.SizOk q.rsiz q.xsiz q.ysiz q.xosiz q.yosiz q.picture.ax.tsiz q.picture.ay.tsiz q.xtosiz q.ytosiz q.comps.length
      q.comps := by
    refine ⟨h.rsiz, by omega, by omega, by omega, by omega, by omega, by omega, by omega, by omega, h.comps, rfl, ?_⟩
    intro p hp
    obtain ⟨k, hk, rfl⟩ := List.mem_iff_getElem.1 hp
    have hsub := hl.sub k hk
    have e : q.comps.getD k (0, 0, 0) = q.comps[k] := by
      rw [List.getD_eq_getElem?_getD, List.getElem?_eq_getElem hk]; rfl
    have e1 : q.picture.sx k = q.comps[k].2.1 := by rw [← e]; rfl
    have e2 : q.picture.sy k = q.comps[k].2.2 := by rw [← e]; rfl
    rw [e1, e2] at hsub
    exact ⟨h.ssiz _ hp, by omega, by omega⟩
  obtain ⟨z, hz, hzr, -, z2, z3, z4, z5⟩ := Cs.C36_siz true hsiz
  simp only [Prod.mk.injEq] at z2 z3
  -- COD
  have hcol := colourUsed_eq h.colour
  have hcol1 : colourUsed q ≤ 1 := by rw [hcol]; split <;> omega
  have hlev : q.cod.levels ≤ 30 := hc.levels 0 h.comps.1
  have hlay : q.cod.layers = 1 := hc.layers
  have hpo : q.cod.order ≤ 5 := hc.po
  have hcb : q.cod.xcb + 2 + (q.cod.ycb + 2) ≤ 12 := hc.cb
  have hcod : Cs.CodOk { q.cod with colour := colourUsed q } := by
    refine ⟨?_, ?_, ?_, ?_, ?_, ?_, ?_, ?_, h.pp, h.ppx, h.ppy⟩
    · show q.cod.order < 256; omega
    · show q.cod.layers < 2 ^ 16; omega
    · show colourUsed q < 256; omega
    · show q.cod.levels ≤ 32; omega
    · show q.cod.xcb < 256; omega
    · show q.cod.ycb < 256; omega
    · show q.cod.style < 256; have := h.ht; omega
    · show q.cod.reversible < 256; rw [h.reversible]; decide
  obtain ⟨cd, hcd, hcdr, -, c2, c3, c4, c5, c6, c7, c8, c9, c10, c11⟩ := Cs.C36_cod _ hcod
  simp only at c2 c3 c4 c5 c6 c7 c8 c9 c10 c11
  -- QCD
  have hdep : ((q.comps.getD 0 (0, 0, 0)).1 &&& 0x7F) + 1 = (q.comps.getD 0 (0, 0, 0)).1 % 128 + 1 := by
    rw [show (0x7F : Nat) = 2 ^ 7 - 1 from rfl, Nat.and_two_pow_sub_one_eq_mod]
  generalize hsp : quantSteps q.guard q.cod.levels (((q.comps.getD 0 (0, 0, 0)).1 &&& 0x7F) + 1) (colourUsed q) = sp
  have hsteps : ∀ c, q.picture.base.steps c = sp := by
    intro c; rw [← hsp, hdep, hcol]; rfl
  have hspl : sp.length = 3 * q.cod.levels + 1 := by rw [← hsp, quantSteps_length]
  have hqcd : Cs.QuantOk q.guard q.cod.levels true false sp := by
    refine ⟨h.guard, by omega, by simp, by rw [hspl]; rfl, ?_⟩
    have := hc.words 0 h.comps.1
    rw [show (q.picture.coding 0).steps 0 = sp from hsteps 0] at this
    exact this
  obtain ⟨qd, hqd, hqdr, q1, q2, -⟩ := Cs.C36_qcd hqcd
  have q3 : qd.spqcd = sp := by
    have : mkQcd q.guard q.cod.levels true false sp = .ok _ := rfl
    rw [this] at hqd
    injection hqd with e
    rw [← e]
  have key : ∀ qd' : Qcd, qd'.sqcd = qd.sqcd → qd'.spqcd = qd.spqcd → ∀ cap tlm com,
      pictureOf (hdrOf z cd qd' cap tlm com) = some q.picture := by
    intro qd' s1 s2 cap tlm com
    have q1' : qd'.style = 0 := by unfold Qcd.style; rw [s1]; exact q1
    have q2' : qd'.guardBits = q.guard := by unfold Qcd.guardBits; rw [s1]; exact q2
    rw [q3] at s2
    have hpp : (List.range (q.cod.levels + 1)).mapM (fun r => okOnly (cd.precinctSize r)) =
        some ((List.range (q.cod.levels + 1)).map fun r => if q.cod.maxPrecincts then (15, 15) else wantedPrecinct q.cod r) := by
      refine mapM_map' fun r hr => ?_
      rw [c11 r (by have := List.mem_range.1 hr; omega)]
      rfl
    have hget : ∀ r, ((List.range (q.cod.levels + 1)).map fun r => if q.cod.maxPrecincts then (15, 15) else wantedPrecinct q.cod r).getD r
        (0, 0) = if r ≤ q.cod.levels then (if q.cod.maxPrecincts then (15, 15) else wantedPrecinct q.cod r) else (0, 0) := by
      intro r
      rw [List.getD_eq_getElem?_getD, List.getElem?_map]
      by_cases hr : r ≤ q.cod.levels
      · rw [List.getElem?_range (by omega), if_pos hr]; rfl
      · rw [List.getElem?_eq_none (by rw [List.length_range]; omega), if_neg hr]; rfl
    have hcb' : q.cod.xcb + q.cod.ycb ≤ 8 := by omega
    have htake : sp.take (min ((3 * q.cod.levels + 1) % 256) (sp.length % 256)) = sp := by
      rw [hspl, Nat.mod_eq_of_lt (by omega), Nat.min_self, ← hspl, List.take_length]
    have hcomp : ∀ k, (q.comps.getD k (0, 0, 0)).1 < 256 := by
      intro k
      rw [List.getD_eq_getElem?_getD]
      rcases hk : q.comps[k]? with _ | p
      · decide
      · exact h.ssiz p (List.mem_of_getElem? hk)
    have hP : pictureFrom z cd qd' q.cod.levels (2 ^ (q.cod.xcb + 2), 2 ^ (q.cod.ycb + 2)) q.cod.style
        ((List.range (q.cod.levels + 1)).map fun r => if q.cod.maxPrecincts then (15, 15) else wantedPrecinct q.cod r) =
        q.picture := by
      have e1 : ((cd.colour != 0) : Bool) = q.picture.cycc := by
        rw [c6, hcol]
        cases q.picture.cycc <;> rfl
      unfold pictureFrom
      simp only [hget, z2.1, z2.2.1, z2.2.2.1, z2.2.2.2, z3.1, z3.2.1, z3.2.2.1, z3.2.2.2, z4, z5, e1, c2, c3, c4, c5, q2', s2, htake,
        Nat.log2_two_pow]
      have e2 : sp = quantSteps q.guard q.cod.levels ((q.comps.getD 0 (0, 0, 0)).1 % 128 + 1) (if q.picture.cycc then 1 else 0) :=
        (hsteps 0).symm
      have e3 : (q.cod.style == 0x48) = decide (q.cod.style = 0x48) := by
        by_cases h : q.cod.style = 0x48 <;> simp [h]
      have e4 : (fun k => ((q.comps.getD k (0, 0, 0)).1 &&& 0x7F) + 1) = fun k => (q.comps.getD k (0, 0, 0)).1 % 128 + 1 := by
        funext k
        rw [show (0x7F : Nat) = 2 ^ 7 - 1 from rfl, Nat.and_two_pow_sub_one_eq_mod]
      have e5 : (fun k => (q.comps.getD k (0, 0, 0)).1 &&& 0x80 != 0) = fun k => decide (128 ≤ (q.comps.getD k (0, 0, 0)).1) := by
        funext k; exact sign_bit _ (hcomp k)
      have e6 : ∀ r, (if r ≤ q.cod.levels then (if q.cod.maxPrecincts then (15, 15) else wantedPrecinct q.cod r) else (0, 0)).1 =
          if r ≤ q.cod.levels then (if q.cod.maxPrecincts then 15 else (wantedPrecinct q.cod r).1) else 0 := by
        intro r; split_ifs <;> rfl
      have e7 : ∀ r, (if r ≤ q.cod.levels then (if q.cod.maxPrecincts then (15, 15) else wantedPrecinct q.cod r) else (0, 0)).2 =
          if r ≤ q.cod.levels then (if q.cod.maxPrecincts then 15 else (wantedPrecinct q.cod r).2) else 0 := by
        intro r; split_ifs <;> rfl
      simp only [e6, e7]
      rw [e2, e3, e4, e5]
      rfl
    have hm : (q.picture.cycc && decide (3 ≤ q.picture.nc)) = q.picture.mct := by
      rw [picture_mct]
      unfold Picture.nc Request.picture
      simp only
      generalize (decide (3 ≤ q.comps.length)) = b
      generalize (!(_ && _ && _)) = c
      generalize decide (q.cod.colour = 1) = a
      cases a <;> cases b <;> cases c <;> rfl
    show (do
      let nl ← okOnly cd.levels
      let cb ← okOnly cd.blockSize
      let style ← okOnly cd.style
      let tr ← okOnly cd.transformation
      let pp ← (List.range (nl + 1)).mapM fun r => okOnly (cd.precinctSize r)
      let P := pictureFrom z cd qd' nl cb style pp
      if tr = 1 ∧ qd'.style = 0 ∧ (style = 0x40 ∨ style = 0x48) ∧ (P.cycc && decide (3 ≤ P.nc)) = P.mct ∧ [] = [] ∧ [] = [] ∧
        [] = [] ∧ none = none ∧ [] = [] ∧ [] = [] ∧ [] = [] then some P else none) = some q.picture
    rw [c7, c8, c9, c10 hcb']
    show (do
      let pp ← (List.range (q.cod.levels + 1)).mapM fun r => okOnly (cd.precinctSize r)
      let P := pictureFrom z cd qd' q.cod.levels (2 ^ (q.cod.xcb + 2), 2 ^ (q.cod.ycb + 2)) q.cod.style pp
      if q.cod.reversible = 1 ∧ qd'.style = 0 ∧ (q.cod.style = 0x40 ∨ q.cod.style = 0x48) ∧
        (P.cycc && decide (3 ≤ P.nc)) = P.mct ∧ [] = [] ∧ [] = [] ∧
        [] = [] ∧ none = none ∧ [] = [] ∧ [] = [] ∧ [] = [] then some P else none) = some q.picture
    rw [hpp]
    simp only [Option.bind_eq_bind, Option.bind_some]
    rw [hP, if_pos ⟨h.reversible, q1', h.ht, hm, trivial, trivial, trivial, trivial, trivial, trivial, trivial⟩]
  refine ⟨z, cd, qd, ?_, z2.1, z3.2.2.1, z3.1, z2.2.1, z3.2.2.2, z3.2.1, hzr, hcdr, hqdr, key qd rfl rfl,
    key { qd with reversible := false } rfl rfl⟩
  unfold headerFor
  rw [not_refused h hl, tileSize_eq h (by omega) (by omega)]
  simp only [hz, hcd, hsp, hqd, okOnly]
  rfl

end

end Verif.Tile.Pipe
