import Verif.Tile.CodestreamLemmas
import Verif.Tile.PropsFits

/-!
C70: a picture written as a codestream comes back from its bytes.

The specification is in the words of the caller: `Request.picture` says what the parameters mean, `Picture.Samples` what samples
are allowed; the conclusion compares the decoder's output buffers with the samples given to the encoder.
-/

namespace Verif.Tile.Pipe
open Verif.Cs (Out Hdr Siz Cod Qcd CodParams Part Written mkSiz mkCod mkQcd wantedPrecinct writeContainer writeTiles)

/-! ## Lemmas -/

theorem mapM_of_get {α β : Type} {f : α → Option β} : ∀ {l : List α} {bs : List β}, l.length = bs.length →
    (∀ (k : Nat) (b : β), bs[k]? = some b → ∃ a, l[k]? = some a ∧ f a = some b) → l.mapM f = some bs := by
  intro l
  induction l with
  | nil => intro bs hl _; cases bs with
    | nil => rfl
    | cons => simp at hl
  | cons a l ih =>
    intro bs hl h
    cases bs with
    | nil => simp at hl
    | cons b bs =>
      obtain ⟨a', h1, h2⟩ := h 0 b rfl
      have e : a = a' := by simpa using h1
      subst e
      rw [List.mapM_cons, h2, ih (by simpa using hl) fun k b' hk => by
        obtain ⟨a', h3, h4⟩ := h (k + 1) b' (by simpa using hk)
        exact ⟨a', by simpa using h3, h4⟩]
      rfl

theorem writeTiles_mem : ∀ (bs : List (List UInt8)) (i : Nat), ∀ b ∈ bs, b.length + 14 ≤ (writeTiles i bs).length := by
  intro bs
  induction bs with
  | nil => intro i b hb; simp at hb
  | cons a bs ih =>
    intro i b hb
    rw [writeTiles, List.length_append]
    rcases List.mem_cons.1 hb with rfl | hb
    · have : (Cs.writeTile i b).length = 14 + b.length := by
        rw [Cs.writeTile, List.length_append]
        congr 1
      omega
    · have := ih (i + 1) b hb; omega

theorem flush_ok (z : Siz) (cd : Cod) (qd : Qcd) (cap : Option Cs.Cap) (com : List Cs.Com) (B : List (List UInt8)) :
    ∃ bytes, (hdrOf z cd qd cap (tlmFor B) com).flush = .ok bytes := by
  have hw : ∃ t, Hdr.flush.writeAll (tlmFor B) = .ok t := by
    unfold tlmFor
    split
    · have : ∃ w, (Cs.mkTlm 0 (List.range B.length) (B.map fun b => b.length + 14)).write = .ok w := by
        unfold Cs.Tlm.write
        rw [if_neg]
        · exact ⟨_, rfl⟩
        · rintro ⟨-, -, h⟩
          simp [Cs.mkTlm] at h
      obtain ⟨w, hw⟩ := this
      rw [Hdr.flush.writeAll, hw]
      exact ⟨_, rfl⟩
    · exact ⟨[], rfl⟩
  obtain ⟨t, ht⟩ := hw
  rw [Hdr.flush]
  simp only [hdrOf, ht]
  exact ⟨_, rfl⟩

theorem toNat_ofNat_map {l : List Nat} (h : ∀ b ∈ l, b < 256) : (l.map UInt8.ofNat).map (·.toNat) = l := by
  rw [List.map_map]
  conv => rhs; rw [← List.map_id l]
  refine List.map_congr_left fun b hb => ?_
  show (UInt8.ofNat b).toNat = b
  rw [UInt8.toNat_ofNat']
  exact Nat.mod_eq_of_lt (h b hb)

/-! ## The property -/

/-- **C70**.  For all parameters the model covers and all samples of the declared depth, the encoder makes a codestream, and the
decoder finds in its bytes the parameters and, in its output buffers, the samples.  Neither what follows the codestream
(`post` in the file, `pad` in memory) nor what the buffers held before matters. -/
theorem C70_codestream_lossless (q : Request) (h : q.Ok) (hl : q.picture.Legal) (hp : q.picture.Plain) (img : Nat → List Int)
    (hs : q.picture.Samples img) (E : Nat → Env) (hE : ∀ t, (E t).Sane) :
    ∃ bytes N, encodeCodestream q img = some bytes ∧
      ∀ pad post fuel o, (bytes ++ post).length < 2 ^ 32 → N ≤ fuel →
        ∃ o', decodeCodestream pad E fuel (bytes ++ post) o = some (q.picture, o') ∧
          ∀ c < q.comps.length, q.picture.outSize c = (img c).length ∧ ∀ i (hi : i < (img c).length), o' c i = (img c)[i] := by
  obtain ⟨z, cd, qd, hh, x1, x2, x3, y1, y2, y3, rz, rc, rq, hP, hP'⟩ := header_made h hl
  obtain ⟨bodies, hb, -⟩ := C68_lossless_own_budget q.picture hl hp img hs E hE 256 (Nat.le_refl _)
  obtain ⟨hlen, hbyte⟩ := encodePicture_bytes hb
  rw [hl.tiles] at hlen
  generalize hB : (bodies.map fun b => b.map UInt8.ofNat) = B
  have hBl : B.length = numTiles q.picture.ax * numTiles q.picture.ay := by rw [← hB, List.length_map, hlen]
  generalize hcap : some (capFor q.cod.order
    (quantSteps q.guard q.cod.levels (((q.comps.getD 0 (0, 0, 0)).1 &&& 0x7F) + 1) (colourUsed q))) = cap at hh
  obtain ⟨hdr, hfl⟩ := flush_ok z cd qd cap [Cs.mkCom comment true] B
  have henc : encodeCodestream q img = some (writeContainer hdr B) := by
    unfold encodeCodestream
    simp only [hh, Option.bind_eq_bind, Option.bind_some, hP, hb, hB]
    show (okOnly (hdrOf z cd qd cap (tlmFor B) [Cs.mkCom comment true]).flush).bind _ = _
    rw [hfl]
    rfl
  by_cases hsmall : ∀ b ∈ B, b.length + 14 < 2 ^ 32
  swap
  · push Not at hsmall
    obtain ⟨b, hbm, hbl⟩ := hsmall
    refine ⟨_, 0, henc, fun pad post fuel o hlt => ?_⟩
    have := writeTiles_mem B 0 b hbm
    rw [writeContainer] at hlt
    simp only [List.length_append] at hlt
    omega
  have hpos : 0 < numTiles q.picture.ax * numTiles q.picture.ay := by
    have := hl.ax.img; have := hl.ay.img; have := hl.ax.org; have := hl.ay.org
    rw [numTiles_eq hl.ax, numTiles_eq hl.ay]
    refine Nat.mul_pos ((lt_cdiv hl.ax.tile).2 ?_) ((lt_cdiv hl.ay.tile).2 ?_) <;> (rw [Nat.zero_mul]; omega)
  have hwr : Written (hdrOf z cd qd cap (tlmFor B) [Cs.mkCom comment true])
      (hdrOf z cd { qd with reversible := false } cap (tlmFor B) [Cs.mkCom comment true]) := by
    refine ⟨⟨z, rfl, rfl, rz, by simp [hdrOf]⟩, ⟨rfl, ?_⟩, ⟨cd, rfl, rfl, rc⟩, ⟨qd, rfl, rfl, rq⟩, rfl, ⟨rfl, ?_⟩, ⟨rfl, ?_⟩, rfl⟩
    · intro c hc
      have hc : cap = some c := hc
      rw [← hcap, Option.some.injEq, capFor_eq] at hc
      rw [← hc]
      refine (Cs.C36_cap _ ?_ ?_).1
      · split <;> simp
      · intro p hp
        have hlt := ccap15_lt (quantSteps q.guard q.cod.levels (((q.comps.getD 0 (0, 0, 0)).1 &&& 0x7F) + 1) (colourUsed q))
        split at hp
        · rcases List.mem_cons.1 hp with rfl | hp
          · exact ⟨hlt, by show 1 ≤ 15; decide, by show 15 ≤ 32; decide⟩
          · rw [List.mem_singleton] at hp; subst hp; decide
        · rw [List.mem_singleton] at hp; subst hp
          exact ⟨hlt, by show 1 ≤ 15; decide, by show 15 ≤ 32; decide⟩
    · intro t ht
      have ht : t ∈ tlmFor B := ht
      unfold tlmFor at ht
      split at ht
      · rename_i h1
        rw [List.mem_singleton] at ht
        subst ht
        have htl := h.tiles
        obtain ⟨w, hw1, hw2, -⟩ := Cs.C36_tlm (z := 0) (tiles := List.range B.length) (lengths := B.map fun b => b.length + 14)
          (by decide) (by intro e; have := congrArg List.length e; rw [List.length_range, List.length_nil] at this; omega)
          (by rw [List.length_range, List.length_map]) (by intro t ht; have := List.mem_range.1 ht; omega)
          (by intro p hp; obtain ⟨b, hbm, rfl⟩ := List.mem_map.1 hp; exact hsmall b hbm) (by rw [List.length_map]; omega)
        exact ⟨w, hw1, hw2⟩
      · simp at ht
    · intro c hc
      have hc : c ∈ [Cs.mkCom comment true] := hc
      rw [List.mem_singleton] at hc
      subst hc
      exact (Cs.C36_com comment true (by decide)).1
  have hx : Cs.tilesAlong z.xsiz z.xtosiz z.xtsiz = .ok (numTiles q.picture.ax) := by
    have := hl.ax.tile
    rw [Cs.tilesAlong, if_neg (by rw [x3]; omega), x1, x2, x3]
    rfl
  have hy : Cs.tilesAlong z.ysiz z.ytosiz z.ytsiz = .ok (numTiles q.picture.ay) := by
    have := hl.ay.tile
    rw [Cs.tilesAlong, if_neg (by rw [y3]; omega), y1, y2, y3]
    rfl
  obtain ⟨hdr', N, hfl', hread⟩ := Cs.C52_codestream_recovered hwr rfl hx hy hBl hpos hl.count
  rw [hfl, Out.ok.injEq] at hfl'
  subst hfl'
  refine ⟨_, max (N + 1) 256, henc, fun pad post fuel o hlt hf => ?_⟩
  obtain ⟨tiles, s, hr, htl, -, hget⟩ := hread pad post fuel hlt (by omega)
  obtain ⟨bodies', hb', hdec⟩ := C68_lossless_own_budget q.picture hl hp img hs E hE fuel (by omega)
  rw [hb, Option.some.injEq] at hb'
  subst hb'
  obtain ⟨o', ho', hout⟩ := hdec o
  refine ⟨o', ?_, hout⟩
  have hbodies : tiles.mapM bodyOfTile = some bodies := by
    refine mapM_of_get (by rw [htl, hBl, hlen]) fun k b hk => ?_
    have hk' : B[k]? = some (b.map UInt8.ofNat) := by rw [← hB, List.getElem?_map, hk]; rfl
    refine ⟨_, hget k _ hk', ?_⟩
    rw [bodyOfTile, if_pos ⟨rfl, rfl⟩, toNat_ofNat_map (hbyte b (List.mem_of_getElem? hk))]
  unfold decodeCodestream
  rw [hr]
  simp only [Option.bind_eq_bind, Option.bind_some, okOnly, hP', hbodies, ho']

/-- A picture of 12 × 10 samples of 8 bits in three components with the colour transform, four tiles that do not divide it, one
level, blocks of 4 × 4, packet headers ended by EPH. -/
def exRequest : Request where
  rsiz := 0
  xsiz := 13
  ysiz := 10
  xosiz := 1
  yosiz := 0
  xtsiz := 8
  ytsiz := 8
  xtosiz := 0
  ytosiz := 0
  comps := [(7, 1, 1), (7, 1, 1), (7, 1, 1)]
  cod := ⟨true, false, true, 0, 1, 1, 1, 0, 0, 0x40, 1, [], []⟩
  guard := 1

example : exRequest.Ok where
  rsiz := by decide
  comps := by decide
  ssiz := by decide
  guard := by decide
  ht := by decide
  reversible := by decide
  colour := by decide
  pp := by decide
  ppx := by decide
  ppy := by decide
  tiles := by decide
  area := by decide

example : exRequest.picture.Legal where
  ax := ⟨by decide, by decide, by decide, by decide, by decide, by decide⟩
  ay := ⟨by decide, by decide, by decide, by decide, by decide, by decide⟩
  count := by decide
  comps := by decide
  tile := by
    intro t ht
    have ht : t < 4 := ht
    interval_cases t <;>
      exact ⟨⟨by decide, by decide, by decide, by decide, by decide, by decide, by decide, by decide, by decide +kernel⟩, rfl,
        by decide, by decide, by decide, by decide, by decide, by decide, by decide, by decide, by decide +kernel⟩
  sizx := by decide
  sizy := by decide
  sub := by decide
  depth := by decide
  area := by decide
  straightx := by decide
  straighty := by decide
  levels := by decide
  rows := by decide
  same := by decide

example : exRequest.picture.Plain where
  steps := by decide +kernel
  guard := by decide
  bits := by decide
  depth := by decide
  levels := by decide
  wide := by
    intro t ht c hc r h1 h2
    have ht : t < 4 := ht
    obtain rfl : r = 1 := by have : r ≤ 1 := h2; omega
    have hc : c < 3 := hc
    interval_cases t <;> interval_cases c <;> decide +kernel
  aligned := by
    intro t ht
    have ht : t < 4 := ht
    interval_cases t <;> decide +kernel

example : exRequest.picture.Samples exPixels := by
  intro c hc
  have hc : c < 3 := hc
  refine ⟨by interval_cases c <;> decide, ?_⟩
  interval_cases c <;> decide +kernel

/-- The encoder multiplies the sides of a tile in 32 bits to see whether they were given: tiles of 65536 × 65536 count as not
given, and an image of 100000 × 100000 that was to have four is announced as one tile. -/
theorem C70_tile_area_wraps :
    ∃ q : Request, (q.xsiz, q.ysiz, q.xtsiz, q.ytsiz) = (100000, 100000, 65536, 65536) ∧ refused q = false ∧
      numTiles q.picture.ax * numTiles q.picture.ay = 4 ∧
      tileSize q = (100000, 100000) ∧
      ∃ h z, headerFor q = some h ∧ h.siz = some z ∧ (z.xtsiz, z.ytsiz) = (100000, 100000) := by
  refine ⟨{ exRequest with xsiz := 100000, ysiz := 100000, xosiz := 0, xtsiz := 65536, ytsiz := 65536 }, rfl, by decide +kernel,
    by decide +kernel, by decide +kernel, _, _, rfl, rfl, by decide +kernel⟩

/-- A tile size of zero is to stand for the whole image.  The tiles it leads to are as wide as the image and start at the tile
origin: there is one (across) exactly if the tile origin is the image origin. -/
theorem C70_untiled_iff (q : Request) (h0 : q.xtsiz = 0) (ho : q.xtosiz ≤ q.xosiz) (hx : q.xosiz < q.xsiz) (hs : q.xsiz ≤ 2 ^ 31) :
    numTiles q.picture.ax = 1 ↔ q.xtosiz = q.xosiz := by
  have e : q.picture.ax = ⟨q.xsiz, q.xosiz, q.xsiz - q.xosiz, q.xtosiz⟩ := by
    unfold Request.picture
    simp [h0]
  rw [e]
  unfold numTiles
  simp only
  rw [usub_eq (by omega), ceilInt_eq (by omega) (by omega)]
  have h1 : 0 < q.xsiz - q.xosiz := by omega
  constructor
  · intro h
    have := (cdiv_le (a := q.xsiz - q.xtosiz) (k := 1) h1).1 (by omega)
    omega
  · intro h
    rw [h]
    have a := (cdiv_le (a := q.xsiz - q.xosiz) (k := 1) h1).2 (by omega)
    have b := (lt_cdiv (a := q.xsiz - q.xosiz) (k := 0) h1).2 (by omega)
    omega

/-- An image of 12 × 10 at (1, 0) with tile origin (0, 0) and no tile size given gets two tiles (the command line encoder moves
the tile origin, main_enc.cpp:129-130; a caller of the library has to); at (7, 0), six
columns wide, it is refused. -/
example : numTiles { exRequest with xtsiz := 0 }.picture.ax = 2 ∧ refused { exRequest with xtsiz := 0, xosiz := 7 } = true := by
  decide +kernel

end Verif.Tile.Pipe
