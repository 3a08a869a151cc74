import Verif.Codestream.MarkerLemmas
/-
C36: the marker segments the encoder writes are read back by the decoder with the same parameters, and exactly the declared
length is consumed.
-/
namespace Verif.Cs
open Verif.Jph (putWord putDword putWord_eq putDword_eq)
open Verif.Jpip (be16 be32 be16_length be32_length be16_val)

/-- Specification.  `w` is a marker segment with the given code: its length field counts the bytes after the code, and
wherever it stands in a codestream, `rd`, started behind the code, returns `v` and stops right after the segment. -/
structure RoundTrip {α : Type} (code : Nat) (w : List UInt8) (rd : List UInt8 → Src → Out (α × Src)) (v : α) : Prop where
  code : w.take 2 = be16 code
  long : 4 ≤ w.length
  length : (w.drop 2).take 2 = be16 (w.length - 2)
  read : ∀ pre post pad : List UInt8, (pre ++ w ++ post).length < 2 ^ 32 →
    rd pad ⟨pre ++ w ++ post, pre.length + 2⟩ = .ok (v, ⟨pre ++ w ++ post, pre.length + w.length⟩)

theorem roundTrip_of {α : Type} {code : Nat} {w body : List UInt8} {f : Rd α} {v : α}
    (hw : w = be16 code ++ (be16 (body.length + 2) ++ body)) (hb : body.length + 2 < 2 ^ 16)
    (hf : Reads (body.length + 2) f body v) : RoundTrip code w (fun pad => segment pad f) v := by
  have hlen : w.length = body.length + 4 := by rw [hw]; simp only [List.length_append, be16_length]; omega
  refine ⟨by rw [hw]; rfl, by omega, ?_, ?_⟩
  · rw [hlen, hw, show body.length + 4 - 2 = body.length + 2 by omega]; rfl
  · intro pre post pad hl
    rw [segment_reads (pre := pre ++ be16 code) (post := post) (body := body) hf (by rw [hw]; simp)
      (by rw [List.length_append, be16_length]) hb hl, hlen]
    congr 3
    omega

/-! ### SIZ -/

/-- A component as SIZ holds it: `Ssiz`, `XRsiz`, `YRsiz`. -/
def compBytes (c : Nat × Nat × Nat) : List UInt8 := [UInt8.ofNat c.1, UInt8.ofNat c.2.1, UInt8.ofNat c.2.2]

/-- Values a component may have. -/
def CompOk (c : Nat × Nat × Nat) : Prop := c.1 < 256 ∧ (0 < c.2.1 ∧ c.2.1 < 256) ∧ 0 < c.2.2 ∧ c.2.2 < 256

theorem reads_comp {L : Nat} {c : Nat × Nat × Nat} (h : CompOk c) : Reads L rComp (compBytes c) c := by
  obtain ⟨h1, h2, h3⟩ := h
  show Reads L rComp ([UInt8.ofNat c.1] ++ ([UInt8.ofNat c.2.1] ++ ([UInt8.ofNat c.2.2] ++ []))) (c.1, c.2.1, c.2.2)
  exact Reads.bind (Reads.byte h1) (Reads.bind (Reads.byte h2.2) (Reads.bind (Reads.byte h3.2)
    (Reads.bind0 (Reads.guard ⟨by omega, by omega⟩) (Reads.pure L _))))

theorem flatMap_comp_length (l : List (Nat × Nat × Nat)) : (l.flatMap compBytes).length = 3 * l.length := by
  induction l with
  | nil => rfl
  | cons a l ih => rw [List.flatMap_cons, List.length_append, ih, List.length_cons]; show 3 + _ = _; omega

/-- The parameters of SIZ that the encoder may be given. -/
structure SizOk (r x y xo yo xt yt xto yto c : Nat) (comps : List (Nat × Nat × Nat)) : Prop where
  hr : r < 2 ^ 16
  hx : x < 2 ^ 32
  hy : y < 2 ^ 32
  hxo : xo < 2 ^ 32
  hyo : yo < 2 ^ 32
  hxt : xt < 2 ^ 32
  hyt : yt < 2 ^ 32
  hxto : xto < 2 ^ 32
  hyto : yto < 2 ^ 32
  hc : 1 ≤ c ∧ c ≤ 16384
  hcomps : comps.length = c ∧ ∀ p ∈ comps, CompOk p

/-- C36, SIZ.  The reader finds the sizes, the number of components and the parameters of every component as they were
given, and the capabilities with bit 14 set if CAP is announced. -/
theorem C36_siz {r x y xo yo xt yt xto yto c : Nat} {comps : List (Nat × Nat × Nat)} (needCap : Bool)
    (h : SizOk r x y xo yo xt yt xto yto c comps) :
    ∃ z, mkSiz r x y xo yo xt yt xto yto c comps needCap = .ok z ∧
      RoundTrip 0xFF51 z.write (fun pad => segment pad readSiz) z ∧
      (z.rsiz = if needCap then r ||| 2 ^ 14 else r) ∧ (z.xsiz, z.ysiz, z.xosiz, z.yosiz) = (x, y, xo, yo) ∧
      (z.xtsiz, z.ytsiz, z.xtosiz, z.ytosiz) = (xt, yt, xto, yto) ∧ z.csiz = c ∧ z.comps = comps := by
  obtain ⟨hr, hx, hy, hxo, hyo, hxt, hyt, hxto, hyto, hc, hlen, hcomps⟩ := h
  have htake : comps.take c = comps := by rw [← hlen, List.take_length]
  have hrs : r ||| (if needCap then 1 <<< 14 else 0) < 2 ^ 16 := by
    refine Nat.or_lt_two_pow hr ?_
    cases needCap <;> decide
  refine ⟨⟨38 + 3 * c, r ||| (if needCap then 1 <<< 14 else 0), x, y, xo, yo, xt, yt, xto, yto, c, comps⟩, ?_, ?_, ?_, rfl, rfl, rfl, rfl⟩
  · rw [mkSiz, if_neg (by omega), htake, Nat.mod_eq_of_lt (by omega)]
  · generalize hR : (r ||| (if needCap then 1 <<< 14 else 0)) = R at hrs ⊢
    have hbody : (be16 R ++ (be32 x ++ (be32 y ++ (be32 xo ++ (be32 yo ++ (be32 xt ++ (be32 yt ++ (be32 xto ++ (be32 yto ++
        (be16 c ++ (comps.flatMap compBytes ++ []))))))))))).length + 2 = 38 + 3 * c := by
      simp only [List.length_append, be16_length, be32_length, flatMap_comp_length, hlen, List.length_nil]; omega
    refine roundTrip_of (body := be16 R ++ (be32 x ++ (be32 y ++ (be32 xo ++ (be32 yo ++ (be32 xt ++ (be32 yt ++ (be32 xto ++ (be32 yto ++
        (be16 c ++ (comps.flatMap compBytes ++ []))))))))))) ?_ (by rw [hbody]; omega) ?_
    · rw [hbody, Siz.write]
      simp only [putWord_eq, putDword_eq, htake, List.append_assoc, List.append_nil]
      rfl
    · rw [hbody]
      refine Reads.bind0 (Reads.lmar _) (Reads.bind (Reads.word hrs) (Reads.bind (Reads.dword hx) (Reads.bind (Reads.dword hy)
        (Reads.bind (Reads.dword hxo) (Reads.bind (Reads.dword hyo) (Reads.bind (Reads.dword hxt) (Reads.bind (Reads.dword hyt)
        (Reads.bind (Reads.dword hxto) (Reads.bind (Reads.dword hyto) (Reads.bind (Reads.word (by omega))
        (Reads.bind0 (Reads.guard hc) (Reads.bind0 (Reads.guard ?_) ?_))))))))))))
      · rw [Nat.mod_eq_of_lt (by omega)]
      · refine Reads.bind (v := comps) ?_ (Reads.pure _ _)
        rw [← hlen]
        exact Reads.rep comps fun p hp => reads_comp (hcomps p hp)
  · cases needCap <;> simp

/-- Three components, the chroma subsampled: the hypotheses can be met. -/
example : SizOk 0 1920 1080 0 0 640 640 0 0 3 [(7, 1, 1), (7, 2, 2), (7, 2, 2)] := by
  refine ⟨?_, ?_, ?_, ?_, ?_, ?_, ?_, ?_, ?_, ?_, ?_, ?_⟩ <;> simp [CompOk]

/-! ### COD -/

/-- The parameters of COD that the encoder may be given. -/
structure CodOk (p : CodParams) : Prop where
  order : p.order < 256
  layers : p.layers < 2 ^ 16
  colour : p.colour < 256
  levels : p.levels ≤ 32
  xcb : p.xcb < 256
  ycb : p.ycb < 256
  style : p.style < 256
  reversible : p.reversible < 256
  same : p.ppx.length = p.ppy.length
  ppx : ∀ v ∈ p.ppx, v ≤ 15
  ppy : ∀ v ∈ p.ppy, v ≤ 15

theorem tmpPP_length (l : List (Nat × Nat)) (last : Nat × Nat) (n : Nat) : (tmpPP l last n).length = n := by
  induction n generalizing l last with
  | zero => cases l <;> rfl
  | succ n ih => cases l <;> simp only [tmpPP, List.length_cons, ih]

theorem tmpPP_lt (l : List (Nat × Nat)) (last : Nat × Nat) (n : Nat) : ∀ v ∈ tmpPP l last n, v < 256 := by
  induction n generalizing l last with
  | zero => cases l <;> intro v hv <;> simp [tmpPP] at hv
  | succ n ih =>
    cases l with
    | nil =>
      intro v hv
      rw [tmpPP, List.mem_cons] at hv
      rcases hv with rfl | hv
      · exact Nat.mod_lt _ (by decide)
      · exact ih _ _ v hv
    | cons a l =>
      intro v hv
      rw [tmpPP, List.mem_cons] at hv
      rcases hv with rfl | hv
      · exact Nat.mod_lt _ (by decide)
      · exact ih _ _ v hv

/-- Entry `i`: the given pair, or the last one given. -/
theorem tmpPP_get (l : List (Nat × Nat)) (last : Nat × Nat) (n i : Nat) (hi : i < n) :
    (tmpPP l last n)[i]? =
      some (((l[min i (l.length - 1)]?.getD last).1 + (l[min i (l.length - 1)]?.getD last).2 <<< 4) % 2 ^ 8) := by
  induction n generalizing l last i with
  | zero => omega
  | succ n ih =>
    cases l with
    | nil =>
      cases i with
      | zero => rfl
      | succ i =>
        rw [tmpPP, List.getElem?_cons_succ, ih [] last i (by omega)]
        rfl
    | cons a l =>
      cases i with
      | zero => simp [tmpPP]
      | succ i =>
        rw [tmpPP, List.getElem?_cons_succ, ih l a i (by omega)]
        cases l with
        | nil => simp
        | cons b l =>
          have e : min (i + 1) ((a :: b :: l).length - 1) = min i ((b :: l).length - 1) + 1 := by
            simp only [List.length_cons]; omega
          rw [e, List.getElem?_cons_succ]
          have hlt : min i ((b :: l).length - 1) < (b :: l).length := by simp only [List.length_cons]; omega
          rw [List.getElem?_eq_getElem hlt]
          rfl

/-- The precinct size given for resolution `r`: the lists start at the highest resolution, and their last entry holds for
all lower ones. -/
def wantedPrecinct (p : CodParams) (r : Nat) : Nat × Nat :=
  (p.ppx.getD (min (p.levels - r) (p.ppx.length - 1)) 0, p.ppy.getD (min (p.levels - r) (p.ppy.length - 1)) 0)

theorem nibbles (x y : Nat) (hx : x ≤ 15) (hy : y ≤ 15) :
    (x + y <<< 4) % 2 ^ 8 &&& 0x0F = x ∧ ((x + y <<< 4) % 2 ^ 8 &&& 0xF0) >>> 4 = y := by
  interval_cases x <;> interval_cases y <;> decide

theorem getD_le {l : List Nat} (h : ∀ v ∈ l, v ≤ 15) (k : Nat) : l.getD k 0 ≤ 15 := by
  rw [List.getD]
  cases hk : l[k]? with
  | none => exact Nat.zero_le _
  | some v => exact h v (List.mem_of_getElem? hk)

theorem sgcod_fields {o l c : Nat} (ho : o < 256) (hl : l < 2 ^ 16) (hc : c < 256) :
    (((o <<< 24 + l <<< 8 + c) % 2 ^ 32) >>> 24) % 2 ^ 8 = o ∧
    (((o <<< 24 + l <<< 8 + c) % 2 ^ 32) >>> 8) &&& 0xFFFF = l ∧ ((o <<< 24 + l <<< 8 + c) % 2 ^ 32) &&& 0xFF = c := by
  simp only [Nat.shiftLeft_eq, Nat.shiftRight_eq_div_pow, show (0xFFFF : Nat) = 2 ^ 16 - 1 from rfl,
    show (0xFF : Nat) = 2 ^ 8 - 1 from rfl, Nat.and_two_pow_sub_one_eq_mod]
  rw [Nat.mod_eq_of_lt (a := o * 2 ^ 24 + l * 2 ^ 8 + c) (by omega)]
  refine ⟨?_, ?_, ?_⟩
  · rw [show (o * 2 ^ 24 + l * 2 ^ 8 + c) / 2 ^ 24 = o by omega]; omega
  · rw [show (o * 2 ^ 24 + l * 2 ^ 8 + c) / 2 ^ 8 = o * 2 ^ 16 + l by omega]; omega
  · omega

/-- C36, COD.  Every parameter is found again through the decoder's queries. -/
theorem C36_cod (p : CodParams) (h : CodOk p) :
    ∃ c, mkCod p = .ok c ∧ RoundTrip 0xFF52 c.write (fun pad => segment pad readCod) c ∧
      c.isMax = p.maxPrecincts ∧ c.useSop = p.sop ∧ c.useEph = p.eph ∧ c.order = p.order ∧ c.layers = p.layers ∧
      c.colour = p.colour ∧ c.levels = .ok p.levels ∧ c.style = .ok p.style ∧ c.transformation = .ok p.reversible ∧
      (p.xcb + p.ycb ≤ 8 → c.blockSize = .ok (2 ^ (p.xcb + 2), 2 ^ (p.ycb + 2))) ∧
      (∀ r ≤ p.levels, c.precinctSize r = .ok (if p.maxPrecincts then (15, 15) else wantedPrecinct p r)) := by
  obtain ⟨ho, hla, hco, hle, hxcb, hycb, hst, hrv, hsame, hpx, hpy⟩ := h
  obtain ⟨mx, sop, eph, order, layers, colour, levels, xcb, ycb, style, rv, ppx, ppy⟩ := p
  simp only at ho hla hco hle hxcb hycb hst hrv hsame hpx hpy ⊢
  obtain ⟨s1, s2, s3⟩ := sgcod_fields ho hla hco
  generalize hG : (order <<< 24 + layers <<< 8 + colour) % 2 ^ 32 = G at s1 s2 s3
  have hGlt : G < 2 ^ 32 := by rw [← hG]; exact Nat.mod_lt _ (by decide)
  generalize hT : (if mx then [] else (tmpPP (ppx.zip ppy) (0, 0) (levels + 1)).reverse) = T
  have hTlen : T.length = if mx then 0 else levels + 1 := by
    rw [← hT]
    cases mx with
    | true => rfl
    | false => simp [tmpPP_length]
  have hTlt : ∀ v ∈ T, v < 256 := by
    rw [← hT]
    cases mx with
    | true => simp
    | false =>
      intro v hv
      exact tmpPP_lt _ _ _ v (List.mem_reverse.mp hv)
  generalize hS : (if mx then 0 else 1) ||| (if sop then 2 else 0) ||| (if eph then 4 else 0) = S
  have hSlt : S < 256 := by rw [← hS]; cases mx <;> cases sop <;> cases eph <;> decide
  refine ⟨⟨12 + T.length, S, G, [levels, xcb, ycb, style, rv] ++ T⟩, ?_, ?_, ?_, ?_, ?_, s1, s2, s3, rfl, rfl, rfl, ?_, ?_⟩
  · rw [mkCod, if_neg (by simpa using hsame)]
    simp only [hG, hT, hS]
    congr 2
    rw [hTlen]
    cases mx with
    | true => rfl
    | false =>
      simp only [Bool.false_eq_true, if_false]
      omega
  · have hSP : ∀ v ∈ [levels, xcb, ycb, style, rv] ++ T, v < 256 := by
      intro v hv
      rw [List.mem_append] at hv
      rcases hv with hv | hv
      · simp only [List.mem_cons, List.not_mem_nil, or_false] at hv
        omega
      · exact hTlt v hv
    have hTle : T.length ≤ 33 := by rw [hTlen]; split <;> omega
    generalize hSPd : [levels, xcb, ycb, style, rv] ++ T = SP at hSP
    have hSPlen : SP.length = 5 + T.length := by rw [← hSPd, List.length_append]; rfl
    have hbody : ([UInt8.ofNat S] ++ (be32 G ++ (SP.map UInt8.ofNat ++ []))).length + 2 = 12 + T.length := by
      simp only [List.length_append, be32_length, List.length_map, List.length_singleton, List.length_nil, hSPlen]; omega
    refine roundTrip_of (body := [UInt8.ofNat S] ++ (be32 G ++ (SP.map UInt8.ofNat ++ []))) ?_ (by rw [hbody]; omega) ?_
    · rw [hbody, Cod.write]
      simp only [putWord_eq, putDword_eq, List.append_assoc, List.append_nil]
    · rw [hbody]
      have husz : usz (12 + T.length) 7 = SP.length := by rw [usz, if_pos (by omega)]; omega
      refine Reads.bind0 (Reads.lmar _) (Reads.bind (Reads.byte hSlt) (Reads.bind (Reads.dword hGlt)
        (Reads.bind0 (Reads.guard (by rw [husz]; omega)) (Reads.bind (v := SP) ?_ ?_))))
      · rw [husz]; exact Reads.bytes SP hSP
      · have hrepl : SP ++ List.replicate (5 - SP.length) 0 = SP := by
          rw [show 5 - SP.length = 0 by omega, List.replicate_zero, List.append_nil]
        rw [hrepl]
        refine Reads.bind0 (Reads.guard ?_) (Reads.pure _ _)
        rw [← hSPd]
        exact hle
  · rw [← hS]; cases mx <;> cases sop <;> cases eph <;> simp [Cod.isMax, Cod.useSop, Cod.useEph]
  · rw [← hS]; cases mx <;> cases sop <;> cases eph <;> simp [Cod.isMax, Cod.useSop, Cod.useEph]
  · rw [← hS]; cases mx <;> cases sop <;> cases eph <;> simp [Cod.isMax, Cod.useSop, Cod.useEph]
  · intro hsum
    show (if 8 < xcb ∨ 8 < ycb ∨ 8 < xcb + ycb then Out.throws else _) = _
    rw [if_neg (by omega), Nat.shiftLeft_eq, Nat.shiftLeft_eq, Nat.one_mul, Nat.one_mul]
  · intro r hr
    rw [Cod.precinctSize]
    have hmax : Cod.isMax ⟨12 + T.length, S, G, [levels, xcb, ycb, style, rv] ++ T⟩ = mx := by
      rw [← hS]; cases mx <;> cases sop <;> cases eph <;> simp [Cod.isMax, Cod.useSop, Cod.useEph]
    rw [hmax]
    cases mx with
    | true => rfl
    | false =>
      simp only [Bool.false_eq_true, if_false] at hT hTlen ⊢
      rw [if_neg (by rw [List.length_append, hTlen]; simp only [List.length_cons, List.length_nil]; omega)]
      have hz : (ppx.zip ppy).length = ppx.length := by rw [List.length_zip]; omega
      have hget : Cod.sp ⟨12 + T.length, S, G, [levels, xcb, ycb, style, rv] ++ T⟩ (5 + r) =
          .ok (((wantedPrecinct ⟨false, sop, eph, order, layers, colour, levels, xcb, ycb, style, rv, ppx, ppy⟩ r).1 +
            (wantedPrecinct ⟨false, sop, eph, order, layers, colour, levels, xcb, ycb, style, rv, ppx, ppy⟩ r).2 <<< 4) % 2 ^ 8) := by
        have e : ([levels, xcb, ycb, style, rv] ++ T)[5 + r]? = T[r]? := by
          rw [List.getElem?_append_right (by simp)]
          simp
        rw [Cod.sp]
        simp only
        rw [e, ← hT, List.getElem?_reverse (by rw [tmpPP_length]; omega), tmpPP_length,
          show levels + 1 - 1 - r = levels - r by omega, tmpPP_get _ _ _ _ (by omega), hz]
        simp only [wantedPrecinct]
        rw [← hsame]
        generalize min (levels - r) (ppx.length - 1) = k
        by_cases hk : k < ppx.length
        · have hk' : k < ppy.length := by omega
          simp [hk, hk', List.getD]
        · simp [List.getD, hk, hsame ▸ hk]
      rw [hget]
      have hb1 : (wantedPrecinct ⟨false, sop, eph, order, layers, colour, levels, xcb, ycb, style, rv, ppx, ppy⟩ r).1 ≤ 15 :=
        getD_le hpx _
      have hb2 : (wantedPrecinct ⟨false, sop, eph, order, layers, colour, levels, xcb, ycb, style, rv, ppx, ppy⟩ r).2 ≤ 15 :=
        getD_le hpy _
      obtain ⟨n1, n2⟩ := nibbles _ _ hb1 hb2
      show Out.ok (_, _) = _
      rw [n1, n2]

/-- Five levels, two precinct sizes given: the hypotheses can be met. -/
example : CodOk ⟨false, true, false, 2, 1, 1, 5, 4, 4, 0x40, 1, [8, 7], [8, 7]⟩ := by
  refine ⟨?_, ?_, ?_, ?_, ?_, ?_, ?_, ?_, ?_, ?_, ?_⟩ <;> simp

/-- The last pair given holds for all lower resolutions. -/
example : wantedPrecinct ⟨false, true, false, 2, 1, 1, 5, 4, 4, 0x40, 1, [8, 7], [8, 6]⟩ 0 = (7, 6) ∧
    wantedPrecinct ⟨false, true, false, 2, 1, 1, 5, 4, 4, 0x40, 1, [8, 7], [8, 6]⟩ 5 = (8, 8) := by decide

/-- Precinct exponents above 15 do not fit: the vertical one disappears from the byte, the horizontal one spills over. -/
theorem C36_precinct_exponent_spills :
    (mkCod ⟨false, false, false, 0, 1, 0, 0, 4, 4, 0, 1, [17], [3]⟩).bind (fun c => c.precinctSize 0) = .ok (1, 4) := by
  decide +kernel

/-! ### QCD and QCC -/

/-- What the quantisation values are, by the shape of `build_quant_steps`' result (j2kmarkers.cpp:867-885): one value for
each of the `3·levels + 1` bands, or one in all if derived; a byte if reversible. -/
structure QuantOk (guard levels : Nat) (reversible derived : Bool) (sp : List Nat) : Prop where
  hguard : guard < 8
  hlevels : levels ≤ 32
  kind : ¬ (reversible = true ∧ derived = true)
  count : sp.length = if derived then 1 else 3 * levels + 1
  value : ∀ v ∈ sp, v < if reversible then 256 else 2 ^ 16

/-- The quantisation style of a kind. -/
def styleOf (reversible derived : Bool) : Nat := if reversible then 0 else if derived then 1 else 2

theorem quant_style {guard : Nat} (reversible derived : Bool) (h : guard < 8) :
    (styleOf reversible derived + guard <<< 5) % 2 ^ 8 < 256 ∧
    (styleOf reversible derived + guard <<< 5) % 2 ^ 8 &&& 0x1F = styleOf reversible derived ∧
    ((styleOf reversible derived + guard <<< 5) % 2 ^ 8) >>> 5 = guard := by
  cases reversible <;> cases derived <;> interval_cases guard <;> decide

theorem flatMap_be16_length (l : List Nat) : (l.flatMap be16).length = 2 * l.length := by
  induction l with
  | nil => rfl
  | cons a l ih => rw [List.flatMap_cons, List.length_append, ih, List.length_cons, be16_length]; omega

/-- The bytes of the quantisation values. -/
def quantBytes (reversible : Bool) (sp : List Nat) : List UInt8 := if reversible then sp.map UInt8.ofNat else sp.flatMap be16

theorem quantBytes_length (reversible : Bool) (sp : List Nat) :
    (quantBytes reversible sp).length = if reversible then sp.length else 2 * sp.length := by
  cases reversible with
  | true => simp [quantBytes]
  | false => exact flatMap_be16_length sp

theorem flatMap_putWord (l : List Nat) : l.flatMap putWord = l.flatMap be16 := by
  induction l with
  | nil => rfl
  | cons a l ih => rw [List.flatMap_cons, List.flatMap_cons, ih, putWord_eq]

theorem reads_quant {L guard levels s nb nw : Nat} {reversible derived : Bool} {sp : List Nat}
    (h : QuantOk guard levels reversible derived sp) (hs : s &&& 0x1F = styleOf reversible derived)
    (hb : reversible = true → nb = sp.length) (hw : reversible = false → nw = sp.length) :
    Reads L (rQuant s nb nw) (quantBytes reversible sp) sp := by
  have hv := h.value
  rw [rQuant, hs]
  cases reversible with
  | true =>
    rw [if_pos (show styleOf true derived = 0 from rfl), hb rfl]
    exact Reads.bytes sp hv
  | false =>
    rw [if_neg (by cases derived <;> decide), hw rfl]
    exact Reads.words sp hv

/-- C36, QCD.  The style, the number of guard bits, and all exponents and mantissas are found again.  (The flag
`is_reversible`, which only the writer uses, is not transmitted as such.) -/
theorem C36_qcd {guard levels : Nat} {reversible derived : Bool} {sp : List Nat}
    (h : QuantOk guard levels reversible derived sp) :
    ∃ q, mkQcd guard levels reversible derived sp = .ok q ∧
      RoundTrip 0xFF5C q.write (fun pad => segment pad readQcd) { q with reversible := false } ∧
      q.style = styleOf reversible derived ∧ q.guardBits = guard ∧
      (∀ nb v, sp[if derived then 0 else nb]? = some v →
        q.exponent nb = .ok (if reversible then v / 2 ^ 3 else v / 2 ^ 11) ∧
        (reversible = false → q.mantissa nb = .ok (v % 2 ^ 11))) := by
  obtain ⟨s1, s2, s3⟩ := quant_style reversible derived h.hguard
  have hs : (if reversible then 0 else if derived then 1 else 2) = styleOf reversible derived := rfl
  generalize hS : (styleOf reversible derived + guard <<< 5) % 2 ^ 8 = S at s1 s2 s3
  have hle := h.hlevels
  have hcount := h.count
  have hkind := h.kind
  have hl : (if reversible then 4 + 3 * levels else if derived then 5 else 5 + 6 * levels) = 3 + (quantBytes reversible sp).length := by
    rw [quantBytes_length, hcount]
    cases reversible <;> cases derived <;> simp at hkind ⊢ <;> omega
  have hlt : (quantBytes reversible sp).length ≤ 194 := by
    have : (if reversible then 4 + 3 * levels else if derived then 5 else 5 + 6 * levels) ≤ 197 := by
      split <;> [skip; split] <;> omega
    omega
  refine ⟨⟨3 + (quantBytes reversible sp).length, S, sp, reversible⟩, ?_, ?_, s2, s3, ?_⟩
  · rw [mkQcd, if_neg (by cases reversible <;> cases derived <;> simp at hkind ⊢), hl, hs, hS, Nat.mod_eq_of_lt (by omega)]
  · have hbody : ([UInt8.ofNat S] ++ (quantBytes reversible sp ++ [])).length + 2 = 3 + (quantBytes reversible sp).length := by
      simp only [List.length_append, List.length_singleton, List.length_nil]; omega
    refine roundTrip_of (body := [UInt8.ofNat S] ++ (quantBytes reversible sp ++ [])) ?_ (by rw [hbody]; omega) ?_
    · rw [hbody, Qcd.write]
      simp only [putWord_eq, flatMap_putWord, List.append_assoc, List.append_nil]
      rfl
    · rw [hbody]
      have husz : usz (3 + (quantBytes reversible sp).length) 3 = (quantBytes reversible sp).length := by
        rw [usz, if_pos (by omega)]; omega
      refine Reads.bind0 (Reads.lmar _) (Reads.bind (Reads.byte s1) (Reads.bind0 (Reads.guard ?_)
        (Reads.bind (v := sp) (reads_quant h s2 ?_ ?_) (Reads.pure _ _))))
      · rw [husz]; split <;> omega
      · intro hr; rw [husz, quantBytes_length, hr]; rfl
      · intro hr; rw [husz, quantBytes_length, hr]; simp only [Bool.false_eq_true, if_false]; omega
  · intro nb v hv
    have hmem : v ∈ sp := List.mem_of_getElem? hv
    have hvlt := h.value v hmem
    have hidx : (if Qcd.style ⟨3 + (quantBytes reversible sp).length, S, sp, reversible⟩ = 1 then 0 else nb) = if derived then 0 else nb := by
      rw [show Qcd.style ⟨3 + (quantBytes reversible sp).length, S, sp, reversible⟩ = styleOf reversible derived from s2]
      cases reversible <;> cases derived <;> simp [styleOf] at hkind ⊢
    rw [Qcd.exponent, Qcd.mantissa, hidx, hv]
    simp only
    rw [show Qcd.style ⟨3 + (quantBytes reversible sp).length, S, sp, reversible⟩ = styleOf reversible derived from s2,
      show (0x7FF : Nat) = 2 ^ 11 - 1 from rfl, Nat.and_two_pow_sub_one_eq_mod, Nat.shiftRight_eq_div_pow, Nat.shiftRight_eq_div_pow]
    cases reversible with
    | true =>
      simp only [styleOf, if_true] at hvlt ⊢
      rw [Nat.mod_eq_of_lt (by omega)]
      exact ⟨rfl, by simp⟩
    | false =>
      simp only [Bool.false_eq_true, if_false] at hvlt ⊢
      rw [if_neg (by cases derived <;> decide), Nat.mod_eq_of_lt (by omega)]
      exact ⟨rfl, by simp⟩

/-- Two levels, reversible: the hypotheses can be met. -/
example : QuantOk 1 2 true false [80, 80, 80, 88, 80, 80, 88] := by
  refine ⟨?_, ?_, ?_, ?_, ?_⟩ <;> simp

/-- The reversible exponent is written as a byte `epsilon << 3`: from 32 on it is cut off. -/
theorem C36_exponent_truncated :
    (mkQcd 1 0 true false [33 <<< 3]).bind (fun q => (segment [] readQcd ⟨q.write, 2⟩).bind fun r => r.1.exponent 0) = .ok 1 := by
  decide +kernel

/-- C36, QCC, in an image with fewer than 257 components (the index is one byte) or more (two). -/
theorem C36_qcc {csiz c guard levels : Nat} {reversible derived : Bool} {sp : List Nat}
    (h : QuantOk guard levels reversible derived sp) (hc : c < if csiz < 257 then 256 else 2 ^ 16) :
    ∃ q, mkQcc csiz c guard levels reversible derived sp = .ok q ∧
      RoundTrip 0xFF5D q.write (fun pad => segment pad (readQcc csiz)) { q with reversible := false } ∧
      q.comp = c ∧ q.sqcc &&& 0x1F = styleOf reversible derived ∧ q.sqcc >>> 5 = guard ∧ q.spqcc = sp ∧
      q.maxComps = csiz := by
  obtain ⟨s1, s2, s3⟩ := quant_style reversible derived h.hguard
  have hs : (if reversible then 0 else if derived then 1 else 2) = styleOf reversible derived := rfl
  generalize hS : (styleOf reversible derived + guard <<< 5) % 2 ^ 8 = S at s1 s2 s3
  have hle := h.hlevels
  have hcount := h.count
  have hkind := h.kind
  generalize hI : (if csiz < 257 then [UInt8.ofNat c] else be16 c) = I
  have hIlen : I.length + 2 = idxLen csiz := by
    rw [← hI, idxLen]; split <;> rfl
  have hIread : ∀ L, Reads L (rCompIdx csiz) I c := by
    intro L
    rw [← hI, rCompIdx]
    split
    · next h => rw [if_pos h] at hc; exact Reads.byte hc
    · next h => rw [if_neg h] at hc; exact Reads.word hc
  have hIle : idxLen csiz ≤ 4 := by rw [idxLen]; split <;> omega
  have hl : (if reversible then 5 + 3 * levels else if derived then 6 else 6 + 6 * levels) + (if 257 ≤ csiz then 1 else 0) =
      idxLen csiz + 1 + (quantBytes reversible sp).length := by
    rw [quantBytes_length, hcount, idxLen]
    by_cases h257 : csiz < 257
    · have h2 : ¬ 257 ≤ csiz := by omega
      simp only [if_pos h257, if_neg h2]
      cases reversible <;> cases derived <;> simp at hkind ⊢ <;> omega
    · have h2 : 257 ≤ csiz := by omega
      simp only [if_neg h257, if_pos h2]
      cases reversible <;> cases derived <;> simp at hkind ⊢ <;> omega
  have hlt : (quantBytes reversible sp).length ≤ 194 := by
    rw [quantBytes_length, hcount]
    cases reversible <;> cases derived <;> simp at hkind ⊢ <;> omega
  refine ⟨⟨idxLen csiz + 1 + (quantBytes reversible sp).length, csiz, c, S, sp, reversible⟩, ?_, ?_, rfl, s2, s3, rfl, rfl⟩
  · rw [mkQcc, if_neg (by cases reversible <;> cases derived <;> simp at hkind ⊢), hl, hs, hS, Nat.mod_eq_of_lt (by omega)]
  · have hbody : (I ++ ([UInt8.ofNat S] ++ (quantBytes reversible sp ++ []))).length + 2 =
        idxLen csiz + 1 + (quantBytes reversible sp).length := by
      simp only [List.length_append, List.length_singleton, List.length_nil]; omega
    refine roundTrip_of (body := I ++ ([UInt8.ofNat S] ++ (quantBytes reversible sp ++ []))) ?_ (by rw [hbody]; omega) ?_
    · rw [hbody, Qcc.write]
      simp only [putWord_eq, flatMap_putWord, List.append_assoc, List.append_nil, hI]
      rfl
    · rw [hbody]
      have hi : (idxLen csiz + 1 + (quantBytes reversible sp).length) - (idxLen csiz + 1) = (quantBytes reversible sp).length := by omega
      refine Reads.bind0 (Reads.lmar _) (Reads.bind (hIread _) (Reads.bind (Reads.byte s1)
        (Reads.bind (v := sp) (reads_quant h s2 ?_ ?_) (Reads.pure _ _))))
      · intro hr; rw [usz, if_pos (by omega), hi, quantBytes_length, hr]; rfl
      · intro hr; rw [uszDiv, if_pos (by omega), hi, quantBytes_length, hr]; simp only [Bool.false_eq_true, if_false]; omega

/-- The second component of three. -/
example : QuantOk 2 1 false false [0x7000, 0x6800, 0x6801, 0x6002] ∧ (1 : Nat) < if (3 : Nat) < 257 then 256 else 2 ^ 16 := by
  refine ⟨⟨?_, ?_, ?_, ?_, ?_⟩, ?_⟩ <;> simp

end Verif.Cs
