import Verif.Img.Files
/-
Lemmas about picture files (model in `Img/Files`).
-/
namespace Verif.Img

/-! ### Numbers -/

theorem dec_cons (n : Nat) : ∃ d t, dec n = d :: t ∧ 48 ≤ d ∧ d ≤ 57 := by
  induction n using Nat.strongRecOn with
  | _ n ih =>
    unfold dec
    split
    · exact ⟨48 + n, [], rfl, by omega, by omega⟩
    · obtain ⟨d, t, h, h1, h2⟩ := ih (n / 10) (by omega)
      exact ⟨d, t ++ [48 + n % 10], by rw [h]; rfl, h1, h2⟩

theorem digits_dec (n : Nat) : n < 2 ^ 32 → ∀ r, digits 0 (dec n ++ r) = digits n r := by
  induction n using Nat.strongRecOn with
  | _ n ih =>
    intro h r
    unfold dec
    split
    · rename_i h10
      rw [List.cons_append, List.nil_append, digits, if_pos (by simp [isDig]; omega)]
      congr 1
      omega
    · rw [List.append_assoc, ih (n / 10) (by omega) (by omega), List.cons_append, List.nil_append, digits,
        if_pos (by simp [isDig]; omega)]
      congr 1
      omega

theorem number_dec (n : Nat) : n < 2 ^ 32 → ∀ r, number 0 (dec n ++ r) = number n r := by
  have w : ∀ k < 10, ws3 (48 + k) = false := by decide
  induction n using Nat.strongRecOn with
  | _ n ih =>
    intro h r
    unfold dec
    split
    · rename_i h10
      rw [List.cons_append, List.nil_append, number, w n h10, if_neg (by simp)]
      have e : (0 * 10 + (48 + n) + 2 ^ 32 - 48) % 2 ^ 32 = n := by omega
      rw [e]
    · rw [List.append_assoc, ih (n / 10) (by omega) (by omega), List.cons_append, List.nil_append, number,
        w _ (Nat.mod_lt _ (by omega)), if_neg (by simp)]
      have e : (n / 10 * 10 + (48 + n % 10) + 2 ^ 32 - 48) % 2 ^ 32 = n := by omega
      rw [e]

theorem fmtD_small {n : Nat} (h : n < 2 ^ 31) : fmtD n = dec n := if_pos h

theorem digits_stop (v c : Nat) (r : List Nat) (h : isDig c = false) : digits v (c :: r) = (v, c :: r) := by
  rw [digits, h, if_neg (by simp)]

theorem skipWs_dec (n : Nat) (r : List Nat) : skipWs false (dec n ++ r) = dec n ++ r := by
  obtain ⟨d, t, h, h1, h2⟩ := dec_cons n
  rw [h, List.cons_append, skipWs, if_neg (by omega), if_neg (by simp [ws4]; omega)]

/-- One number of a PNM header. -/
theorem readUint_dec {n c : Nat} (hn : n < 2 ^ 32) (hc : isDig c = false) (r : List Nat) :
    readUint (32 :: (dec n ++ c :: r)) = (n, c :: r) := by
  unfold readUint
  rw [skipWs, if_neg (by omega), if_pos (by decide), skipWs_dec, digits_dec n hn, digits_stop _ _ _ hc]

theorem eat_dec (n : Nat) (r : List Nat) : eat .test (dec n ++ r) = some (dec n ++ r) := by
  obtain ⟨d, t, h, h1, h2⟩ := dec_cons n
  rw [h, List.cons_append, eat, if_neg (by simp [ws3]; omega)]

theorem eat_sp_dec (n : Nat) (r : List Nat) : eat .test (32 :: (dec n ++ r)) = some (dec n ++ r) := by
  obtain ⟨d, t, h, h1, h2⟩ := dec_cons n
  rw [eat, if_pos (by decide), h, List.cons_append, eat, if_neg (by omega), if_neg (by simp [ws3]; omega)]

theorem field_dec {n c : Nat} (hn : n < 2 ^ 32) (hc : ws3 c = true) (r : List Nat) : field (dec n ++ c :: r) = .ok (n, r) := by
  unfold field
  rw [eat_dec]
  simp only [number_dec n hn, number, hc, if_true]

theorem field_sp_dec {n c : Nat} (hn : n < 2 ^ 32) (hc : ws3 c = true) (r : List Nat) : field (32 :: (dec n ++ c :: r)) = .ok (n, r) := by
  unfold field
  rw [eat_sp_dec]
  simp only [number_dec n hn, number, hc, if_true]

theorem bdLoop_max {d : Nat} (h1 : 1 ≤ d) (h2 : d ≤ 16) : bdLoop (2 ^ d - 1) 17 1 = d := by
  have : ∀ d : Fin 17, 1 ≤ d.1 → bdLoop (2 ^ d.1 - 1) 17 1 = d.1 := by decide +kernel
  exact this ⟨d, by omega⟩ h1

theorem log2_max {d : Nat} (h1 : 1 ≤ d) (h2 : d ≤ 16) : Nat.log2 (2 ^ d - 1) + 1 = d := by
  have : ∀ d : Fin 17, 1 ≤ d.1 → Nat.log2 (2 ^ d.1 - 1) + 1 = d.1 := by decide +kernel
  exact this ⟨d, by omega⟩ h1

theorem pow16 {d : Nat} (h2 : d ≤ 16) : 2 ^ d ≤ 65536 := Nat.pow_le_pow_right (n := 2) (by omega) h2

/-! ### Lists -/

theorem mapM_map_some {α β : Type} (f : α → Option β) (g : α → β) : ∀ l : List α, (∀ a ∈ l, f a = some (g a)) → l.mapM f = some (l.map g)
  | [], _ => rfl
  | a :: l, h => by
    rw [List.mapM_cons, h a List.mem_cons_self, mapM_map_some f g l fun b hb => h b (List.mem_cons_of_mem _ hb)]
    rfl

theorem mapM_range_get {α : Type} (f : Nat → Option α) (r : List α) (h : ∀ x < r.length, f x = r[x]?) :
    (List.range r.length).mapM f = some r := by
  cases r with
  | nil => rfl
  | cons a r =>
    rw [mapM_map_some f (fun x => ((a :: r)[x]?).getD a) _ fun x hx => by
      rw [h x (List.mem_range.1 hx), List.getElem?_eq_getElem (List.mem_range.1 hx)]; rfl]
    congr 1
    refine List.ext_getElem (by simp) fun i h1 h2 => ?_
    simp at h1 ⊢
    rw [List.getElem?_eq_getElem (by simp; omega)]
    rfl

section Flat
variable {α β : Type}

theorem flatMap_get {l : List β} {g : β → List α} {k : Nat} (hg : ∀ b ∈ l, (g b).length = k) : ∀ {i j : Nat} (hi : i < l.length), j < k →
    (l.flatMap g)[i * k + j]? = (g l[i])[j]? := by
  induction l with
  | nil => intro i j hi; simp at hi
  | cons b l ih =>
    intro i j hi hj
    have hb := hg b List.mem_cons_self
    rw [List.flatMap_cons]
    cases i with
    | zero => rw [List.getElem?_append_left (by rw [hb]; omega)]; simp
    | succ i =>
      have e : (i + 1) * k + j = k + (i * k + j) := by rw [Nat.succ_mul]; omega
      rw [List.getElem?_append_right (by rw [hb, e]; omega), hb, e, Nat.add_sub_cancel_left,
        ih (fun c hc => hg c (List.mem_cons_of_mem _ hc)) (by simpa using hi) hj]
      rfl

theorem flatMap_len {l : List β} {g : β → List α} {k : Nat} (hg : ∀ b ∈ l, (g b).length = k) : (l.flatMap g).length = l.length * k := by
  induction l with
  | nil => simp
  | cons b l ih =>
    rw [List.flatMap_cons, List.length_append, hg b List.mem_cons_self, ih fun c hc => hg c (List.mem_cons_of_mem _ hc), List.length_cons,
      Nat.succ_mul]
    omega

theorem flatMap_piece {l : List β} {g : β → List α} {k : Nat} (hg : ∀ b ∈ l, (g b).length = k) : ∀ {i : Nat} (hi : i < l.length) (post : List α),
    ((l.flatMap g ++ post).drop (i * k)).take k = g l[i] := by
  induction l with
  | nil => intro i hi; simp at hi
  | cons b l ih =>
    intro i hi post
    have hb := hg b List.mem_cons_self
    rw [List.flatMap_cons, List.append_assoc]
    cases i with
    | zero =>
      rw [Nat.zero_mul, List.drop_zero, List.take_left' hb]; rfl
    | succ i =>
      rw [Nat.succ_mul, Nat.add_comm, ← List.drop_drop, List.drop_left' hb,
        ih (fun c hc => hg c (List.mem_cons_of_mem _ hc)) (by simpa using hi)]
      rfl
end Flat

/-! ### Samples -/

/-- A sample in the file of a component. -/
def enc (k : Kind) (bpp : Nat) (off : Int) (v : Int) : List Nat :=
  if bpp = 1 then [byte (v + off)] else if k = .pgx then [byte v, byte (v / 256)] else [byte ((v + off) / 256), byte (v + off)]

theorem enc_len {k : Kind} {bpp : Nat} {off : Int} (h : bpp = 1 ∨ bpp = 2) (v : Int) : (enc k bpp off v).length = bpp := by
  unfold enc
  rcases h with rfl | rfl
  · rfl
  · rw [if_neg (by omega)]; split <;> rfl

theorem rowBytes_eq {k : Kind} {bpp : Nat} {off : Int} (h : bpp = 1 ∨ bpp = 2) (row : List Int) :
    rowBytes k bpp off row = some (row.flatMap (enc k bpp off)) := by
  unfold rowBytes
  rcases h with rfl | rfl
  · rw [if_pos rfl]
    congr 1
    unfold packU8
    have : enc k 1 off = fun v => [byte (v + off)] := by funext v; rw [enc, if_pos rfl]
    rw [this, List.flatMap_def]
    induction row with
    | nil => rfl
    | cons a l ih => simp [ih]
  · rw [if_neg (by omega), if_pos rfl]
    congr 1
    by_cases hk : k = .pgx
    · rw [if_pos hk]
      have : enc k 2 off = fun v => [byte v, byte (v / 256)] := by funext v; rw [enc, if_neg (by omega), if_pos hk]
      rw [this]; rfl
    · rw [if_neg hk]
      have : enc k 2 off = fun v => [byte ((v + off) / 256), byte (v + off)] := by funext v; rw [enc, if_neg (by omega), if_neg hk]
      rw [this]; rfl

/-- The bytes behind the header. -/
def body (k : Kind) (bpp : Nat) (off : Int) (rows : List (List Int)) : List Nat := rows.flatMap fun r => r.flatMap (enc k bpp off)

theorem compFile_eq {k : Kind} {bpp : Nat} {off : Int} (h : bpp = 1 ∨ bpp = 2) (C : Plane) {hd : List Nat} (hh : compHeader k C = some hd) :
    compFile k bpp off C = some (hd ++ body k bpp off C.rows) := by
  unfold compFile
  rw [hh, Option.bind_some, mapM_map_some _ (fun r => r.flatMap (enc k bpp off)) _ fun r _ => rowBytes_eq h r, Option.map_some,
    body, List.flatMap_def]

/-- Samples read big-endian. -/
theorem be_enc {k : Kind} {bpp : Nat} {off v : Int} (hk : k ≠ .pgx) (h : bpp = 1 ∨ bpp = 2) (h0 : 0 ≤ v + off)
    (h1 : v + off < if bpp = 1 then 256 else 65536) {raw : List Nat} {i : Nat} (hr : ∀ j < bpp, raw[i + j]? = (enc k bpp off v)[j]?) :
    be bpp raw i = some (v + off) := by
  unfold be
  rcases h with rfl | rfl
  · have := hr 0 (by omega)
    rw [Nat.add_zero] at this
    rw [if_pos rfl, this, enc, if_pos rfl]
    simp only [if_true] at h1
    simp only [List.getElem?_cons_zero, Option.map_some, byte, Int.ofNat_eq_natCast]
    congr 1
    omega
  · have a0 := hr 0 (by omega)
    have a1 := hr 1 (by omega)
    rw [Nat.add_zero] at a0
    rw [if_neg (by omega), a0, a1, enc, if_neg (by omega), if_neg hk]
    simp only [if_neg (show ¬ (2 : Nat) = 1 by omega)] at h1
    simp only [List.getElem?_cons_zero, List.getElem?_cons_succ, Option.map_some, Option.bind_some, byte]
    congr 1
    omega

/-- Samples of PGX files. -/
theorem pgx_enc {bpp : Nat} {v : Int} {C : Pgx} (hb : bpp = bpsOf C.depth) (hbig : C.big = false)
    (hv : if C.signed then (if bpp = 1 then -128 ≤ v ∧ v < 128 else -32768 ≤ v ∧ v < 32768)
      else (if bpp = 1 then 0 ≤ v ∧ v < 256 else 0 ≤ v ∧ v < 65536))
    {raw : List Nat} {i : Nat} (hr : ∀ j < bpp, raw[i + j]? = (enc .pgx bpp 0 v)[j]?) :
    pgxSample C raw i = some v := by
  unfold pgxSample
  rw [← hb]
  have h : bpp = 1 ∨ bpp = 2 := by rw [hb]; unfold bpsOf; split <;> simp
  rcases h with h | h
  · rw [h] at hr hv ⊢
    have a0 := hr 0 (by omega)
    rw [Nat.add_zero] at a0
    rw [if_pos rfl, a0, enc, if_pos rfl]
    simp only [List.getElem?_cons_zero, byte, if_true] at hv ⊢
    cases hs : C.signed
    · simp [hs] at hv ⊢; omega
    · simp [hs] at hv ⊢; split <;> omega
  · rw [h] at hr hv ⊢
    have a0 := hr 0 (by omega)
    have a1 := hr 1 (by omega)
    rw [Nat.add_zero] at a0
    rw [if_neg (by omega), a0, a1, enc, if_neg (by omega), if_pos rfl]
    simp only [List.getElem?_cons_zero, List.getElem?_cons_succ, Option.map_some, Option.bind_some, byte,
      if_neg (show ¬ (2 : Nat) = 1 by omega), hbig] at hv ⊢
    congr 1
    cases hs : C.signed
    · simp [hs] at hv ⊢; omega
    · simp [hs] at hv ⊢; split <;> omega

/-- The other reader takes samples the same way. -/
theorem sampleB_pgx (C : Pgx) {bps : Nat} (hb : bps = bpsOf C.depth) (raw : List Nat) (i : Nat) :
    sampleB bps C.signed C.big raw i = pgxSample C raw i := by
  unfold sampleB pgxSample
  rw [hb]

theorem sampleB_be (bps : Nat) (raw : List Nat) (i : Nat) : sampleB bps false true raw i = be bps raw i := by
  unfold sampleB be
  split
  · cases raw[i]? <;> simp
  · cases raw[i]? <;> cases raw[i + 1]? <;> simp

/-! ### Specification: valid components -/

/-- A component of at most 16 bits with as many rows and columns as it says and samples in its range. -/
structure Plane.Valid (C : Plane) : Prop where
  depth : 1 ≤ C.depth ∧ C.depth ≤ 16
  width : C.width < 2 ^ 31
  height : C.height < 2 ^ 31
  rows : C.rows.length = C.height
  cols : ∀ r ∈ C.rows, r.length = C.width
  range : ∀ r ∈ C.rows, ∀ v ∈ r, if C.signed then -2 ^ (C.depth - 1) ≤ v ∧ v < 2 ^ (C.depth - 1) else 0 ≤ v ∧ v < 2 ^ C.depth

theorem bytesPer_bps {d : Nat} (h1 : 1 ≤ d) (h2 : d ≤ 16) : bytesPer d = bpsOf d := by
  unfold bytesPer bpsOf; split <;> omega

theorem bpsOf_two (d : Nat) : bpsOf d = 1 ∨ bpsOf d = 2 := by unfold bpsOf; split <;> simp

/-- A row of pixels: each sample is found at its place. -/
theorem row_gen {nc b : Nat} {px : List (List Int)} (hp : ∀ p ∈ px, p.length = nc) {e : Int → List Nat} (he : ∀ v, (e v).length = b)
    {S : List Nat → Nat → Option Int} {g : Int → Int}
    (hS : ∀ p ∈ px, ∀ v ∈ p, ∀ raw i, (∀ j < b, raw[i + j]? = (e v)[j]?) → S raw i = some (g v)) :
    ((List.range nc).mapM fun c => (List.range px.length).mapM fun x => S (px.flatMap fun p => p.flatMap e) ((x * nc + c) * b))
      = some ((List.range nc).map fun c => px.map fun p => g (p.getD c 0)) := by
  refine mapM_map_some _ _ _ fun c hc => ?_
  have hc := List.mem_range.1 hc
  have hl : (px.map fun p => g (p.getD c 0)).length = px.length := List.length_map _
  rw [← hl]
  refine mapM_range_get _ _ fun x hx => ?_
  rw [hl] at hx
  have hmem : px[x] ∈ px := List.getElem_mem hx
  have hcx : c < (px[x]).length := by rw [hp _ hmem]; exact hc
  rw [List.getElem?_map, List.getElem?_eq_getElem hx, Option.map_some, List.getD_eq_getElem?_getD, List.getElem?_eq_getElem hcx, Option.getD_some]
  refine hS _ hmem _ (List.getElem_mem hcx) _ _ fun j hj => ?_
  have hlen : ∀ p ∈ px, (p.flatMap e).length = nc * b := fun p h => by rw [flatMap_len fun v _ => he v, hp p h]
  have hlt : c * b + j < nc * b := by
    have := Nat.mul_le_mul_right b (show c + 1 ≤ nc from hc)
    rw [Nat.succ_mul] at this
    omega
  have e1 : (x * nc + c) * b + j = x * (nc * b) + (c * b + j) := by rw [Nat.add_mul, Nat.mul_assoc]; omega
  rw [e1, flatMap_get hlen hx hlt, flatMap_get (fun v _ => he v) hcx hj]

/-- Bytes of rows of pixels. -/
def bodyPx (e : Int → List Nat) (rows : List (List (List Int))) : List Nat := rows.flatMap fun px => px.flatMap fun p => p.flatMap e

theorem body_px (k : Kind) (bpp : Nat) (off : Int) (rows : List (List Int)) :
    body k bpp off rows = bodyPx (enc k bpp off) (rows.map fun r => r.map fun v => [v]) := by
  unfold body bodyPx
  rw [List.flatMap_map]
  congr 1
  funext r
  rw [List.flatMap_map]
  congr 1
  funext v
  simp

theorem pxRow_len {nc b w : Nat} {px : List (List Int)} (hw : px.length = w) (hp : ∀ p ∈ px, p.length = nc) {e : Int → List Nat}
    (he : ∀ v, (e v).length = b) : (px.flatMap fun p => p.flatMap e).length = w * nc * b := by
  rw [flatMap_len (k := nc * b) fun p h => by rw [flatMap_len fun v _ => he v, hp p h], hw, Nat.mul_assoc]

/-- Rows of an open PNM file. -/
theorem pnmRow_eq {p : Pnm} {rows : List (List (List Int))} {k : Kind} {off : Int} (hk : k ≠ .pgx)
    (hd : ∃ post, p.data = bodyPx (enc k (bpsOf p.depth) off) rows ++ post)
    (hw : ∀ r ∈ rows, r.length = p.width) (hc : ∀ r ∈ rows, ∀ q ∈ r, q.length = p.nc)
    (hv : ∀ r ∈ rows, ∀ q ∈ r, ∀ v ∈ q, 0 ≤ v + off ∧ v + off < if bpsOf p.depth = 1 then 256 else 65536)
    {y : Nat} (hy : y < rows.length) : pnmRow p y = .ok ((List.range p.nc).map fun c => rows[y].map fun q => q.getD c 0 + off) := by
  obtain ⟨post, hd⟩ := hd
  have hb := bpsOf_two p.depth
  have hrow : ∀ r ∈ rows, (r.flatMap fun q => q.flatMap (enc k (bpsOf p.depth) off)).length = p.width * p.nc * bpsOf p.depth := fun r hr =>
    pxRow_len (hw r hr) (hc r hr) fun v => enc_len hb v
  have hmem : rows[y] ∈ rows := List.getElem_mem _
  have hraw : (p.data.drop (y * (p.width * p.nc * bpsOf p.depth))).take (p.width * p.nc * bpsOf p.depth)
      = rows[y].flatMap fun q => q.flatMap (enc k (bpsOf p.depth) off) := by
    rw [hd]
    exact flatMap_piece hrow hy post
  unfold pnmRow
  simp only
  rw [hraw, if_neg (by rw [hrow _ hmem]; simp), ← hw _ hmem,
    row_gen (hc _ hmem) (fun v => enc_len hb v) (S := be (bpsOf p.depth)) (g := fun v => v + off) fun q hq v hvq raw i hr =>
      be_enc hk hb (hv _ hmem q hq v hvq).1 (hv _ hmem q hq v hvq).2 hr]

/-- The samples found by the other reader. -/
theorem samplesOf_eq {h : Head} {rows : List (List (List Int))} {e : Int → List Nat} {g : Int → Int} (raster : List Nat)
    (hd : ∃ post, raster = bodyPx e rows ++ post) (hb : (h.depth + 7) / 8 = 1 ∨ (h.depth + 7) / 8 = 2) (he : ∀ v, (e v).length = (h.depth + 7) / 8)
    (hh : rows.length = h.height) (hline : h.nc * ((h.depth + 7) / 8) * h.width < 2 ^ 32)
    (hw : ∀ r ∈ rows, r.length = h.width) (hc : ∀ r ∈ rows, ∀ q ∈ r, q.length = h.nc)
    (hS : ∀ r ∈ rows, ∀ q ∈ r, ∀ v ∈ q, ∀ raw i, (∀ j < (h.depth + 7) / 8, raw[i + j]? = (e v)[j]?) →
      sampleB ((h.depth + 7) / 8) h.signed h.big raw i = some (g v)) :
    samplesOf h raster = .ok ((List.range h.nc).map fun c => (rows.map fun r => r.map fun q => g (q.getD c 0)).flatten) := by
  obtain ⟨post, rfl⟩ := hd
  unfold samplesOf
  simp only
  generalize hB : (h.depth + 7) / 8 = b at *
  have hrow : ∀ r ∈ rows, (r.flatMap fun q => q.flatMap e).length = h.nc * b * h.width := fun r hr => by
    rw [pxRow_len (hw r hr) (hc r hr) he, Nat.mul_assoc, Nat.mul_comm]
  rw [if_neg (by omega), if_neg (by
    rw [List.length_append, bodyPx, flatMap_len hrow, hh]; omega), if_neg (by omega)]
  have hall : ((List.range h.nc).mapM fun c => (List.range h.height).mapM fun y => (List.range h.width).mapM fun x =>
        sampleB b h.signed h.big (((bodyPx e rows ++ post).drop (y * (h.nc * b * h.width))).take (h.nc * b * h.width)) ((x * h.nc + c) * b))
      = some ((List.range h.nc).map fun c => rows.map fun r => r.map fun q => g (q.getD c 0)) := by
    refine mapM_map_some _ _ _ fun c hcn => ?_
    have hl : (rows.map fun r => r.map fun q => g (q.getD c 0)).length = h.height := by rw [List.length_map, hh]
    rw [← hl]
    refine mapM_range_get _ _ fun y hy => ?_
    rw [List.length_map] at hy
    have hmem : rows[y] ∈ rows := List.getElem_mem hy
    rw [show ((bodyPx e rows ++ post).drop (y * (h.nc * b * h.width))).take (h.nc * b * h.width) = rows[y].flatMap fun q => q.flatMap e from
      flatMap_piece hrow hy post]
    have := row_gen (hc _ hmem) he (S := sampleB b h.signed h.big) (g := g) fun q hq v hv raw i hr => hS _ hmem q hq v hv raw i hr
    rw [hw _ hmem] at this
    -- one of the components
    have h2 : ∀ {β γ : Type} (f : β → Option γ) (k : β → γ) (l : List β), l.mapM f = some (l.map k) → ∀ a ∈ l, f a = some (k a) := by
      intro β γ f k l
      induction l with
      | nil => intro _ a ha; cases ha
      | cons x l ih =>
        intro hm a ha
        rw [List.mapM_cons] at hm
        cases hx : f x with
        | none => rw [hx] at hm; simp at hm
        | some v =>
          cases hrest : l.mapM f with
          | none => rw [hx, hrest] at hm; simp at hm
          | some vs =>
            rw [hx, hrest] at hm
            simp at hm
            rcases List.mem_cons.1 ha with h | h
            · rw [h, hx, hm.1]
            · exact ih (by rw [hrest, hm.2]) a h
    rw [h2 _ _ _ this c hcn, List.getElem?_map, List.getElem?_eq_getElem hy]
    rfl
  rw [hall]
  simp only [List.map_map]
  rfl

/-- Rows of an open PGX file. -/
theorem pgxRow1_eq {C : Pgx} {rows : List (List Int)} {xr yr : Nat} (hbig : C.big = false)
    (hd : ∃ post, C.data = body .pgx (bpsOf C.depth) 0 rows ++ post) (hw : ∀ r ∈ rows, r.length = C.width)
    (hv : ∀ r ∈ rows, ∀ v ∈ r, if C.signed then (if bpsOf C.depth = 1 then -128 ≤ v ∧ v < 128 else -32768 ≤ v ∧ v < 32768)
      else (if bpsOf C.depth = 1 then 0 ≤ v ∧ v < 256 else 0 ≤ v ∧ v < 65536))
    (hyr : 0 < yr) {y : Nat} (hy : y / yr < rows.length) : pgxRow1 (C, xr, yr) y = .ok (rows[y / yr]) := by
  obtain ⟨post, hd⟩ := hd
  have hb := bpsOf_two C.depth
  have hrow : ∀ r ∈ rows, (r.flatMap (enc .pgx (bpsOf C.depth) 0)).length = C.width * bpsOf C.depth := fun r hr => by
    rw [flatMap_len fun v _ => enc_len hb v, hw r hr]
  have hmem : rows[y / yr] ∈ rows := List.getElem_mem _
  unfold pgxRow1
  simp only
  rw [if_neg (by omega), hd, show ((body .pgx (bpsOf C.depth) 0 rows ++ post).drop (y / yr * (C.width * bpsOf C.depth))).take (C.width * bpsOf C.depth)
    = rows[y / yr].flatMap (enc .pgx (bpsOf C.depth) 0) from flatMap_piece hrow hy post, if_neg (by rw [hrow _ hmem]; simp)]
  have : (List.range C.width).mapM (fun x => pgxSample C (rows[y / yr].flatMap (enc .pgx (bpsOf C.depth) 0)) (x * bpsOf C.depth)) = some rows[y / yr] := by
    rw [← hw _ hmem]
    refine mapM_range_get _ _ fun x hx => ?_
    rw [List.getElem?_eq_getElem hx]
    exact pgx_enc rfl hbig (hv _ hmem _ (List.getElem_mem hx)) fun j hj => flatMap_get (fun v _ => enc_len hb v) hx hj
  rw [this]

/-- Header of a PNM file. -/
theorem pnmOpen_eq {w h d m : Nat} (hw : w < 2 ^ 31) (hh : h < 2 ^ 31) (h1 : 1 ≤ d) (h2 : d ≤ 16) (hm : m = 53 ∨ m = 54) (data : List Nat) :
    pnmOpen ([80, m, 32] ++ fmtD w ++ [32] ++ fmtD h ++ [32] ++ fmtD (2 ^ d - 1) ++ [10] ++ data)
      = .ok ⟨w, h, if m = 53 then 1 else 3, d, data⟩ := by
  have hp := pow16 h2
  have hp1 : 2 ≤ 2 ^ d := Nat.pow_le_pow_right (n := 2) (by omega) h1
  rw [fmtD_small hw, fmtD_small hh, fmtD_small (by omega)]
  have e : [80, m, 32] ++ dec w ++ [32] ++ dec h ++ [32] ++ dec (2 ^ d - 1) ++ [10] ++ data
      = 80 :: m :: 32 :: (dec w ++ 32 :: (dec h ++ 32 :: (dec (2 ^ d - 1) ++ 10 :: data))) := by simp
  rw [e]
  unfold pnmOpen
  simp only [if_pos hm]
  have a1 := readUint_dec (n := w) (c := 32) (by omega) (by decide) (dec h ++ 32 :: (dec (2 ^ d - 1) ++ 10 :: data))
  have a2 := readUint_dec (n := h) (c := 32) (by omega) (by decide) (dec (2 ^ d - 1) ++ 10 :: data)
  have a3 := readUint_dec (n := 2 ^ d - 1) (c := 10) (by omega) (by decide) data
  rw [a1]
  simp only
  rw [a2]
  simp only
  rw [a3]
  simp only
  rw [if_neg (by decide), if_neg (by omega), bdLoop_max h1 h2]

/-- Header of a PGX file. -/
theorem pgxHeader_eq {w h d : Nat} (s : Bool) (hw : w < 2 ^ 31) (hh : h < 2 ^ 31) (h2 : d ≤ 16) (data : List Nat) :
    pgxHeader ([80, 71, 32, 76, 77, 32, if s then 45 else 43, 32] ++ fmtD d ++ [32] ++ fmtD w ++ [32] ++ fmtD h ++ [10] ++ data)
      = some ⟨w, h, d, s, false, data⟩ := by
  rw [fmtD_small hw, fmtD_small hh, fmtD_small (by omega)]
  generalize hs : (if s = true then 45 else 43 : Nat) = sg
  have hsg : (sg = 43 ∨ sg = 45) ∧ isDig sg = false ∧ decide (sg = 45) = s := by
    cases s <;> simp at hs <;> subst hs <;> decide
  have e : [80, 71, 32, 76, 77, 32, sg, 32] ++ dec d ++ [32] ++ dec w ++ [32] ++ dec h ++ [10] ++ data
      = 80 :: 71 :: 32 :: 76 :: 77 :: 32 :: sg :: 32 :: (dec d ++ 32 :: (dec w ++ 32 :: (dec h ++ 10 :: data))) := by simp
  rw [e]
  have hdrop : ∀ n r, dropWs3 (32 :: (dec n ++ r)) = dec n ++ r := by
    intro n r
    obtain ⟨x, t, hx, x1, x2⟩ := dec_cons n
    rw [dropWs3, if_pos (by decide), hx, List.cons_append, dropWs3, if_neg (by simp [ws3]; omega)]
  have hnum : ∀ {n c : Nat} (r : List Nat), n < 2 ^ 32 → isDig c = false → digits 0 (dec n ++ c :: r) = (n, c :: r) := by
    intro n c r hn hc
    rw [digits_dec n hn, digits_stop _ _ _ hc]
  obtain ⟨x, t, hx, x1, x2⟩ := dec_cons d
  unfold pgxHeader
  have b1 : skipTo (fun c => decide (c = 77 ∨ c = 76)) (32 :: 76 :: 77 :: 32 :: sg :: 32 :: (dec d ++ 32 :: (dec w ++ 32 :: (dec h ++ 10 :: data))))
      = some (76, 77 :: 32 :: sg :: 32 :: (dec d ++ 32 :: (dec w ++ 32 :: (dec h ++ 10 :: data)))) := by
    simp [skipTo]
  have b2 : skipTo (fun c => decide (c = 43 ∨ c = 45) || isDig c) (32 :: sg :: 32 :: (dec d ++ 32 :: (dec w ++ 32 :: (dec h ++ 10 :: data))))
      = some (sg, 32 :: (dec d ++ 32 :: (dec w ++ 32 :: (dec h ++ 10 :: data)))) := by
    rw [skipTo, if_neg (by decide), skipTo, if_pos (by simp; left; exact hsg.1)]
  have b3 : skipTo isDig (32 :: (dec d ++ 32 :: (dec w ++ 32 :: (dec h ++ 10 :: data))))
      = some (x, t ++ 32 :: (dec w ++ 32 :: (dec h ++ 10 :: data))) := by
    rw [hx, skipTo, if_neg (by decide), List.cons_append, skipTo, if_pos (by simp [isDig]; omega)]
  simp only [b1, Option.bind_some, List.drop_succ_cons, List.drop_zero, b2, hsg.2.1, if_neg (show ¬ (false = true) by simp), b3]
  rw [show x :: (t ++ 32 :: (dec w ++ 32 :: (dec h ++ 10 :: data))) = dec d ++ 32 :: (dec w ++ 32 :: (dec h ++ 10 :: data)) by rw [hx]; rfl]
  rw [hnum _ (by omega) (by decide)]
  simp only
  rw [hdrop, hnum _ (by omega) (by decide)]
  simp only
  rw [hdrop, hnum _ (by omega) (by decide)]
  simp only
  rw [if_pos (by decide), hsg.2.2, Nat.mod_eq_of_lt (by omega)]
  rfl

/-! ### The other reader -/

theorem readHead_pnm {w h d m : Nat} (hw : w < 2 ^ 31) (hh : h < 2 ^ 31) (h1 : 1 ≤ d) (h2 : d ≤ 16) (hm : m = 53 ∨ m = 54) (data : List Nat) :
    readHead ([80, m, 32] ++ fmtD w ++ [32] ++ fmtD h ++ [32] ++ fmtD (2 ^ d - 1) ++ [10] ++ data)
      = .ok ⟨w, h, d, if m = 53 then 1 else 3, false, true, data⟩ := by
  have hp := pow16 h2
  have hp1 : 2 ≤ 2 ^ d := Nat.pow_le_pow_right (n := 2) (by omega) h1
  rw [fmtD_small hw, fmtD_small hh, fmtD_small (by omega)]
  have e : [80, m, 32] ++ dec w ++ [32] ++ dec h ++ [32] ++ dec (2 ^ d - 1) ++ [10] ++ data
      = 80 :: m :: 32 :: (dec w ++ 32 :: (dec h ++ 32 :: (dec (2 ^ d - 1) ++ 10 :: data))) := by simp
  rw [e]
  unfold readHead
  simp only [if_pos hm]
  rw [field_sp_dec (by omega) (by decide)]
  simp only [Out.bind]
  rw [field_dec (by omega) (by decide)]
  simp only
  rw [field_dec (by omega) (by decide)]
  simp only
  rw [if_neg (by omega), log2_max h1 h2]

theorem readHead_pgx {w h d : Nat} (s : Bool) (hw : w < 2 ^ 31) (hh : h < 2 ^ 31) (h2 : d ≤ 16) (data : List Nat) :
    readHead ([80, 71, 32, 76, 77, 32, if s then 45 else 43, 32] ++ fmtD d ++ [32] ++ fmtD w ++ [32] ++ fmtD h ++ [10] ++ data)
      = .ok ⟨w, h, d, 1, s, false, data⟩ := by
  rw [fmtD_small hw, fmtD_small hh, fmtD_small (by omega)]
  generalize hs : (if s = true then 45 else 43 : Nat) = sg
  have hsg : (sg = 43 ∨ sg = 45) ∧ isDig sg = false ∧ decide (sg = 45) = s := by
    cases s <;> simp at hs <;> subst hs <;> decide
  have e : [80, 71, 32, 76, 77, 32, sg, 32] ++ dec d ++ [32] ++ dec w ++ [32] ++ dec h ++ [10] ++ data
      = 80 :: 71 :: 32 :: 76 :: 77 :: 32 :: sg :: 32 :: (dec d ++ 32 :: (dec w ++ 32 :: (dec h ++ 10 :: data))) := by simp
  rw [e]
  obtain ⟨x, t, hx, x1, x2⟩ := dec_cons d
  have b1 : skipTo (fun c => decide (c = 77 ∨ c = 76)) (32 :: 76 :: 77 :: 32 :: sg :: 32 :: (dec d ++ 32 :: (dec w ++ 32 :: (dec h ++ 10 :: data))))
      = some (76, 77 :: 32 :: sg :: 32 :: (dec d ++ 32 :: (dec w ++ 32 :: (dec h ++ 10 :: data)))) := by
    simp [skipTo]
  have b2 : skipTo (fun c => decide (c = 43 ∨ c = 45) || isDig c) (32 :: sg :: 32 :: (dec d ++ 32 :: (dec w ++ 32 :: (dec h ++ 10 :: data))))
      = some (sg, 32 :: (dec d ++ 32 :: (dec w ++ 32 :: (dec h ++ 10 :: data)))) := by
    rw [skipTo, if_neg (by decide), skipTo, if_pos (by simp; left; exact hsg.1)]
  have b3 : skipTo isDig (32 :: (dec d ++ 32 :: (dec w ++ 32 :: (dec h ++ 10 :: data))))
      = some (x, t ++ 32 :: (dec w ++ 32 :: (dec h ++ 10 :: data))) := by
    rw [hx, skipTo, if_neg (by decide), List.cons_append, skipTo, if_pos (by simp [isDig]; omega)]
  have b4 : number (x - 48) (t ++ 32 :: (dec w ++ 32 :: (dec h ++ 10 :: data))) = some (d, dec w ++ 32 :: (dec h ++ 10 :: data)) := by
    have h0 := number_dec d (by omega) (32 :: (dec w ++ 32 :: (dec h ++ 10 :: data)))
    rw [hx, List.cons_append, number, if_neg (by simp [ws3]; omega)] at h0
    have e : (0 * 10 + x + 2 ^ 32 - 48) % 2 ^ 32 = x - 48 := by omega
    rw [e] at h0
    rw [h0, number, if_pos (by decide)]
  have b5 : pgxStart (32 :: 76 :: 77 :: 32 :: sg :: 32 :: (dec d ++ 32 :: (dec w ++ 32 :: (dec h ++ 10 :: data))))
      = .ok (d, s, false, dec w ++ 32 :: (dec h ++ 10 :: data)) := by
    unfold pgxStart
    rw [b1]
    simp only [List.drop_succ_cons, List.drop_zero]
    rw [b2]
    simp only [hsg.2.1, if_neg (show ¬ (false = true) by simp)]
    rw [b3]
    simp only
    rw [b4]
    simp only [hsg.2.2, Nat.mod_eq_of_lt (show d < 256 by omega)]
    rfl
  unfold readHead
  simp only [if_neg (show ¬ ((71 : Nat) = 53 ∨ (71 : Nat) = 54) by decide), if_true]
  rw [b5]
  simp only [Out.bind]
  rw [field_dec (by omega) (by decide)]
  simp only
  rw [field_dec (by omega) (by decide)]

theorem eat_len : ∀ (l : List Nat) (m : Eat) {r : List Nat}, eat m l = some r → r.length ≤ l.length
  | [], m, r, h => by cases m <;> simp [eat] at h <;> simp [← h]
  | c :: l, m, r, h => by
    cases m <;> simp only [eat] at h
    · split at h
      · have := eat_len l _ h; simp; omega
      · simp at h; simp [← h]
    · split at h
      · have := eat_len l _ h; simp; omega
      · split at h
        · have := eat_len l _ h; simp; omega
        · simp at h; simp [← h]
    · split at h <;> (have := eat_len l _ h; simp; omega)

/-- Samples are kept if the first byte is no white space. -/
theorem rasterOf_keep {file data : List Nat} (h : ∀ c, data.head? = some c → ws3 c = false) (hne : data ≠ []) : rasterOf file data = .ok data := by
  cases data with
  | nil => exact absurd rfl hne
  | cons c l =>
    unfold rasterOf
    rw [eat, h c rfl, if_neg (by simp)]

/-- Bytes are lost otherwise. -/
theorem rasterOf_lose {file data : List Nat} (h : ∃ c, data.head? = some c ∧ ws3 c = true) (h2 : 2 ≤ data.length) :
    rasterOf file data = .fail ∨ ∃ r, rasterOf file data = .ok r ∧ r.length < data.length := by
  obtain ⟨c, hc, hw⟩ := h
  cases data with
  | nil => simp at hc
  | cons c' l =>
    simp at hc
    subst hc
    unfold rasterOf
    rw [eat, if_pos hw]
    cases he : eat .behind l with
    | none => left; rfl
    | some r =>
      right
      have := eat_len l _ he
      cases r with
      | nil => exact ⟨_, rfl, by simp at h2 ⊢; omega⟩
      | cons a t => exact ⟨_, rfl, by simp at this ⊢; omega⟩

theorem samplesOf_short {h : Head} {raster : List Nat} (hl : h.nc * ((h.depth + 7) / 8) * h.width < 2 ^ 32)
    (hs : raster.length < h.height * (h.nc * ((h.depth + 7) / 8) * h.width)) : samplesOf h raster = .fail := by
  unfold samplesOf
  simp only
  rw [if_neg (by omega), if_pos hs]

end Verif.Img
