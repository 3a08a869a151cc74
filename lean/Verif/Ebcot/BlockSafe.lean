import Verif.Ebcot.BlockPass
import Verif.Ebcot.BlockDequant
import Verif.Ebcot.MqSafe
/-
Decoding a code-block from arbitrary bytes.
-/
namespace Verif.Ebcot

/-- A result is as it should be, or the decoder gave up with an exception, or the MQ registers have overflowed and the bytes have a carry. -/
def DSafe {α : Type} (nc : Prop) (r : Except DErr α) (P : α → Prop) : Prop :=
  (r = .error (.mq .overflow) ∧ ¬ nc) ∨ r = .error .throws ∨ ∃ v, r = .ok v ∧ P v

section
variable {α β : Type} {nc : Prop}

theorem DSafe.ok {v : α} {P : α → Prop} (h : P v) : DSafe nc (.ok v) P := Or.inr (Or.inr ⟨v, rfl, h⟩)

theorem DSafe.throws {P : α → Prop} : DSafe nc (.error .throws) P := Or.inr (Or.inl rfl)

theorem DSafe.bind {r : Except DErr α} {P : α → Prop} {f : α → Except DErr β} {Q : β → Prop} (h : DSafe nc r P) (hf : ∀ v, P v → DSafe nc (f v) Q) :
    DSafe nc (r.bind f) Q := by
  rcases h with ⟨rfl, h⟩ | rfl | ⟨v, rfl, h⟩
  · exact Or.inl ⟨rfl, h⟩
  · exact Or.inr (Or.inl rfl)
  · exact hf v h

theorem DSafe.map {r : Except DErr α} {P : α → Prop} {f : α → β} {Q : β → Prop} (h : DSafe nc r P) (hf : ∀ v, P v → Q (f v)) :
    DSafe nc (r.map f) Q := by
  rcases h with ⟨rfl, h⟩ | rfl | ⟨v, rfl, h⟩
  · exact Or.inl ⟨rfl, h⟩
  · exact Or.inr (Or.inl rfl)
  · exact DSafe.ok (hf v h)

theorem DSafe.mono {r : Except DErr α} {P Q : α → Prop} (h : DSafe nc r P) (hf : ∀ v, P v → Q v) : DSafe nc r Q := by
  rcases h with h | rfl | ⟨v, rfl, h⟩
  · exact Or.inl h
  · exact Or.inr (Or.inl rfl)
  · exact DSafe.ok (hf v h)

theorem each_safe {σ : Type} {f : α → σ → Except DErr σ} {P : σ → Prop} : ∀ (l : List α), (∀ x ∈ l, ∀ s, P s → DSafe nc (f x s) P) →
    ∀ s, P s → DSafe nc (each f l s) P := by
  intro l
  induction l with
  | nil => intro _ s hs; exact DSafe.ok hs
  | cons x l ih =>
    intro h s hs
    exact (h x (List.mem_cons_self ..) s hs).bind fun s' hs' => ih (fun y hy => h y (List.mem_cons_of_mem _ hy)) s' hs'

theorem shl_safe {v p : Nat} (hp : p < 32) : DSafe nc (shl v p) fun _ => True := by
  unfold shl
  rw [if_pos hp]
  exact DSafe.ok trivial

end

/-- The code-block keeps its size and its bytes are bytes. -/
structure BInv (w h o : Nat) (b : Blk) : Prop where
  w : b.w = w
  h : b.h = h
  o : b.orient = o
  byte : ∀ r c, b.st r c < 256

section
variable {nc : Prop} {w h o : Nat}

theorem getSt_safe {b : Blk} (hb : BInv w h o b) {r c : Nat} (hr : r ≤ h + 1) (hc : c ≤ w + 1) : DSafe nc (b.getSt r c) fun v => v < 256 := by
  have := le_rup8 h
  have := le_rup8 w
  unfold Blk.getSt
  rw [if_pos (show b.inSt r c by unfold Blk.inSt; rw [hb.h, hb.w]; omega)]
  exact DSafe.ok (hb.byte r c)

theorem getSmp_safe {b : Blk} (hb : BInv w h o b) {r c : Nat} (hr : r < h) (hc : c < w) : DSafe nc (b.getSmp r c) fun _ => True := by
  have := le_rup8 h
  have := le_rup8 w
  unfold Blk.getSmp
  rw [if_pos (show b.inSmp r c by unfold Blk.inSmp; rw [hb.h, hb.w]; omega)]
  exact DSafe.ok trivial

theorem getCtx_safe {b : Blk} (hb : BInv w h o b) {r c : Nat} (hr : r < h) (hc : c ≤ w + 1) : DSafe nc (b.getCtx (r / 4 + 1) c) fun _ => True := by
  have := rup8_div h
  have := le_rup8 w
  unfold Blk.getCtx
  rw [if_pos (show b.inCtx (r / 4 + 1) c by unfold Blk.inCtx; rw [hb.h, hb.w]; omega)]
  exact DSafe.ok trivial

theorem modSt_safe {b : Blk} (hb : BInv w h o b) {r c : Nat} {f : Nat → Nat} (hf : ∀ x, x < 256 → f x < 256) (hr : r ≤ h + 1) (hc : c ≤ w + 1) :
    DSafe nc (b.modSt r c f) (BInv w h o) := by
  have := le_rup8 h
  have := le_rup8 w
  unfold Blk.modSt
  rw [if_pos (show b.inSt r c by unfold Blk.inSt; rw [hb.h, hb.w]; omega)]
  refine DSafe.ok ⟨hb.w, hb.h, hb.o, fun r' c' => ?_⟩
  show upd b.st r c (f (b.st r c)) r' c' < 256
  unfold upd
  split_ifs
  · exact hf _ (hb.byte r c)
  · exact hb.byte r' c'

theorem orSmp_safe {b : Blk} (hb : BInv w h o b) {r c v : Nat} (hr : r < h) (hc : c < w) : DSafe nc (b.orSmp r c v) (BInv w h o) := by
  have := le_rup8 h
  have := le_rup8 w
  unfold Blk.orSmp
  rw [if_pos (show b.inSmp r c by unfold Blk.inSmp; rw [hb.h, hb.w]; omega)]
  exact DSafe.ok ⟨hb.w, hb.h, hb.o, hb.byte⟩

theorem broadcast_safe {b : Blk} (hb : BInv w h o b) {r c : Nat} (hr : r < h) (hc : c < w) : DSafe nc (broadcast b r c) (BInv w h o) := by
  obtain ⟨ctx', e, -⟩ := broadcast_ok (b := b) (j1 := r) (j2 := c) (by rw [hb.h]; exact hr) (by rw [hb.w]; exact hc)
  rw [e]
  exact DSafe.ok ⟨hb.w, hb.h, hb.o, hb.byte⟩

theorem zeroCtx_le (o h v d : Nat) : Std.zeroCtx o h v d ≤ 8 := by
  unfold Std.zeroCtx
  simp only
  split_ifs <;> norm_num

theorem labelSig_safe {b : Blk} (hb : BInv w h o b) (ho : o < 4) {r c : Nat} (hr : r < h) (hc : c < w) : DSafe nc (labelSig b r c) fun l => l ≤ 8 := by
  unfold labelSig
  refine (getCtx_safe hb hr (by omega)).bind fun word _ => ?_
  simp only
  have key : ∀ n, n < 512 → DSafe nc (sigLUT9 b.orient n) fun l => l ≤ 8 := fun n hn => by
    rw [sigLUT9_table ⟨b.orient, by rw [hb.o]; exact ho⟩ ⟨n, hn⟩]
    exact DSafe.ok (zeroCtx_le _ _ _ _)
  have h9 : word >>> (3 * (r % 4)) &&& 0x1FF < 512 := Nat.lt_succ_of_le Nat.and_le_right
  split_ifs
  · exact key _ (lt_of_le_of_lt Nat.and_le_left h9)
  · exact key _ h9

theorem signLUT_rows : ∀ i : Fin 256, ∃ l x, signLUT0[i.1]? = some l ∧ signLUT1[i.1]? = some x ∧ l < 19 := by
  intro i
  have : ∀ i : Fin 256, (signLUT0[i.1]?).isSome ∧ (signLUT1[i.1]?).isSome ∧ (signLUT0[i.1]?).getD 0 < 19 := by decide +kernel
  obtain ⟨h1, h2, h3⟩ := this i
  obtain ⟨l, hl⟩ := Option.isSome_iff_exists.1 h1
  obtain ⟨x, hx⟩ := Option.isSome_iff_exists.1 h2
  exact ⟨l, x, hl, hx, by rw [hl] at h3; exact h3⟩

theorem signIdx_safe {b : Blk} (hb : BInv w h o b) {r c : Nat} (hr : r < h) (hc : c < w) : DSafe nc (signIdx b r c) fun i => i < 256 := by
  have opt : ∀ {p : Prop} [Decidable p] (r' c' : Nat), (p → r' < h ∧ c' < w) → DSafe nc (if p then b.getSmp r' c' else .ok 0) fun _ => True := by
    intro p _ r' c' hp
    split_ifs with hp'
    · exact getSmp_safe hb (hp hp').1 (hp hp').2
    · exact DSafe.ok trivial
  unfold signIdx
  refine (getSt_safe hb (by omega) (by omega)).bind fun t _ => (getSt_safe hb (by omega) (by omega)).bind fun l _ =>
    (getSt_safe hb (by omega) (by omega)).bind fun rr _ => (getSt_safe hb (by omega) (by omega)).bind fun d _ =>
    (opt _ _ fun _ => by omega).bind fun ts _ => (opt _ _ fun _ => by omega).bind fun ls _ =>
    (opt _ _ fun hp => by rw [hb.w] at hp; omega).bind fun rs _ => (opt _ _ fun hp => by rw [hb.h] at hp; omega).bind fun ds _ => DSafe.ok ?_
  have one : ∀ x : Nat, x &&& 1 ≤ 1 := fun x => Nat.and_le_right
  have := one t; have := one l; have := one rr; have := one d
  have := one (ts >>> 31); have := one (ls >>> 31); have := one (rs >>> 31); have := one (ds >>> 31)
  omega

end

/-- The source of the symbols is in a segment. -/
def SymInv (raw : Bool) (buf : List Nat) (pos len : Nat) (m : Mq) : Prop :=
  CtxOk m.sigma m.mps ∧ if raw then RawInv buf pos len m else MqInv buf pos len m

section
variable {nc : Prop} {w h o : Nat} {raw : Bool} {buf : List Nat} {pos len : Nat}

theorem sym_safe (hlen : pos + len ≤ buf.length) (hby : ∀ b ∈ buf, b < 256) (hnc : nc → NoCarry buf pos len) {m : Mq} (hm : SymInv raw buf pos len m)
    {label : Nat} (hl : raw = true ∨ label < 19) : DSafe nc (sym raw buf m label) fun r => r.1 ≤ 1 ∧ SymInv raw buf pos len r.2 := by
  unfold sym
  cases raw
  · simp only [Bool.false_eq_true, if_false]
    have hm2 : MqInv buf pos len m := by have := hm.2; simpa using this
    rcases decode_safe hlen hby hm2 (hl.resolve_left (by simp)) with ⟨e, hn⟩ | ⟨v, e, h1, h2⟩
    · rw [e]; exact Or.inl ⟨rfl, fun x => hn (hnc x)⟩
    · rw [e]; exact DSafe.ok ⟨h1, h2.ctx, by simpa using h2⟩
  · simp only [if_true]
    have hm2 : RawInv buf pos len m := by have := hm.2; simpa using this
    obtain ⟨b, s', e, h1, h2, h3, h4⟩ := rawSymbol_safe hlen hm2
    rw [e]
    exact DSafe.ok ⟨h1, by rw [h3, h4]; exact hm.1, by simpa using h2⟩

variable (w h o raw buf pos len) in
/-- Block and source of symbols. -/
def PInv (s : Blk × Mq) : Prop := BInv w h o s.1 ∧ SymInv raw buf pos len s.2

variable (hlen : pos + len ≤ buf.length) (hby : ∀ b ∈ buf, b < 256) (hnc : nc → NoCarry buf pos len) (ho : o < 4)
include hlen hby hnc

theorem signDec_safe {r c : Nat} (hr : r < h) (hc : c < w) {s : Blk × Mq} (hs : PInv w h o raw buf pos len s) :
    DSafe nc (signDec raw buf r c s) (PInv w h o raw buf pos len) := by
  unfold signDec
  cases raw
  · simp only [Bool.false_eq_true, if_false]
    refine (signIdx_safe hs.1 hr hc).bind fun i hi => ?_
    have hidx : (if s.1.causal = true ∧ r % 4 = 3 then i &&& 0xDD else i) < 256 := by
      split_ifs
      · exact lt_of_le_of_lt Nat.and_le_left hi
      · exact hi
    obtain ⟨l, x, e1, e2, hl⟩ := signLUT_rows ⟨_, hidx⟩
    simp only at e1 e2
    rw [e1, e2]
    exact (sym_safe hlen hby hnc hs.2 (Or.inr hl)).bind fun q hq => (shl_safe (by norm_num)).bind fun v _ =>
      (orSmp_safe hs.1 hr hc).map fun b hb => ⟨hb, hq.2⟩
  · simp only [if_true]
    exact (sym_safe hlen hby hnc hs.2 (Or.inl rfl)).bind fun q hq => (shl_safe (by norm_num)).bind fun v _ =>
      (orSmp_safe hs.1 hr hc).map fun b hb => ⟨hb, hq.2⟩

omit hlen hby hnc in
theorem plane_byte (p x : Nat) (_ : x < 256) : (x &&& 7) ||| p * 8 % 256 < 256 :=
  Nat.or_lt_two_pow (n := 8) (lt_of_le_of_lt Nat.and_le_right (by norm_num)) (Nat.mod_lt _ (by norm_num))

omit hlen hby hnc in
theorem or_byte {v : Nat} (hv : v < 256) (x : Nat) (hx : x < 256) : x ||| v < 256 := Nat.or_lt_two_pow (n := 8) hx hv

omit hlen hby hnc in
theorem and_byte {v : Nat} (x : Nat) (hx : x < 256) : x &&& v < 256 := lt_of_le_of_lt Nat.and_le_left hx

include ho in
theorem sigStep_safe {p r c : Nat} (hp : p < 32) (hr : r < h) (hc : c < w) {s : Blk × Mq} (hs : PInv w h o raw buf pos len s) :
    DSafe nc (sigStep raw buf p r c s) (PInv w h o raw buf pos len) := by
  unfold sigStep
  refine (getSt_safe hs.1 (by omega) (by omega)).bind fun x _ => ?_
  refine DSafe.bind (P := fun l => l ≤ 8) (by split_ifs; exacts [labelSig_safe hs.1 ho hr hc, DSafe.ok (by norm_num)]) fun label hl => ?_
  split_ifs
  · refine (modSt_safe hs.1 (plane_byte p) (by omega) (by omega)).bind fun b hb => ?_
    refine (sym_safe hlen hby hnc hs.2 (Or.inr (by omega))).bind fun q hq => ?_
    refine DSafe.bind (P := PInv w h o raw buf pos len) ?_ fun s hs => (modSt_safe hs.1 (or_byte (by norm_num)) (by omega) (by omega)).map fun b hb => ⟨hb, hs.2⟩
    split_ifs
    · exact (shl_safe hp).bind fun v _ => (orSmp_safe hb hr hc).bind fun b hb =>
        (modSt_safe hb (or_byte (by omega)) (by omega) (by omega)).bind fun b hb => (broadcast_safe hb hr hc).bind fun b hb =>
          signDec_safe hlen hby hnc hr hc ⟨hb, hq.2⟩
    · exact DSafe.ok ⟨hb, hq.2⟩
  · exact (modSt_safe hs.1 (and_byte) (by omega) (by omega)).map fun b hb => ⟨hb, hs.2⟩

include ho in
theorem magStep_safe {p r c : Nat} (hp : p < 32) (hr : r < h) (hc : c < w) {s : Blk × Mq} (hs : PInv w h o raw buf pos len s) :
    DSafe nc (magStep raw buf p r c s) (PInv w h o raw buf pos len) := by
  unfold magStep
  refine (getSt_safe hs.1 (by omega) (by omega)).bind fun x _ => ?_
  by_cases hcond : x &&& 1 = 1 ∧ x &&& 4 = 0
  · rw [if_pos hcond]
    refine (modSt_safe hs.1 (plane_byte p) (by omega) (by omega)).bind fun b hb => ?_
    refine DSafe.bind (P := fun l => l < 19) ?_ fun label hl => ?_
    · clear hs
      cases raw
      · simp only [Bool.false_eq_true, if_false]
        refine (labelSig_safe hb ho hr hc).bind fun l _ => DSafe.ok ?_
        have : ∀ i, [14, 15, 16, 16].getD i 0 < 19 := by
          intro i
          rcases i with _ | _ | _ | _ | i <;> simp
        exact this _
      · exact DSafe.ok (by norm_num)
    · exact (sym_safe hlen hby hnc hs.2 (Or.inr hl)).bind fun q hq => (shl_safe hp).bind fun v _ => (orSmp_safe hb hr hc).bind fun b hb =>
        (modSt_safe hb (or_byte (by norm_num)) (by omega) (by omega)).map fun b hb => ⟨hb, hq.2⟩
  · rw [if_neg hcond]
    exact DSafe.ok hs

omit hlen hby hnc in
theorem stripes_safe {f : Nat → Nat → Blk × Mq → Except DErr (Blk × Mq)} {P : Blk × Mq → Prop} (hf : ∀ r c, r < h → c < w → ∀ s, P s → DSafe nc (f r c s) P)
    {s : Blk × Mq} (hs : P s) : DSafe nc (stripes f w h s) P := by
  unfold stripes
  simp only
  have hn : h / 4 % 65536 ≤ h / 4 := Nat.mod_le _ _
  refine DSafe.bind (P := P) ?_ fun s hs => ?_
  · refine each_safe _ (fun n hn' s hs => each_safe _ (fun c hc s hs => each_safe _ (fun ri hri s hs => hf _ _ ?_ (List.mem_range.1 hc) s hs) s hs) s hs) s hs
    have := List.mem_range.1 hn'
    have : ri < 4 := by simp only [List.mem_cons, List.not_mem_nil, or_false] at hri; omega
    omega
  · split_ifs
    · refine each_safe _ (fun c hc s hs => each_safe _ (fun i hi s hs => hf _ _ ?_ (List.mem_range.1 hc) s hs) s hs) s hs
      have := List.mem_range.1 hi
      omega
    · exact DSafe.ok hs

include ho in
theorem sigPass_safe {p : Nat} (hp : p < 32) {s : Blk × Mq} (hs : PInv w h o raw buf pos len s) :
    DSafe nc (sigPass raw buf p s) (PInv w h o raw buf pos len) := by
  unfold sigPass
  rw [hs.1.w, hs.1.h]
  exact stripes_safe (fun r c hr hc s hs => sigStep_safe hlen hby hnc ho hp hr hc hs) hs

include ho in
theorem magPass_safe {p : Nat} (hp : p < 32) {s : Blk × Mq} (hs : PInv w h o raw buf pos len s) :
    DSafe nc (magPass raw buf p s) (PInv w h o raw buf pos len) := by
  unfold magPass
  rw [hs.1.w, hs.1.h]
  exact stripes_safe (fun r c hr hc s hs => magStep_safe hlen hby hnc ho hp hr hc hs) hs

include ho in
theorem cleanCoef_safe {p r c : Nat} {run : Bool} (hp : p < 32) (hr : r < h) (hc : c < w) {s : Blk × Mq} (hs : PInv w h o false buf pos len s) :
    DSafe nc (cleanCoef buf p r c run s) (PInv w h o false buf pos len) := by
  unfold cleanCoef
  refine (getSt_safe hs.1 (by omega) (by omega)).bind fun x _ => ?_
  split_ifs
  all_goals first
    | exact DSafe.ok hs
    | skip
  all_goals
    refine (modSt_safe hs.1 (plane_byte p) (by omega) (by omega)).bind fun b hb => ?_
    refine DSafe.bind (P := PInv w h o false buf pos len) ?_ fun s hs => ?_
    · first
        | exact DSafe.ok ⟨hb, hs.2⟩
        | exact (labelSig_safe hb ho hr hc).bind fun l hl => (sym_safe hlen hby hnc hs.2 (Or.inr (by omega))).bind fun q hq =>
            (shl_safe hp).bind fun v _ => (orSmp_safe hb hr hc).map fun b hb => ⟨hb, hq.2⟩
    · refine (getSmp_safe hs.1 hr hc).bind fun y _ => (shl_safe hp).bind fun v _ => ?_
      split_ifs
      · exact (modSt_safe hs.1 (or_byte (by norm_num)) (by omega) (by omega)).bind fun b hb => (broadcast_safe hb hr hc).bind fun b hb =>
          signDec_safe hlen hby hnc hr hc ⟨hb, hs.2⟩
      · exact DSafe.ok hs

theorem runMode_safe {p r c : Nat} (hp : p < 32) (hr : r + 3 < h) (hc : c < w) {s : Blk × Mq} (hs : PInv w h o false buf pos len s) :
    DSafe nc (runMode buf p r c s) fun q => q.1.getD 0 ≤ 4 ∧ PInv w h o false buf pos len q.2 := by
  unfold runMode
  refine (getCtx_safe hs.1 (by omega) (by omega)).bind fun cw _ => ?_
  have go : ∀ cond : Prop, [Decidable cond] → DSafe nc (if cond then
      (sym false buf s.2 17).bind fun x =>
        if x.1 = 0 then .ok (some 4, s.1, x.2)
        else
          (sym false buf x.2 18).bind fun y => (sym false buf y.2 18).bind fun z =>
            let r' := y.1 * 2 + z.1
            (shl x.1 p).bind fun v => (s.1.orSmp (r + r') c v).map fun b => (some r', b, z.2)
      else .ok (none, s.1, s.2)) fun q => q.1.getD 0 ≤ 4 ∧ PInv w h o false buf pos len q.2 := by
    intro cond _
    split_ifs
    · refine (sym_safe hlen hby hnc hs.2 (Or.inr (by norm_num))).bind fun x hx => ?_
      split_ifs
      · exact DSafe.ok ⟨by simp, hs.1, hx.2⟩
      · refine (sym_safe hlen hby hnc hx.2 (Or.inr (by norm_num))).bind fun y hy => (sym_safe hlen hby hnc hy.2 (Or.inr (by norm_num))).bind fun z hz => ?_
        have h1 := hy.1
        have h2 := hz.1
        exact (shl_safe hp).bind fun v _ => (orSmp_safe hs.1 (by omega) hc).map fun b hb => ⟨by simp only [Option.getD_some]; omega, hb, hz.2⟩
    · exact DSafe.ok ⟨by simp, hs⟩
  exact go _

include ho in
theorem cleanLoop_safe {p j0 c : Nat} (hp : p < 32) (hj : j0 + 4 ≤ h) (hc : c < w) : ∀ (fuel k : Nat), k < fuel → k ≤ 4 → ∀ s : Blk × Mq,
    PInv w h o false buf pos len s → DSafe nc (cleanLoop buf p j0 c fuel k s) (PInv w h o false buf pos len) := by
  intro fuel
  induction fuel with
  | zero => intro k hk; omega
  | succ fuel ih =>
    intro k hk h4 s hs
    unfold cleanLoop
    by_cases h0 : k = 0
    · rw [if_pos h0]
      exact DSafe.ok hs
    · rw [if_neg h0]
      simp only
      refine DSafe.bind (P := fun q => q.1.getD 0 ≤ 4 ∧ PInv w h o false buf pos len q.2) ?_ fun q hq => ?_
      · split_ifs with hrun
        · rw [hs.1.h] at hrun
          exact runMode_safe hlen hby hnc hp (by omega) hc hs
        · exact DSafe.ok ⟨by simp, hs⟩
      · refine (cleanCoef_safe hlen hby hnc ho hp ?_ hc hq.2).bind fun s hs => ih _ (by omega) (by omega) s hs
        split_ifs <;> omega

include ho in
theorem cleanRest_safe {p r c : Nat} (hp : p < 32) (hr : r < h) (hc : c < w) {s : Blk × Mq} (hs : PInv w h o false buf pos len s) :
    DSafe nc (cleanRest buf p r c s) (PInv w h o false buf pos len) := by
  unfold cleanRest
  refine (getSt_safe hs.1 (by omega) (by omega)).bind fun x _ => ?_
  split_ifs
  · refine (modSt_safe hs.1 (plane_byte p) (by omega) (by omega)).bind fun b hb => (labelSig_safe hb ho hr hc).bind fun l hl =>
      (sym_safe hlen hby hnc hs.2 (Or.inr (by omega))).bind fun q hq => (shl_safe hp).bind fun v _ => (orSmp_safe hb hr hc).bind fun b hb => ?_
    split_ifs
    · exact (modSt_safe hb (or_byte (by norm_num)) (by omega) (by omega)).bind fun b hb => (broadcast_safe hb hr hc).bind fun b hb =>
        signDec_safe hlen hby hnc hr hc ⟨hb, hq.2⟩
    · exact DSafe.ok ⟨hb, hq.2⟩
  · exact DSafe.ok hs

include ho in
theorem cleanPass_safe {p : Nat} (hp : p < 32) {s : Blk × Mq} (hs : PInv w h o false buf pos len s) :
    DSafe nc (cleanPass buf p s) (PInv w h o false buf pos len) := by
  unfold cleanPass
  rw [hs.1.w, hs.1.h]
  unfold cleanCols
  simp only
  have hn : h / 4 % 65536 ≤ h / 4 := Nat.mod_le _ _
  refine DSafe.bind (P := PInv w h o false buf pos len) ?_ fun s hs => ?_
  · refine each_safe _ (fun n hn' s hs => each_safe _ (fun c hc s hs => cleanLoop_safe hlen hby hnc ho hp ?_ (List.mem_range.1 hc) 5 4 (by norm_num) (by norm_num) s hs) s hs) s hs
    have := List.mem_range.1 hn'
    omega
  · split_ifs
    · refine each_safe _ (fun c hc s hs => each_safe _ (fun i hi s hs => cleanRest_safe hlen hby hnc ho hp ?_ (List.mem_range.1 hc) hs) s hs) s hs
      have := List.mem_range.1 hi
      omega
    · exact DSafe.ok hs

theorem segMark_safe {m : Mq} (hm : SymInv false buf pos len m) : DSafe nc (segMark buf m) (SymInv false buf pos len) := by
  unfold segMark
  refine (sym_safe hlen hby hnc hm (Or.inr (by norm_num))).bind fun a ha => (sym_safe hlen hby hnc ha.2 (Or.inr (by norm_num))).bind fun b hb =>
    (sym_safe hlen hby hnc hb.2 (Or.inr (by norm_num))).bind fun c hc => (sym_safe hlen hby hnc hc.2 (Or.inr (by norm_num))).bind fun d hd => ?_
  split_ifs
  · exact DSafe.throws
  · exact DSafe.ok hd.2

end

end Verif.Ebcot
