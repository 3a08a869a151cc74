import Verif.Codestream.Markers
import Verif.Codestream.PropsSource
import Verif.Jph.Props
/-
Lemmas about reading marker segments: what a reader delivers from bytes it is given, and that it stays inside the memory.
-/
namespace Verif.Cs
open Verif.Jph (putWord putDword putWord_eq putDword_eq)
open Verif.Jpip (be16 be32 be16_length be32_length be16_val)

/-! ### Delivering -/

/-- `f`, in a segment of declared length `L`, consumes exactly the bytes `bs` and returns `v`. -/
def Reads {α : Type} (L : Nat) (f : Rd α) (bs : List UInt8) (v : α) : Prop :=
  ∀ mem pos, pos + bs.length ≤ L → f ⟨L, bs ++ mem, pos⟩ = .ok (v, ⟨L, mem, pos + bs.length⟩)

theorem Reads.pure {α : Type} (L : Nat) (a : α) : Reads L (Pure.pure a : Rd α) [] a := fun _ _ _ => rfl

theorem Reads.bind {α β : Type} {L : Nat} {f : Rd α} {g : α → Rd β} {b₁ b₂ : List UInt8} {v : α} {w : β}
    (h₁ : Reads L f b₁ v) (h₂ : Reads L (g v) b₂ w) : Reads L (f >>= g) (b₁ ++ b₂) w := by
  intro mem pos h
  rw [List.length_append] at h
  show (f ⟨L, (b₁ ++ b₂) ++ mem, pos⟩).bind (fun r => g r.1 r.2) = _
  rw [List.append_assoc, h₁ _ _ (by omega)]
  show g v _ = _
  rw [h₂ _ _ (by omega), List.length_append, Nat.add_assoc]

/-- The case of a reader that consumes nothing. -/
theorem Reads.bind0 {α β : Type} {L : Nat} {f : Rd α} {g : α → Rd β} {b : List UInt8} {v : α} {w : β}
    (h₁ : Reads L f [] v) (h₂ : Reads L (g v) b w) : Reads L (f >>= g) b w := by
  have := Reads.bind h₁ h₂
  rwa [List.nil_append] at this

theorem Reads.lmar (L : Nat) : Reads L rLmar [] L := fun _ _ _ => rfl

theorem Reads.guard {L : Nat} {c : Prop} [Decidable c] (h : c) : Reads L (rGuard c) [] () := by
  intro mem pos _
  show (if c then _ else _) = _
  rw [if_pos h]
  rfl

theorem Reads.byte {L n : Nat} (h : n < 256) : Reads L rByte [UInt8.ofNat n] n := by
  intro mem pos hp
  simp only [List.length_singleton] at hp
  show (if L ≤ pos then _ else _) = _
  rw [if_neg (by omega)]
  show Out.ok ((UInt8.ofNat n).toNat, _) = _
  rw [UInt8.toNat_ofNat', Nat.mod_eq_of_lt (by omega)]
  rfl

theorem Reads.word {L n : Nat} (h : n < 2 ^ 16) : Reads L rWord (be16 n) n := by
  have h1 : Reads L rWord ([UInt8.ofNat (n / 256)] ++ ([UInt8.ofNat (n % 256)] ++ [])) (n / 256 * 256 + n % 256) :=
    Reads.bind (Reads.byte (by omega)) (Reads.bind (Reads.byte (by omega)) (Reads.pure L _))
  rwa [show n / 256 * 256 + n % 256 = n by omega] at h1

theorem Reads.dword {L n : Nat} (h : n < 2 ^ 32) : Reads L rDword (be32 n) n := by
  have h1 : Reads L rDword (be16 (n / 65536) ++ (be16 (n % 65536) ++ [])) (n / 65536 * 65536 + n % 65536) :=
    Reads.bind (Reads.word (by omega)) (Reads.bind (Reads.word (by omega)) (Reads.pure L _))
  rwa [show n / 65536 * 65536 + n % 65536 = n by omega, List.append_nil] at h1

theorem Reads.rep {α : Type} {L : Nat} {f : Rd α} {w : α → List UInt8} (l : List α) (h : ∀ a ∈ l, Reads L f (w a) a) :
    Reads L (rRep f l.length) (l.flatMap w) l := by
  induction l with
  | nil => exact Reads.pure L _
  | cons a l ih =>
    rw [List.flatMap_cons, ← List.append_nil (List.flatMap w l)]
    exact Reads.bind (h a (List.mem_cons_self ..))
      (Reads.bind (ih fun b hb => h b (List.mem_cons_of_mem _ hb)) (Reads.pure L _))

theorem flatMap_single (l : List Nat) : l.flatMap (fun n => [UInt8.ofNat n]) = l.map UInt8.ofNat := by
  induction l <;> simp_all

theorem Reads.bytes {L : Nat} (l : List Nat) (h : ∀ n ∈ l, n < 256) : Reads L (rRep rByte l.length) (l.map UInt8.ofNat) l := by
  have := Reads.rep (L := L) (f := rByte) (w := fun n => [UInt8.ofNat n]) l fun a ha => Reads.byte (h a ha)
  rwa [flatMap_single] at this

theorem Reads.words {L : Nat} (l : List Nat) (h : ∀ n ∈ l, n < 2 ^ 16) : Reads L (rRep rWord l.length) (l.flatMap be16) l :=
  Reads.rep l fun a ha => Reads.word (h a ha)

/-! ### A segment in a source -/

/-- A word of the source. -/
theorem getWord_at {d pre post : List UInt8} {n p : Nat} (hd : d = pre ++ (be16 n ++ post)) (hp : p = pre.length)
    (hl : d.length < 2 ^ 32) (hn : n < 2 ^ 16) : Src.getWord ⟨d, p⟩ = .ok (n, ⟨d, p + 2⟩) := by
  have hlen : d.length = pre.length + (post.length + 2) := by
    rw [hd, List.length_append, List.length_append, be16_length]; omega
  have hg : d.drop p = be16 n ++ post := by rw [hd, hp, List.drop_left]
  have g0 : d[p]? = some (UInt8.ofNat (n / 256)) := by
    have : (d.drop p)[0]? = some (UInt8.ofNat (n / 256)) := by rw [hg]; rfl
    rwa [List.getElem?_drop, Nat.add_zero] at this
  have g1 : d[p + 1]? = some (UInt8.ofNat (n % 256)) := by
    have : (d.drop p)[1]? = some (UInt8.ofNat (n % 256)) := by rw [hg]; rfl
    rwa [List.getElem?_drop] at this
  have s1 : Src.getByte ⟨d, p⟩ = .ok (UInt8.ofNat (n / 256), ⟨d, p + 1⟩) := by
    rw [Src.getByte]
    simp only
    rw [if_neg (by rw [sub32_eq (by omega)]; omega), g0]
    simp only
    rw [Nat.mod_eq_of_lt (by omega)]
  have s2 : Src.getByte ⟨d, p + 1⟩ = .ok (UInt8.ofNat (n % 256), ⟨d, p + 2⟩) := by
    rw [Src.getByte]
    simp only
    rw [if_neg (by rw [sub32_eq (by omega)]; omega), g1]
    show Out.ok (_, Src.mk d ((p + 1 + 1) % 2 ^ 32)) = _
    rw [Nat.mod_eq_of_lt (a := p + 1 + 1) (by omega)]
  rw [Src.getWord]
  simp only
  rw [if_neg (by rw [sub32_eq (by omega)]; omega), s1]
  show Out.bind (Src.getByte ⟨d, p + 1⟩) _ = _
  rw [s2]
  show Out.ok (_, _) = _
  rw [be16_val n (by omega)]

/-- Reading a segment whose length field tells the number of bytes there are. -/
theorem segment_reads {α : Type} {f : Rd α} {body pad : List UInt8} {v : α} {d pre post : List UInt8} {p : Nat}
    (hf : Reads (body.length + 2) f body v) (hd : d = pre ++ (be16 (body.length + 2) ++ body) ++ post) (hp : p = pre.length)
    (hb : body.length + 2 < 2 ^ 16) (hl : d.length < 2 ^ 32) :
    segment pad f ⟨d, p⟩ = .ok (v, ⟨d, p + (body.length + 2)⟩) := by
  have hlen : d.length = pre.length + (body.length + 2) + post.length := by
    rw [hd]; simp only [List.length_append, be16_length]; omega
  rw [segment, getWord_at (pre := pre) (n := body.length + 2) (post := body ++ post) (by rw [hd]; simp) hp hl hb]
  show Out.bind (Src.getBytes ⟨d, p + 2⟩ (sub32 (body.length + 2) 2)) _ = _
  rw [sub32_eq (by omega), Nat.add_sub_cancel, Src.getBytes]
  simp only
  rw [if_neg (by rw [sub32_eq (by omega)]; omega), if_pos (by omega)]
  show Out.bind (f _) _ = _
  have hdrop : d.drop (p + 2) = body ++ post := by
    rw [hd, hp, List.append_assoc, ← List.drop_drop, List.drop_left]
    simp [be16]
  rw [hdrop, List.append_assoc, hf (post ++ pad) 0 (by omega)]
  show Out.ok (_, Src.mk d ((p + 2 + body.length) % 2 ^ 32)) = _
  rw [Nat.mod_eq_of_lt (by omega), show p + 2 + body.length = p + (body.length + 2) by omega]

/-! ### Staying inside the memory -/

/-- In a segment of declared length `L` the memory behind the cursor reaches at least as far as the declared length. -/
def Mk.Fits (L : Nat) (m : Mk) : Prop := m.lmar = L ∧ L ≤ m.pos + m.mem.length

/-- `f` never reads outside the memory. -/
def Safe {α : Type} (f : Rd α) : Prop :=
  ∀ L m, Mk.Fits L m → f m ≠ .ub ∧ ∀ v m', f m = .ok (v, m') → Mk.Fits L m'

theorem Safe.pure {α : Type} (a : α) : Safe (Pure.pure a : Rd α) := by
  intro L m hm
  refine ⟨(by intro h; cases h), fun v m' h => ?_⟩
  cases h
  exact hm

theorem Safe.bind {α β : Type} {f : Rd α} {g : α → Rd β} (hf : Safe f) (hg : ∀ a, Safe (g a)) : Safe (f >>= g) := by
  intro L m hm
  obtain ⟨h1, h2⟩ := hf L m hm
  have hb : (f >>= g) m = (f m).bind fun r => g r.1 r.2 := rfl
  rw [hb]
  cases hfm : f m with
  | ok r => exact hg r.1 L r.2 (h2 r.1 r.2 (by rw [hfm]))
  | throws => exact ⟨(by intro h; cases h), (by intro v m' h; cases h)⟩
  | ub => exact absurd hfm h1

theorem Safe.lmar : Safe rLmar := by
  intro L m hm
  refine ⟨(by intro h; cases h), fun v m' h => ?_⟩
  cases h
  exact hm

theorem Safe.buf : Safe rBuf := by
  intro L m hm
  refine ⟨(by intro h; cases h), fun v m' h => ?_⟩
  cases h
  exact hm

theorem Safe.guard (c : Prop) [Decidable c] : Safe (rGuard c) := by
  intro L m hm
  show (if c then _ else _) ≠ Out.ub ∧ ∀ v m', (if c then Out.ok ((), m) else _) = Out.ok (v, m') → _
  by_cases hc : c
  · rw [if_pos hc]
    refine ⟨(by intro h; cases h), fun v m' h => ?_⟩
    cases h
    exact hm
  · rw [if_neg hc]
    refine ⟨(by intro h; cases h), fun v m' h => ?_⟩
    cases h

theorem Safe.byte : Safe rByte := by
  intro L m hm
  obtain ⟨hl, hfit⟩ := hm
  obtain ⟨lmar, mem, pos⟩ := m
  simp only at hl hfit
  subst hl
  by_cases hc : lmar ≤ pos
  · have : rByte ⟨lmar, mem, pos⟩ = .throws := if_pos hc
    rw [this]
    exact ⟨(by intro h; cases h), (by intro v m' h; cases h)⟩
  · cases mem with
    | nil => simp at hfit; omega
    | cons b rest =>
      have : rByte ⟨lmar, b :: rest, pos⟩ = .ok (b.toNat, ⟨lmar, rest, pos + 1⟩) := if_neg hc
      rw [this]
      refine ⟨(by intro h; cases h), fun v m' h => ?_⟩
      cases h
      refine ⟨rfl, ?_⟩
      simp only [List.length_cons] at hfit ⊢
      omega

theorem Safe.word : Safe rWord := Safe.bind Safe.byte fun _ => Safe.bind Safe.byte fun _ => Safe.pure _
theorem Safe.dword : Safe rDword := Safe.bind Safe.word fun _ => Safe.bind Safe.word fun _ => Safe.pure _

theorem Safe.rep {α : Type} {f : Rd α} (hf : Safe f) (n : Nat) : Safe (rRep f n) := by
  induction n with
  | zero => exact Safe.pure _
  | succ n ih => exact Safe.bind hf fun _ => Safe.bind ih fun _ => Safe.pure _

theorem Safe.ite {α : Type} {c : Prop} [Decidable c] {f g : Rd α} (hf : Safe f) (hg : Safe g) : Safe (if c then f else g) := by
  by_cases hc : c
  · rwa [if_pos hc]
  · rwa [if_neg hc]

theorem Safe.compIdx (c : Nat) : Safe (rCompIdx c) := Safe.ite Safe.byte Safe.word

theorem safe_comp : Safe rComp :=
  Safe.bind Safe.byte fun _ => Safe.bind Safe.byte fun _ => Safe.bind Safe.byte fun _ =>
    Safe.bind (Safe.guard _) fun _ => Safe.pure _

theorem safe_siz : Safe readSiz :=
  Safe.bind Safe.lmar fun _ => Safe.bind Safe.word fun _ => Safe.bind Safe.dword fun _ => Safe.bind Safe.dword fun _ =>
  Safe.bind Safe.dword fun _ => Safe.bind Safe.dword fun _ => Safe.bind Safe.dword fun _ => Safe.bind Safe.dword fun _ =>
  Safe.bind Safe.dword fun _ => Safe.bind Safe.dword fun _ => Safe.bind Safe.word fun _ => Safe.bind (Safe.guard _) fun _ =>
  Safe.bind (Safe.guard _) fun _ => Safe.bind (Safe.rep safe_comp _) fun _ => Safe.pure _

theorem safe_caps (p : Nat) (l : List Nat) (n : Nat) : Safe (rCaps p l n) := by
  induction l generalizing n with
  | nil => exact Safe.pure _
  | cons i is ih =>
    rw [rCaps]
    by_cases hb : p.testBit (31 - i) = true
    · rw [if_pos hb]
      exact Safe.bind Safe.word fun _ => Safe.bind (ih _) fun _ => Safe.pure _
    · rw [if_neg hb]
      exact Safe.bind (ih _) fun _ => Safe.pure _

theorem safe_cap : Safe readCap :=
  Safe.bind Safe.lmar fun _ => Safe.bind Safe.dword fun _ => Safe.bind (safe_caps _ _ _) fun _ =>
    Safe.bind (Safe.guard _) fun _ => Safe.pure _
theorem safe_prf : Safe readPrf := Safe.bind Safe.lmar fun _ => Safe.bind (Safe.rep Safe.word _) fun _ => Safe.pure _
theorem safe_cpf : Safe readCpf := Safe.bind Safe.lmar fun _ => Safe.rep Safe.word _
theorem safe_cod : Safe readCod :=
  Safe.bind Safe.lmar fun _ => Safe.bind Safe.byte fun _ => Safe.bind Safe.dword fun _ => Safe.bind (Safe.guard _) fun _ =>
    Safe.bind (Safe.rep Safe.byte _) fun _ => Safe.bind (Safe.guard _) fun _ => Safe.pure _
theorem safe_coc (c : Nat) : Safe (readCoc c) :=
  Safe.bind Safe.lmar fun _ => Safe.bind (Safe.compIdx c) fun _ => Safe.bind Safe.byte fun _ =>
    Safe.bind (Safe.rep Safe.byte _) fun _ => Safe.pure _
theorem safe_rgn (c : Nat) : Safe (readRgn c) :=
  Safe.bind Safe.lmar fun _ => Safe.bind (Safe.compIdx c) fun _ => Safe.bind Safe.byte fun _ => Safe.bind Safe.byte fun _ =>
    Safe.pure _
theorem safe_dfs : Safe readDfs :=
  Safe.bind Safe.word fun _ => Safe.bind Safe.byte fun _ => Safe.bind (Safe.guard _) fun _ =>
    Safe.bind (Safe.rep Safe.byte _) fun _ => Safe.pure _
theorem safe_atk : Safe readAtk :=
  Safe.bind Safe.word fun _ => Safe.bind (Safe.ite (Safe.pure _) Safe.dword) fun _ => Safe.bind Safe.byte fun _ =>
    Safe.bind (Safe.ite (Safe.pure _) (Safe.rep (Safe.bind Safe.byte fun _ => Safe.bind Safe.dword fun _ => Safe.pure _) _)) fun _ =>
      Safe.pure _
theorem safe_qcd : Safe readQcd :=
  Safe.bind Safe.lmar fun _ => Safe.bind Safe.byte fun _ => Safe.bind (Safe.guard _) fun _ =>
    Safe.bind (Safe.ite (Safe.rep Safe.byte _) (Safe.rep Safe.word _)) fun _ => Safe.pure _
theorem safe_qcc (c : Nat) : Safe (readQcc c) :=
  Safe.bind Safe.lmar fun _ => Safe.bind (Safe.compIdx c) fun _ => Safe.bind Safe.byte fun _ =>
    Safe.bind (Safe.ite (Safe.rep Safe.byte _) (Safe.rep Safe.word _)) fun _ => Safe.pure _
theorem safe_poc (c : Nat) : Safe (readPoc c) :=
  Safe.bind Safe.lmar fun _ => Safe.bind (Safe.rep (Safe.bind Safe.byte fun _ => Safe.bind (Safe.compIdx c) fun _ =>
    Safe.bind Safe.word fun _ => Safe.bind Safe.byte fun _ => Safe.bind (Safe.compIdx c) fun _ => Safe.bind Safe.byte fun _ =>
      Safe.pure _) _) fun _ => Safe.pure _
theorem safe_tlm : Safe readTlm :=
  Safe.bind Safe.lmar fun _ => Safe.bind Safe.byte fun _ => Safe.bind Safe.byte fun _ =>
    Safe.bind (Safe.rep (Safe.bind (Safe.ite (Safe.rep Safe.byte _) (Safe.ite (Safe.rep Safe.word _) (Safe.pure _))) fun _ =>
      Safe.bind (Safe.ite Safe.word Safe.dword) fun _ => Safe.pure _) _) fun _ => Safe.pure _
theorem safe_raw : Safe readRaw :=
  Safe.bind Safe.lmar fun _ => Safe.bind Safe.byte fun _ => Safe.bind Safe.buf fun _ => Safe.pure _
theorem safe_crg : Safe readCrg :=
  Safe.bind Safe.lmar fun _ => Safe.rep (Safe.bind Safe.word fun _ => Safe.bind Safe.word fun _ => Safe.pure _) _
theorem safe_com : Safe readCom :=
  Safe.bind Safe.lmar fun _ => Safe.bind Safe.word fun _ => Safe.bind (Safe.rep Safe.byte _) fun _ => Safe.pure _
theorem safe_sot : Safe readSotBody :=
  Safe.bind Safe.word fun _ => Safe.bind Safe.dword fun _ => Safe.bind Safe.byte fun _ => Safe.bind Safe.byte fun _ =>
    Safe.pure _

end Verif.Cs
