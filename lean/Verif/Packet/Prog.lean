import Verif.Packet.BitIO
/-
Bit-reading programs.  The parser of a packet header is a function of the bits `get_bit` returns; it is written
once as a `Prog` and run either on the real reader state (`runReader`) or on a plain list of bits (`run`).
-/
namespace Verif.Packet

/-- Ways in which the parser can fail to return: an exception, a store outside an array, a loop that does not
stop within the given number of bits, or (list semantics only) bits used up. -/
inductive Fail where
  | throw | oob | spin | eof
  deriving DecidableEq, Repr

inductive Prog (α : Type) : Type where
  | ret (a : α)
  | fail (e : Fail)
  | bit (k : Bool → Prog α)

namespace Prog

def bind {α β : Type} : Prog α → (α → Prog β) → Prog β
  | ret a, f => f a
  | fail e, _ => fail e
  | bit k, f => bit fun b => (k b).bind f

instance : Monad Prog where
  pure := ret
  bind := Prog.bind

/-- The bits come from `Reader.getBit`. -/
def runReader {α : Type} : Prog α → Reader → Except Fail (α × Reader)
  | ret a, r => .ok (a, r)
  | fail e, _ => .error e
  | bit k, r => (k r.getBit.1).runReader r.getBit.2

/-- The bits come from a list. -/
def run {α : Type} : Prog α → List Bool → Except Fail (α × List Bool)
  | ret a, bs => .ok (a, bs)
  | fail e, _ => .error e
  | bit _, [] => .error .eof
  | bit k, b :: bs => (k b).run bs

/-- `get_bit` as a program. -/
def getBit : Prog Bool := bit ret

@[simp] theorem pure_eq {α : Type} (a : α) : (pure a : Prog α) = ret a := rfl
@[simp] theorem bind_eq {α β : Type} (p : Prog α) (f : α → Prog β) : (p >>= f) = p.bind f := rfl
@[simp] theorem ret_bind {α β : Type} (a : α) (f : α → Prog β) : (ret a).bind f = f a := rfl
@[simp] theorem fail_bind {α β : Type} (e : Fail) (f : α → Prog β) : (fail e : Prog α).bind f = fail e := rfl
@[simp] theorem bit_bind {α β : Type} (k : Bool → Prog α) (f : α → Prog β) :
    (bit k).bind f = bit fun b => (k b).bind f := rfl
@[simp] theorem run_ret {α : Type} (a : α) (bs : List Bool) : (ret a).run bs = .ok (a, bs) := rfl
@[simp] theorem run_bit {α : Type} (k : Bool → Prog α) (b : Bool) (bs : List Bool) :
    (bit k).run (b :: bs) = (k b).run bs := rfl
@[simp] theorem run_fail {α : Type} (e : Fail) (bs : List Bool) : (fail e : Prog α).run bs = .error e := rfl

theorem run_bind {α β : Type} (p : Prog α) (f : α → Prog β) (bs : List Bool) :
    (p.bind f).run bs = match p.run bs with
      | .ok (a, rest) => (f a).run rest
      | .error e => .error e := by
  induction p generalizing bs with
  | ret a => rfl
  | fail e => rfl
  | bit k ih =>
    cases bs with
    | nil => rfl
    | cons b bs => simp only [bit_bind, run_bit]; exact ih b bs

theorem run_bind_ok {α β : Type} {p : Prog α} {f : α → Prog β} {bs rest : List Bool} {a : α}
    (h : p.run bs = .ok (a, rest)) : (p.bind f).run bs = (f a).run rest := by
  rw [run_bind, h]

theorem bind_assoc' {α β γ : Type} (p : Prog α) (f : α → Prog β) (g : β → Prog γ) :
    (p.bind f).bind g = p.bind fun a => (f a).bind g := by
  induction p with
  | ret a => rfl
  | fail e => rfl
  | bit k ih => simp only [bit_bind, ih]

/-- A program that uses up exactly `bs` on lists behaves the same on a reader that delivers `bs`. -/
theorem runReader_of_run {α : Type} (p : Prog α) : ∀ (bs : List Bool) (a : α) (r : Reader),
    p.run bs = .ok (a, []) → (r.getBits bs.length).1 = bs →
    p.runReader r = .ok (a, (r.getBits bs.length).2) := by
  induction p with
  | ret a =>
    intro bs a' r h _
    simp only [run_ret, Except.ok.injEq, Prod.mk.injEq] at h
    rw [h.1, h.2]; rfl
  | fail e => intro bs a r h; simp at h
  | bit k ih =>
    intro bs a r h hr
    cases bs with
    | nil => simp [run] at h
    | cons b bs =>
      simp only [List.length_cons, Reader.getBits, List.cons.injEq] at hr ⊢
      rw [run_bit] at h
      show (k r.getBit.1).runReader r.getBit.2 = _
      rw [hr.1]
      exact ih b bs a r.getBit.2 h hr.2

/-- A property of the outcomes of a program, whatever the bits. -/
def Always {α : Type} (P : Except Fail α → Prop) : Prog α → Prop
  | ret a => P (.ok a)
  | fail e => P (.error e)
  | bit k => ∀ b, (k b).Always P

theorem always_bind {α β : Type} {P : Except Fail α → Prop} {Q : Except Fail β → Prop} {p : Prog α}
    {f : α → Prog β} (hp : p.Always P) (hf : ∀ a, P (.ok a) → (f a).Always Q) (he : ∀ e, P (.error e) → Q (.error e)) :
    (p.bind f).Always Q := by
  induction p with
  | ret a => exact hf a hp
  | fail e => exact he e hp
  | bit k ih => intro b; exact ih b (hp b)

theorem always_runReader {α : Type} {P : Except Fail α → Prop} {p : Prog α} (hp : p.Always P) (r : Reader) :
    P ((p.runReader r).map Prod.fst) := by
  induction p generalizing r with
  | ret a => exact hp
  | fail e => exact hp
  | bit k ih => exact ih _ (hp _) _

end Prog
end Verif.Packet
