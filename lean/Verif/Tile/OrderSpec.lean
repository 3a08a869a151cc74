import Verif.Tile.Order
import Verif.Tile.PropsGeometry
/-
Specification for C26: the packet sequencing of ISO/IEC 15444-1 B.6, B.7 and B.12 (and 15444-2 I.2.6), with unbounded
arithmetic, every coordinate visited, and precincts numbered by the formula of B.12.1.3.
-/
namespace Verif.Tile

/-- B-12 and B-14: a tile coordinate on one axis seen in a resolution `d` levels below the full one. -/
def tr (t sub d : Nat) : Nat := cdiv (cdiv t sub) (2 ^ d)

/-- B-16: number of precincts on one axis. -/
def nprec (s : Span) (sub pp d : Nat) : Nat :=
  if tr s.1 sub d < tr s.2 sub d then cdiv (tr s.2 sub d) (2 ^ pp) - tr s.1 sub d / 2 ^ pp else 0

/-- B.12.1.3: the condition under which a coordinate starts a precinct. -/
def AtPrec (s : Span) (sub pp d x : Nat) : Prop :=
  sub * 2 ^ (pp + d) ∣ x ∨ (x = s.1 ∧ ¬ 2 ^ (pp + d) ∣ tr s.1 sub d * 2 ^ d)

instance (s : Span) (sub pp d x : Nat) : Decidable (AtPrec s sub pp d x) := by unfold AtPrec; infer_instance

/-- B-20, one axis: the index of that precinct. -/
def kAt (s : Span) (sub pp d x : Nat) : Nat := cdiv x (sub * 2 ^ d) / 2 ^ pp - tr s.1 sub d / 2 ^ pp

namespace TileP
variable (T : TileP)

/-- Precincts per row and per column of a resolution. -/
def wide (c r : Nat) : Nat := nprec T.x (T.comp c).subx ((T.comp c).ppx r) ((T.comp c).NL - r)
def high (c r : Nat) : Nat := nprec T.y (T.comp c).suby ((T.comp c).ppy r) ((T.comp c).NL - r)

/-- The point `(x, y)` starts a precinct of resolution `r` of component `c`. -/
def Starts (r y x c : Nat) : Prop :=
  0 < T.wide c r * T.high c r ∧
    AtPrec T.y (T.comp c).suby ((T.comp c).ppy r) ((T.comp c).NL - r) y ∧
    AtPrec T.x (T.comp c).subx ((T.comp c).ppx r) ((T.comp c).NL - r) x

instance (r y x c : Nat) : Decidable (T.Starts r y x c) := by unfold Starts; infer_instance

/-- Its number. -/
def precNo (r y x c : Nat) : Nat :=
  kAt T.x (T.comp c).subx ((T.comp c).ppx r) ((T.comp c).NL - r) x +
    T.wide c r * kAt T.y (T.comp c).suby ((T.comp c).ppy r) ((T.comp c).NL - r) y

/-- The packets that belong at a point, for each layer. -/
def at_ (LYE r y x c : Nat) : List Pkt :=
  if r ≤ (T.comp c).NL ∧ T.Starts r y x c then (List.range LYE).map fun l => ⟨l, r, c, T.precNo r y x c⟩ else []

/-- The packets of a layer of a resolution of a component. -/
def all_ (l r c : Nat) : List Pkt :=
  if r ≤ (T.comp c).NL then (List.range (T.wide c r * T.high c r)).map fun p => ⟨l, r, c, p⟩ else []

/-- B.12.1: the six orders, over the layers, resolutions and components of a progression volume. -/
def std (S : Seg) : List Pkt :=
  let rs := rng S.RS S.RE; let cs := rng S.CS S.CE; let ls := List.range S.LYE
  let ys := rng T.y.1 T.y.2; let xs := rng T.x.1 T.x.2
  if S.PO = 0 then ls.flatMap fun l => rs.flatMap fun r => cs.flatMap fun c => T.all_ l r c
  else if S.PO = 1 then rs.flatMap fun r => ls.flatMap fun l => cs.flatMap fun c => T.all_ l r c
  else if S.PO = 2 then rs.flatMap fun r => ys.flatMap fun y => xs.flatMap fun x => cs.flatMap fun c => T.at_ S.LYE r y x c
  else if S.PO = 3 then ys.flatMap fun y => xs.flatMap fun x => cs.flatMap fun c => rs.flatMap fun r => T.at_ S.LYE r y x c
  else if S.PO = 4 then cs.flatMap fun c => ys.flatMap fun y => xs.flatMap fun x => rs.flatMap fun r => T.at_ S.LYE r y x c
  else ys.flatMap fun y => xs.flatMap fun x => rs.flatMap fun r => cs.flatMap fun c => T.at_ S.LYE r y x c

/-- The end of a progression volume does not go past the layers and components there are. -/
def clamp (S : Seg) : Seg := { S with LYE := min S.LYE T.layers, CE := min S.CE T.ncomp }

/-- The packets of the tile. -/
def Valid (q : Pkt) : Prop :=
  q.l < T.layers ∧ q.c < T.ncomp ∧ q.r ≤ (T.comp q.c).NL ∧ q.p < T.wide q.c q.r * T.high q.c q.r

/-- How many packets the tile has. -/
def total : Nat :=
  ((List.range T.ncomp).map fun c => ((List.range ((T.comp c).NL + 1)).map fun r => T.wide c r * T.high c r).sum).sum * T.layers

/-- A tile the codestream syntax allows, with room for the 32-bit arithmetic. -/
structure Ok : Prop where
  x : T.x.1 < T.x.2
  y : T.y.1 < T.y.2
  comps : 0 < T.ncomp
  layers : 0 < T.layers
  subx : ∀ c < T.ncomp, 0 < (T.comp c).subx
  suby : ∀ c < T.ncomp, 0 < (T.comp c).suby
  roomx : ∀ c < T.ncomp, ∀ r ≤ (T.comp c).NL, T.x.2 + (T.comp c).subx * 2 ^ ((T.comp c).ppx r + ((T.comp c).NL - r)) ≤ 2 ^ 32
  roomy : ∀ c < T.ncomp, ∀ r ≤ (T.comp c).NL, T.y.2 + (T.comp c).suby * 2 ^ ((T.comp c).ppy r + ((T.comp c).NL - r)) ≤ 2 ^ 32
  count : T.total < 2 ^ 32

end TileP

/-- Add a packet unless it is there already. -/
def addFirst (acc : List Pkt) (q : Pkt) : List Pkt := if q ∈ acc then acc else acc ++ [q]

/-- Each packet at its first turn only. -/
def firsts (l : List Pkt) : List Pkt := l.foldl addFirst []

end Verif.Tile
