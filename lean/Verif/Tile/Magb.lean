import Verif.Tile.Codestream
/-
The magnitude bound the encoder announces in CAP, for all quantization styles.
Source: /repo/source/core/codestream/j2kmarkers.cpp:1009-1020 (`get_MAGB`), /repo/source/core/interface/encoder.cpp:653-671,
/repo/source/core/coding/coding_units.cpp:2617-2646 (`M_b`).
-/
namespace Verif.Tile.Pipe

/-- j2kmarkers.cpp:1009-1020 `get_MAGB`: the largest exponent for style 0, the smallest one otherwise. -/
def magbOf (style : Nat) (sp : List Nat) : Nat :=
  if style = 0 then magb sp else sp.foldl (fun t v => if v / 2048 < t then v / 2048 % 256 else t) 255

/-- encoder.cpp:661-667: `bits0_4`. -/
def magbBits (m : Nat) : Nat :=
  if m < 27 then (if 8 < m then m - 8 else 0) else if m ≤ 71 then (m - 27) / 4 + 19 else 31

/-- encoder.cpp:654-669: `Ccap15`; bits 11 to 15 are constantly zero, bit 5 is set for the irreversible transform. -/
def ccap15Of (style : Nat) (sp : List Nat) : Nat := (if style = 0 then 0 else 2 ^ 5) + magbBits (magbOf style sp)

/-- coding_units.cpp:2637-2646: `M_b` of style 2 from the word of the subband, all in `uint8_t`. -/
def magBitsExp (guard v : Nat) : Nat := (v / 2048 + guard + 255) % 256

/-- coding_units.cpp:2635, 2643: `M_b` of style 1 (derived) at level `nb` of `nl` from the only word. -/
def magBitsDer (guard nl nb v : Nat) : Nat := (v / 2048 + 256 - nl + nb + guard + 255) % 256

/-- Specification, not from /repo: the bound `B` that bits 0 to 4 of `Ccap15` stand for in Rec. ITU-T T.814.  The text of the
standard is not part of the repository; this table is written down from memory and belongs to what has to be trusted. -/
def boundOf (p : Nat) : Nat := if p = 0 then 8 else if p < 20 then p + 8 else if p < 31 then 4 * (p - 19) + 27 else 74

end Verif.Tile.Pipe
