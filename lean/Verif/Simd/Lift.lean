import Verif.Dwt.Machine
import Verif.Simd.Lanes
/-
The AVX2 kernels of the reversible 5/3 transform on `int32_t` samples: `source/core/transform/{idwt_avx2.cpp,fdwt_avx2.cpp}`, the extension in place of `dwt.hpp`, and the
choice of kernel in `idwt.cpp` and `fdwt.cpp`.

* Memory is a partial function from offsets to 32-bit words; `none` is a place that does not belong to the allocation (or to the plane).  Loading or storing there makes the
  kernel return `none`.  The words around a row are allocated but hold anything, so a result that depends on them can be told from one that does not.
* What the instructions do is written from memory of the Intel manual, which is not at hand.
* In the scalar parts of these functions an overflow of `int32_t` is undefined behaviour; here it wraps around, as in the vector parts.
* Coordinates are mathematical integers.
-/
namespace Verif.Simd.Lift
open Verif.Dwt (Buf pseo fromLeft loopM ceilHalf copyTo)
open Verif.Simd

/-- Memory made of 32-bit words. -/
abbrev Mem := Buf (BitVec 32)

/-- `_mm256_loadu_si256(p + m)`, `_mm256_loadu_ps`. -/
def load (b : Mem) (m : Int) : Option (V 8) :=
  if h : ∀ i : Fin 8, (b (m + (i.val : Int))).isSome then some fun i => (b (m + (i.val : Int))).get (h i) else none

/-- `_mm256_storeu_si256(p + m, v)`. -/
def store (b : Mem) (m : Int) (v : V 8) : Option Mem :=
  if ∀ i : Fin 8, (b (m + (i.val : Int))).isSome then
    some fun k => if h : m ≤ k ∧ k < m + 8 then some (v ⟨(k - m).toNat, by omega⟩) else b k
  else none

/-- `p[k] = v`. -/
def put (b : Mem) (k : Int) (v : BitVec 32) : Option Mem := if (b k).isSome then some (Function.update b k (some v)) else none

/-- `_mm256_slli_epi64(a, 32)`: in each pair of lanes the first moves up and leaves zero. -/
def slli64 (a : V 8) : V 8 := fun i => if i.val % 2 = 0 then 0#32 else a ⟨i.val - 1, by omega⟩

/-- `_mm256_permute2x128_si256(a, b, 0x21)`. -/
def perm21 (a b : V 8) : V 8 := fun i => if h : i.val < 4 then a ⟨i.val + 4, by omega⟩ else b ⟨i.val - 4, by omega⟩
/-- `_mm256_permute2x128_si256(a, b, 0x20)`. -/
def perm20 (a b : V 8) : V 8 := fun i => if i.val < 4 then a i else b ⟨i.val - 4, by omega⟩
/-- `_mm256_permute2x128_si256(a, b, 0x31)`. -/
def perm31 (a b : V 8) : V 8 := fun i => if h : i.val < 4 then a ⟨i.val + 4, by omega⟩ else b i
/-- `_mm256_alignr_epi8(hi, lo, 4 * n)`: in each half the words of `lo` and then those of `hi`, from word `n` on. -/
def alignr (hi lo : V 8) (n : Fin 4) : V 8 := fun i =>
  if h : i.val % 4 + n.val < 4 then lo ⟨i.val / 4 * 4 + (i.val % 4 + n.val), by omega⟩ else hi ⟨i.val / 4 * 4 + (i.val % 4 + n.val - 4), by omega⟩
/-- `_mm256_unpacklo_epi32`. -/
def unpackLo (a b : V 8) : V 8 := fun i => if i.val % 2 = 0 then a ⟨i.val / 4 * 4 + i.val % 4 / 2, by omega⟩ else b ⟨i.val / 4 * 4 + i.val % 4 / 2, by omega⟩
/-- `_mm256_unpackhi_epi32`. -/
def unpackHi (a b : V 8) : V 8 := fun i => if i.val % 2 = 0 then a ⟨i.val / 4 * 4 + 2 + i.val % 4 / 2, by omega⟩ else b ⟨i.val / 4 * 4 + 2 + i.val % 4 / 2, by omega⟩
/-- `_mm256_shuffle_ps(a, b, 0x88)`. -/
def shuf88 (a b : V 8) : V 8 := fun i => if i.val % 4 < 2 then a ⟨i.val / 4 * 4 + 2 * (i.val % 2), by omega⟩ else b ⟨i.val / 4 * 4 + 2 * (i.val % 2), by omega⟩
/-- `_mm256_shuffle_ps(a, b, 0xDD)`. -/
def shufDD (a b : V 8) : V 8 := fun i => if i.val % 4 < 2 then a ⟨i.val / 4 * 4 + 2 * (i.val % 2) + 1, by omega⟩ else b ⟨i.val / 4 * 4 + 2 * (i.val % 2) + 1, by omega⟩
/-- `_mm256_permutevar8x32_epi32(a, idx)`. -/
def permute (a : V 8) (idx : Fin 8 → Fin 8) : V 8 := fun i => a (idx i)

/-! ### Kernels in place -/

/-- fdwt_avx2.cpp:367-383, idwt_avx2.cpp:541-543: `(X[n-1] + X[n+1]) >> 1` in the lanes of the targets, zero in the others. -/
def sumHalf (x0 x2 : V 8) : V 8 := vsrai (slli64 (vadd x0 x2)) 1
/-- idwt_avx2.cpp:513-518, fdwt_avx2.cpp:398-403: `(X[n-1] + X[n+1] + 2) >> 2`. -/
def sumQuarter (x0 x2 : V 8) : V 8 := vsrai (slli64 (vadd (vadd x0 x2) (vset 2#32))) 2

/-- idwt_avx2.cpp:519-520, 531. -/
def lpInv (x0 x2 : V 8) : V 8 := vsub x0 (sumQuarter x0 x2)
/-- idwt_avx2.cpp:546-547, 557. -/
def hpInv (x0 x2 : V 8) : V 8 := vadd x0 (sumHalf x0 x2)
/-- fdwt_avx2.cpp:373-374, 383. -/
def hpFwd (x0 x2 : V 8) : V 8 := vsub x0 (sumHalf x0 x2)
/-- fdwt_avx2.cpp:402-403, 411. -/
def lpFwd (x0 x2 : V 8) : V 8 := vadd x0 (sumQuarter x0 x2)

/-- One turn of the second loop of a step, e.g. idwt_avx2.cpp:524-532; `m` is the address of the first load. -/
def group (g : V 8 → V 8 → V 8) (m : Int) (b : Mem) : Option Mem :=
  (load b m).bind fun x0 => (load b (m + 2)).bind fun x2 => store b m (g x0 x2)

/-- One turn of the first loop of a step, e.g. idwt_avx2.cpp:508-523: four loads, then two stores. -/
def pair (g : V 8 → V 8 → V 8) (m : Int) (b : Mem) : Option Mem :=
  (load b m).bind fun x0a => (load b (m + 2)).bind fun x2a => (load b (m + 8)).bind fun x0b => (load b (m + 10)).bind fun x2b =>
    (store b m (g x0a x2a)).bind fun b => store b (m + 8) (g x0b x2b)

/-- The second loop; `r` is `simdlen - i`. -/
def singles (g : V 8 → V 8 → V 8) (r m : Int) (b : Mem) : Option Mem :=
  if 0 < r then (group g m b).bind (singles g (r - 4) (m + 8)) else some b
termination_by r.toNat

/-- A step: the loop over two groups while `i + 4 < simdlen`, then the loop over single groups. -/
def pairs (g : V 8 → V 8 → V 8) (r m : Int) (b : Mem) : Option Mem :=
  if 4 < r then (pair g m b).bind (pairs g (r - 8) (m + 16)) else singles g r m b
termination_by r.toNat

/-- idwt_avx2.cpp:498-560 `idwt_1d_filtr_rev53_i32_avx2`. -/
def inverse (left i0 i1 : Int) (X : Mem) : Option Mem :=
  let start := i0 / 2
  let stop := i1 / 2
  let offset := left - i0 % 2
  (pairs lpInv (stop + 1 - start) (offset - 1) X).bind fun X => pairs hpInv (stop - start) offset X

/-- fdwt_avx2.cpp:351-413 `fdwt_1d_filtr_rev53_i32_avx2`. -/
def forward (left i0 i1 : Int) (X : Mem) : Option Mem :=
  let start := ceilHalf i0
  let stop := ceilHalf i1
  let offset := left + i0 % 2
  (pairs hpFwd (stop - (start - 1)) (-2 + offset) X).bind fun X => pairs lpFwd (stop - start) (0 + offset - 1) X

/-- dwt.hpp:179-187 `dwt_pse_fill_inplace_i32`: eight words reversed on each side. -/
def fillWide (w : Nat) (b : Mem) : Option Mem :=
  (load b 1).bind fun lv => (store b (-8) (permute lv Fin.rev)).bind fun b =>
    (load b (w - 9)).bind fun rv => store b w (permute rv Fin.rev)

/-- `row[dst] = row[src]`. -/
def move (dst src : Int) (b : Mem) : Option Mem := (b src).bind fun v => put b dst v

/-- idwt.cpp:864-867, dwt.hpp:224-227: the extension of rows below nine samples, and of the row copied for the analysis. -/
def fillNarrow (left right : Nat) (i0 : Int) (w : Nat) (b : Mem) : Option Mem :=
  (loopM left (fun i b => (pseo (i0 - (i + 1)) i0 (i0 + w)).bind fun s => move (-(i + 1)) s b) b).bind
    fun b => loopM right (fun i b => (pseo (i0 + w - i0 + (i + 1) - 1 + i0) i0 (i0 + w)).bind fun s => move (w + (i + 1) - 1) s b) b

/-- idwt.cpp:1236-1237: words before the row that the synthesis uses. -/
def invLeft (u0 : Int) : Nat := if u0 % 2 = 0 then 1 else 2
@[inherit_doc invLeft]
def invRight (u1 : Int) : Nat := if u1 % 2 = 0 then 2 else 1
/-- fdwt.cpp:763-771. -/
def fwdLeft (u0 : Int) : Nat := if u0 % 2 = 0 then 2 else 1
@[inherit_doc fwdLeft]
def fwdRight (u1 : Int) : Nat := if u1 % 2 = 0 then 1 else 2

/-- idwt.cpp:856-870 `idwt_1d_row_inplace_i32`; the row starts at `0`. -/
def rowInverse (u0 : Int) (w : Nat) (b : Mem) : Option Mem :=
  let left := invLeft u0
  (if 9 ≤ w then fillWide w b else fillNarrow left (invRight (u0 + w)) u0 w b).bind fun b =>
    (inverse left u0 (u0 + w) (fromLeft left b)).map (fromLeft (-left))

/-- dwt.hpp:221-223: `memcpy` of the row. -/
def blit (x : List (BitVec 32)) (b : Mem) : Option Mem :=
  if ∀ i < x.length, (b (i : Int)).isSome then some fun k => if h : 0 ≤ k ∧ k < x.length then some (x[k.toNat]'(by omega)) else b k else none

/-- fdwt.cpp:1048-1053 with dwt.hpp:214-228: the row is copied to `horiz_tmp`, extended there, and filtered; offsets are relative to the copy. -/
def rowForward (u0 : Int) (x : List (BitVec 32)) (tmp : Mem) : Option Mem :=
  let left := fwdLeft u0
  (blit x tmp).bind fun b => (fillNarrow left (fwdRight (u0 + x.length)) u0 x.length b).bind fun b =>
    (forward left u0 (u0 + x.length) (fromLeft left b)).map (fromLeft (-left))

/-! ### Kernels from and to planes -/

/-- idwt_avx2.cpp `avx2_shl1_epi32`, fdwt_avx2.cpp:544-547: all words one lane down, the first of `b` at the end. -/
def shl1 (a b : V 8) : V 8 := alignr (perm21 a b) a 1
/-- idwt_avx2.cpp `avx2_shr1_epi32`, fdwt_avx2.cpp:548-551: all words one lane up, the last of `p` in front. -/
def shr1 (p a : V 8) : V 8 := alignr a (perm21 p a) 3

/-- idwt_avx2.cpp:784-785: the sample at the mirror image of position `i`, taken from a plane. -/
def planeAt (p : Mem) (u0 u1 i : Int) : Option (BitVec 32) := (pseo i u0 u1).bind fun k => p (k / 2)

/-- idwt_avx2.cpp:794-811: the vector loop of the synthesis from planes. -/
def planarInvLoop (lp hp : Mem) (N : Int) (oM1 : BitVec 32) (j : Int) (out : Mem) : Option (Int × Mem) :=
  if j + 8 ≤ N - 1 then
    (load hp j).bind fun Ob =>
    (if j = 0 then some (shr1 (vset oM1) Ob) else load hp (j - 1)).bind fun Ojm1 =>
    (load lp j).bind fun Eb =>
    let S1b := vsub Eb (vsrai (vadd (vadd Ojm1 Ob) (vset 2#32)) 2)
    (lp (j + 8)).bind fun l8 => (hp (j + 7)).bind fun h7 => (hp (j + 8)).bind fun h8 =>
    let s1next := l8 - (h7 + h8 + 2#32).sshiftRight 2
    let S1n := shl1 S1b (vset s1next)
    let S2b := vadd Ob (vsrai (vadd S1b S1n) 1)
    let lo := unpackLo S1b S2b
    let hi := unpackHi S1b S2b
    (store out (2 * j) (perm20 lo hi)).bind fun out => (store out (2 * j + 8) (perm31 lo hi)).bind fun out =>
    planarInvLoop lp hp N oM1 (j + 8) out
  else some (j, out)
termination_by (N - j).toNat

/-- idwt_avx2.cpp:815-820: the values `s1t[0], s1t[1], …` of the tail, `c` of them from position `t` on. -/
def tailS1 (E O : Int → Option (BitVec 32)) : Nat → Int → BitVec 32 → Option (List (BitVec 32))
  | 0, _, _ => some []
  | c + 1, t, oPrev =>
    (O t).bind fun o => (E t).bind fun e => (tailS1 E O c (t + 1) o).map fun l => (e - (oPrev + o + 2#32).sshiftRight 2) :: l

/-- idwt_avx2.cpp:814-825: the tail of the synthesis from planes.  `s1t` has twelve places. -/
def planarInvTail (E O : Int → Option (BitVec 32)) (N j : Int) (out : Mem) : Option Mem :=
  let c := (N - j + 1).toNat
  if 12 < c then none
  else
    (O (j - 1)).bind fun oPrev => (tailS1 E O c j oPrev).bind fun s1t =>
    (loopM c (fun i out => s1t[i]?.bind fun v => put out (2 * (j + i)) v) out).bind fun out =>
    loopM (N - j).toNat (fun i out => (O (j + i)).bind fun o => s1t[i]?.bind fun a => s1t[i + 1]?.bind fun b =>
      put out (2 * (j + i) + 1) (o + (a + b).sshiftRight 1)) out

/-- idwt_avx2.cpp:781-826 `idwt_1d_filtr_rev53_planar_i32_avx2`. -/
def planarInverse (u0 u1 : Int) (lp hp out : Mem) : Option Mem :=
  let N := u1 / 2 - u0 / 2
  let E := fun j => planeAt lp u0 u1 (u0 + 2 * j)
  let O := fun j => planeAt hp u0 u1 (u0 + 2 * j + 1)
  (O (-1)).bind fun oM1 => (planarInvLoop lp hp N oM1 0 out).bind fun r => planarInvTail E O N r.1 r.2

/-- fdwt_avx2.cpp:455-462, 552-557: the even and the odd words of sixteen. -/
def loadDeint (b : Mem) (m : Int) : Option (V 8 × V 8) :=
  let idx : Fin 8 → Fin 8 := fun i => (#v[0, 1, 4, 5, 2, 3, 6, 7] : Vector (Fin 8) 8)[i]
  (load b m).bind fun x => (load b (m + 8)).map fun y => (permute (shuf88 x y) idx, permute (shufDD x y) idx)

/-- fdwt_avx2.cpp:586-600: the vector loop of the analysis to planes; the result is `n`, `T1_nm2` and the planes. -/
def planarFwdLoop (inp : Mem) (NH : Int) (n : Int) (Em Om Tm : V 8) (lp hp : Mem) : Option (Int × V 8 × Mem × Mem) :=
  if 8 * n + 7 ≤ NH - 1 then
    (loadDeint inp (16 * n)).bind fun r =>
    let T1 := vsub Om (vsrai (vadd Em (shl1 Em r.1)) 1)
    let T2 := vadd Em (vsrai (vadd (vadd (shr1 Tm T1) T1) (vset 2#32)) 2)
    (store hp (8 * (n - 1)) T1).bind fun hp => (store lp (8 * (n - 1)) T2).bind fun lp =>
    planarFwdLoop inp NH (n + 1) r.1 r.2 T1 lp hp
  else some (n, Tm, lp, hp)
termination_by (NH - 8 * n).toNat

/-- fdwt_avx2.cpp:605-616: the scalar end of the analysis to planes.  `t1buf` has sixteen places. -/
def planarFwdDrain (E O : Int → Option (BitVec 32)) (NL NH P : Int) (t1prev : BitVec 32) (lp hp : Mem) : Option (Mem × Mem) :=
  let c := (NL - P).toNat
  if 16 < c then none
  else
    ((List.range c).mapM fun (i : Nat) => (O (P + i)).bind fun o => (E (P + i)).bind fun a => (E (P + i + 1)).map fun b => o - (a + b).sshiftRight 1).bind fun t1buf =>
    (loopM (NH - P).toNat (fun i hp => t1buf[i]?.bind fun v => put hp (P + i) v) hp).bind fun hp =>
    (loopM c (fun i lp => (if i = 0 then some t1prev else t1buf[i - 1]?).bind fun t1l => t1buf[i]?.bind fun t => (E (P + i)).bind fun e =>
      put lp (P + i) (e + (t1l + t + 2#32).sshiftRight 2)) lp).map fun lp => (lp, hp)

/-- fdwt_avx2.cpp:566-617 `fdwt_1d_filtr_rev53_planar_i32_avx2`: the planes with the low-pass and the high-pass samples. -/
def planarForward (u0 u1 : Int) (inp lp hp : Mem) : Option (Mem × Mem) :=
  let NH := u1 / 2 - u0 / 2
  let NL := ceilHalf u1 - u0 / 2
  let E := fun j => (pseo (u0 + 2 * j) u0 u1).bind inp
  let O := fun j => (pseo (u0 + 2 * j + 1) u0 u1).bind inp
  (O (-1)).bind fun o => (E (-1)).bind fun a => (E 0).bind fun b =>
  let t1m1 := o - (a + b).sshiftRight 1
  (loadDeint inp 0).bind fun r => (planarFwdLoop inp NH 1 r.1 r.2 (vset t1m1) lp hp).bind fun q =>
  planarFwdDrain E O NL NH (8 * (q.1 - 1)) (q.2.1 7) q.2.2.1 q.2.2.2

/-! ### Vertical steps -/

/-- The loop of a vertical step, e.g. idwt_avx2.cpp:828-840: eight columns at a time while they fit, then one at a time; `tgt` and its neighbours are rows of `n` words. -/
def vertical (g : V 8 → V 8 → V 8 → V 8) (f : BitVec 32 → BitVec 32 → BitVec 32 → BitVec 32) (n i : Int) (prev next tgt : Mem) : Option Mem :=
  if i + 8 ≤ n then
    (load prev i).bind fun a => (load next i).bind fun b => (load tgt i).bind fun t =>
    (store tgt i (g a b t)).bind (vertical g f n (i + 8) prev next)
  else if i < n then
    (prev i).bind fun a => (next i).bind fun b => (tgt i).bind fun t => (put tgt i (f a b t)).bind (vertical g f n (i + 1) prev next)
  else some tgt
termination_by (n - i).toNat

/-- idwt_avx2.cpp:828-840 `idwt_rev_ver_lp_step_i32_avx2`. -/
def verInvLp (n : Int) : Mem → Mem → Mem → Option Mem :=
  vertical (fun a b t => vsub t (vsrai (vadd (vadd a b) (vset 2#32)) 2)) (fun a b t => t - (a + b + 2#32).sshiftRight 2) n 0
/-- idwt_avx2.cpp:842-852 `idwt_rev_ver_hp_step_i32_avx2`. -/
def verInvHp (n : Int) : Mem → Mem → Mem → Option Mem :=
  vertical (fun a b t => vadd t (vsrai (vadd a b) 1)) (fun a b t => t + (a + b).sshiftRight 1) n 0
/-- fdwt_avx2.cpp:416-426 `fdwt_rev_ver_hp_step_i32_avx2`. -/
def verFwdHp (n : Int) : Mem → Mem → Mem → Option Mem :=
  vertical (fun a b t => vsub t (vsrai (vadd a b) 1)) (fun a b t => t - (a + b).sshiftRight 1) n 0
/-- fdwt_avx2.cpp:428-440 `fdwt_rev_ver_lp_step_i32_avx2`. -/
def verFwdLp (n : Int) : Mem → Mem → Mem → Option Mem :=
  vertical (fun a b t => vadd t (vsrai (vadd (vadd a b) (vset 2#32)) 2)) (fun a b t => t + (a + b + 2#32).sshiftRight 2) n 0

/-! ### Choice of the kernel -/

/-- idwt.cpp:1092-1170, 1196-1206 `idwt_1d_row_from_planar` with `use_i32`, for two samples or more: from the planes when `u0` is even and `N ≥ 16`, else interleaved into the
slot (idwt.cpp:1004-1090, as a copy) and filtered in place.  `slot` is the memory of the ring slot around the row, of any contents. -/
def rowFromPlanar (u0 : Int) (lp hp : List (BitVec 32)) (slot : Mem) : Option Mem :=
  let w := lp.length + hp.length
  if u0 % 2 = 0 ∧ (u0 + w) / 2 - u0 / 2 ≥ 16 then planarInverse u0 (u0 + w) (Dwt.bufOf lp) (Dwt.bufOf hp) slot
  else (blit (Dwt.join u0 lp hp) slot).bind (rowInverse u0 w)

/-- fdwt.cpp:958-986, 1048-1053 for two samples or more: to planes when the planes are there (fdwt.cpp:1124-1133: `u0` even and `NH ≥ 16`), else filtered in `tmp` and split
by the sink (coding_units.cpp:690-790).  `lpMem` and `hpMem` are the planes, of any contents; the result is the low-pass and the high-pass row. -/
def rowToPlanar (u0 : Int) (x : List (BitVec 32)) (tmp lpMem hpMem : Mem) : Option (List (BitVec 32) × List (BitVec 32)) :=
  let u1 := u0 + x.length
  if u0 % 2 = 0 ∧ u1 / 2 - u0 / 2 ≥ 16 then
    (planarForward u0 u1 (Dwt.bufOf x) lpMem hpMem).bind fun r =>
      (Dwt.readBack 0 (ceilHalf u1 - u0 / 2).toNat r.1).bind fun l => (Dwt.readBack 0 (u1 / 2 - u0 / 2).toNat r.2).map fun h => (l, h)
  else (rowForward u0 x tmp).bind fun b => (Dwt.readBack 0 x.length b).map (Dwt.split u0)

end Verif.Simd.Lift
