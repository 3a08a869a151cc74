import Verif.Simd.Lift
/-
The NEON and AVX-512 kernels of the reversible 5/3 transform on `int32_t` samples: `source/core/transform/{idwt_neon.cpp,fdwt_neon.cpp,idwt_avx512.cpp,fdwt_avx512.cpp}`,
the NEON extension in place of `dwt.hpp`, and the choice of kernel of these builds in `idwt.cpp` and `fdwt.cpp`.

* Memory is as in `Verif.Simd.Lift`: `none` does not belong to the allocation, and loading or storing there makes the kernel return `none`.
* The two instruction sets share the shape of most loops; `L` is the number of lanes (4 or 16), and `Isa` picks the instructions where they differ.
* What the instructions do is written from memory of the Arm and Intel manuals, which are not at hand.
* In the scalar parts an overflow of `int32_t` is undefined behaviour; here it wraps around, as in the vector parts.
* Coordinates are mathematical integers.
-/
namespace Verif.Simd.Lift
open Verif.Dwt (Buf pseo fromLeft loopM ceilHalf)
open Verif.Simd

namespace Wide

/-- The builds with `OPENHTJ2K_ENABLE_ARM_NEON` and with `OPENHTJ2K_ENABLE_AVX512`. -/
inductive Isa | neon | avx512
deriving DecidableEq

/-- Lanes of a register. -/
def Isa.lanes : Isa → Nat
  | .neon => 4
  | .avx512 => 16

/-- `vld1q_s32(p + m)`, `_mm512_loadu_si512(p + m)`. -/
def loadL (L : Nat) (b : Mem) (m : Int) : Option (V L) :=
  if h : ∀ i : Fin L, (b (m + (i.val : Int))).isSome then some fun i => (b (m + (i.val : Int))).get (h i) else none

/-- `vst1q_s32(p + m, v)`, `_mm512_storeu_si512(p + m, v)`. -/
def storeL {L : Nat} (b : Mem) (m : Int) (v : V L) : Option Mem :=
  if ∀ i : Fin L, (b (m + (i.val : Int))).isSome then
    some fun k => if h : m ≤ k ∧ k < m + L then some (v ⟨(k - m).toNat, by omega⟩) else b k
  else none

/-- `vextq_s32(a, b, n)`, `_mm512_alignr_epi32(b, a, n)`: the lanes of `a` from `n` on, then those of `b`; `n < L`. -/
def ext {L : Nat} (a b : V L) (n : Nat) : V L := fun i =>
  if h : i.val + n < L then a ⟨i.val + n, h⟩ else b ⟨(i.val + n - L) % L, Nat.mod_lt _ i.pos⟩

/-- `vld2q_s32(p + m)`: the even and the odd words of eight. -/
def vld2 (b : Mem) (m : Int) : Option (V 4 × V 4) :=
  (loadL 8 b m).map fun x => (fun i => x ⟨2 * i.val, by omega⟩, fun i => x ⟨2 * i.val + 1, by omega⟩)

/-- The eight words that `vst2q_s32` stores. -/
def zip2 (v : V 4 × V 4) : V 8 := fun i => if i.val % 2 = 0 then v.1 ⟨i.val / 2, by omega⟩ else v.2 ⟨i.val / 2, by omega⟩
/-- `vst2q_s32(p + m, v)`. -/
def vst2 (b : Mem) (m : Int) (v : V 4 × V 4) : Option Mem := storeL b m (zip2 v)

/-- `_mm512_permutex2var_epi32(a, idx, b)`, `_mm512_permutex2var_ps`. -/
def permute2 (a : V 16) (idx : Fin 16 → Fin 32) (b : V 16) : V 16 := fun i =>
  if h : (idx i).val < 16 then a ⟨(idx i).val, h⟩ else b ⟨(idx i).val - 16, by omega⟩

/-- idwt_avx512.cpp:838. -/
def idxLo : Fin 16 → Fin 32 := fun i => (#v[0, 16, 1, 17, 2, 18, 3, 19, 4, 20, 5, 21, 6, 22, 7, 23] : Vector (Fin 32) 16)[i]
/-- idwt_avx512.cpp:839. -/
def idxHi : Fin 16 → Fin 32 := fun i => (#v[8, 24, 9, 25, 10, 26, 11, 27, 12, 28, 13, 29, 14, 30, 15, 31] : Vector (Fin 32) 16)[i]
/-- fdwt_avx512.cpp:547. -/
def idxE : Fin 16 → Fin 32 := fun i => (#v[0, 2, 4, 6, 8, 10, 12, 14, 16, 18, 20, 22, 24, 26, 28, 30] : Vector (Fin 32) 16)[i]
/-- fdwt_avx512.cpp:548. -/
def idxO : Fin 16 → Fin 32 := fun i => (#v[1, 3, 5, 7, 9, 11, 13, 15, 17, 19, 21, 23, 25, 27, 29, 31] : Vector (Fin 32) 16)[i]

/-- `for (; i + e < n; i += d) body(i)`; `d` is never zero in the uses. -/
def sweep {σ : Type} (d e : Nat) (n : Int) (body : Int → σ → Option σ) (i : Int) (x : σ) : Option (Int × σ) :=
  if i + e < n ∧ 0 < d then (body i x).bind (sweep d e n body (i + d)) else some (i, x)
termination_by (n - i).toNat
decreasing_by all_goals omega

/-! ### Kernels in place -/

/-- `_mm512_slli_epi64(a, 32)`. -/
def slli64 {L : Nat} (a : V L) : V L := fun i => if i.val % 2 = 0 then 0#32 else a ⟨i.val - 1, by omega⟩

/-- fdwt_avx512.cpp:430-440: one group of sixteen words, `(X[n-1] + X[n+1]) >> 1` subtracted in the odd lanes. -/
def hpFwd16 (x0 x2 : V 16) : V 16 := vsub x0 (vsrai (slli64 (vadd x0 x2)) 1)
/-- fdwt_avx512.cpp:462-473. -/
def lpFwd16 (x0 x2 : V 16) : V 16 := vadd x0 (vsrai (slli64 (vadd (vadd x0 x2) (vset 2#32))) 2)
/-- idwt_avx512.cpp:545-552. -/
def lpInv16 (x0 x2 : V 16) : V 16 := vsub x0 (vsrai (slli64 (vadd (vadd x0 x2) (vset 2#32))) 2)
/-- idwt_avx512.cpp:575-580. -/
def hpInv16 (x0 x2 : V 16) : V 16 := vadd x0 (vsrai (slli64 (vadd x0 x2)) 1)

/-- The even lanes of eight words, as `vld2q_s32` delivers them. -/
def evens (x : V 8) : V 4 := fun i => x ⟨2 * i.val, by omega⟩
/-- The odd lanes. -/
def odds (x : V 8) : V 4 := fun i => x ⟨2 * i.val + 1, by omega⟩
/-- fdwt_neon.cpp:420-437: one group of eight words, between `vld2q_s32` and `vst2q_s32`. -/
def hpFwd4 (x0 x2 : V 8) : V 8 := zip2 (evens x0, vsub (odds x0) (vsrai (vadd (evens x0) (evens x2)) 1))
/-- fdwt_neon.cpp:441-460. -/
def lpFwd4 (x0 x2 : V 8) : V 8 := zip2 (evens x0, vadd (odds x0) (vsrai (vadd (vadd (evens x0) (evens x2)) (vset 2#32)) 2))

/-- One turn of the second loop of a step, e.g. idwt_avx512.cpp:556-565, fdwt_neon.cpp:432-437; a group has `W` words. -/
def groupW {W : Nat} (g : V W → V W → V W) (m : Int) (b : Mem) : Option Mem :=
  (loadL W b m).bind fun x0 => (loadL W b (m + 2)).bind fun x2 => storeL b m (g x0 x2)

/-- One turn of the first loop of a step: four loads, then two stores. -/
def pairW {W : Nat} (g : V W → V W → V W) (m : Int) (b : Mem) : Option Mem :=
  (loadL W b m).bind fun x0a => (loadL W b (m + 2)).bind fun x2a => (loadL W b (m + W)).bind fun x0b => (loadL W b (m + W + 2)).bind fun x2b =>
    (storeL b m (g x0a x2a)).bind fun b => storeL b (m + W) (g x0b x2b)

/-- A step: pairs of groups while `i + H < simdlen`, then single groups while `i < simdlen`, where a group of `W = 2 H` words has `H` targets. -/
def stepW {W : Nat} (H : Nat) (g : V W → V W → V W) (simdlen m : Int) (b : Mem) : Option Mem :=
  (sweep (2 * H) H simdlen (fun i b => pairW g (m + 2 * i) b) 0 b).bind fun r =>
    (sweep H 0 simdlen (fun i b => groupW g (m + 2 * i) b) r.1 r.2).map fun r => r.2

/-- fdwt_avx512.cpp:417-487 `fdwt_1d_filtr_rev53_i32_avx512`, fdwt_neon.cpp:410-461 `fdwt_1d_filtr_rev53_i32_neon`. -/
def forwardW (isa : Isa) (left i0 i1 : Int) (X : Mem) : Option Mem :=
  let start := ceilHalf i0
  let stop := ceilHalf i1
  let offset := left + i0 % 2
  match isa with
  | .avx512 => (stepW 8 hpFwd16 (stop - (start - 1)) (-2 + offset) X).bind fun X => stepW 8 lpFwd16 (stop - start) (0 + offset - 1) X
  | .neon => (stepW 4 hpFwd4 (stop - (start - 1)) (-2 + offset) X).bind fun X => stepW 4 lpFwd4 (stop - start) (0 + offset - 1) X

/-- idwt_neon.cpp:712-726: one turn of the fused loop; the state is the memory from `B = X + offset` on and `o_carry`. -/
def fusedTurn (j : Int) (x : Mem × BitVec 32) : Option (Mem × BitVec 32) :=
  (vld2 x.1 (2 * j)).bind fun xb =>
  let Ojm1 := ext (vset x.2) xb.2 3
  let S1b := vsub xb.1 (vsrai (vadd (vadd Ojm1 xb.2) (vset 2#32)) 2)
  let o3 := xb.2 3
  (x.1 (2 * (j + 4))).bind fun e => (x.1 (2 * (j + 4) + 1)).bind fun o =>
  let s1next := e - (o3 + o + 2#32).sshiftRight 2
  let S1n := ext S1b (vset s1next) 1
  (vst2 x.1 (2 * j) (S1b, vadd xb.2 (vsrai (vadd S1b S1n) 1))).map fun b => (b, o3)

/-- idwt_neon.cpp:730-734: the first loop of the tail. -/
def fusedTailLp (t : Int) (x : Mem × BitVec 32) : Option (Mem × BitVec 32) :=
  (x.1 (2 * t + 1)).bind fun o => (x.1 (2 * t)).bind fun e => (put x.1 (2 * t) (e - (x.2 + o + 2#32).sshiftRight 2)).map fun b => (b, o)

/-- idwt_neon.cpp:735-737: the second loop of the tail. -/
def fusedTailHp (t : Int) (b : Mem) : Option Mem :=
  (b (2 * t)).bind fun e => (b (2 * t + 2)).bind fun e' => (b (2 * t + 1)).bind fun o => put b (2 * t + 1) (o + (e + e').sshiftRight 1)

/-- idwt_neon.cpp:693-739, on the memory from `B` on; the loop runs while `j + 4 ≤ N`, the tail from `t = j` while `t ≤ N` and while `t < N`. -/
def fused (N : Int) (B : Mem) : Option Mem :=
  (B (-1)).bind fun oCarry => (sweep 4 3 N fusedTurn 0 (B, oCarry)).bind fun r =>
  (sweep 1 0 (N + 1) fusedTailLp r.1 r.2).bind fun q => (sweep 1 0 N fusedTailHp r.1 q.2.1).map fun z => z.2

/-- idwt_avx512.cpp:530-590 `idwt_1d_filtr_rev53_i32_avx512`, idwt_neon.cpp:693-739 `idwt_1d_filtr_rev53_i32_neon`. -/
def inverseW (isa : Isa) (left i0 i1 : Int) (X : Mem) : Option Mem :=
  let start := i0 / 2
  let stop := i1 / 2
  let offset := left - i0 % 2
  match isa with
  | .avx512 => (stepW 8 lpInv16 (stop + 1 - start) (offset - 1) X).bind fun X => stepW 8 hpInv16 (stop - start) offset X
  | .neon => (fused (stop - start) (fromLeft (-offset) X)).map (fromLeft offset)

/-- `vrev64q_s32(vextq_s32(a, a, 2))`. -/
def rev4 (a : V 4) : V 4 := let e := ext a a 2; fun i => e ⟨i.val / 2 * 2 + (1 - i.val % 2), by omega⟩

/-- dwt.hpp:188-199: the NEON `dwt_pse_fill_inplace_i32`. -/
def fillWide4 (w : Nat) (b : Mem) : Option Mem :=
  (loadL 4 b 1).bind fun lo => (loadL 4 b 5).bind fun hi => (storeL b (-4) (rev4 lo)).bind fun b => (storeL b (-8) (rev4 hi)).bind fun b =>
  (loadL 4 b (w - 9)).bind fun rlo => (loadL 4 b (w - 5)).bind fun rhi => (storeL b w (rev4 rhi)).bind fun b => storeL b (w + 4) (rev4 rlo)

/-- idwt.cpp:858-873 `idwt_1d_row_inplace_i32`; an AVX-512 build also has `OPENHTJ2K_ENABLE_AVX2`, so it takes that branch of `dwt_pse_fill_inplace_i32`. -/
def rowInverseW (isa : Isa) (u0 : Int) (w : Nat) (b : Mem) : Option Mem :=
  let left := invLeft u0
  (if 9 ≤ w then (match isa with | .neon => fillWide4 w b | .avx512 => fillWide w b) else fillNarrow left (invRight (u0 + w)) u0 w b).bind fun b =>
    (inverseW isa left u0 (u0 + w) (fromLeft left b)).map (fromLeft (-left))

/-- fdwt.cpp:1043-1048 with dwt.hpp:221-231. -/
def rowForwardW (isa : Isa) (u0 : Int) (x : List (BitVec 32)) (tmp : Mem) : Option Mem :=
  let left := fwdLeft u0
  (blit x tmp).bind fun b => (fillNarrow left (fwdRight (u0 + x.length)) u0 x.length b).bind fun b =>
    (forwardW isa left u0 (u0 + x.length) (fromLeft left b)).map (fromLeft (-left))

/-! ### Kernels from and to planes -/

/-- The odd samples one position earlier.  idwt_neon.cpp:928: `vextq_s32(vdupq_n_s32(o_carry), Ob, 3)`; idwt_avx512.cpp:846-847: from `o_m1` in the first block, reloaded
later.  `c` is `o_carry`, in the AVX-512 kernel `o_m1` (looked at in the first block only). -/
def before (isa : Isa) (hp : Mem) (j : Int) (c : BitVec 32) (Ob : V isa.lanes) : Option (V isa.lanes) :=
  match isa with
  | .neon => some (ext (vset c) Ob 3)
  | .avx512 => if j = 0 then some (ext (vset c) Ob 15) else loadL 16 hp (j - 1)

/-- Word `O[j + L - 1]`.  idwt_neon.cpp:931: lane 3 of the block; idwt_avx512.cpp:852: `hp[j + 15]`. -/
def lastOdd (isa : Isa) (hp : Mem) (j : Int) (Ob : V isa.lanes) : Option (BitVec 32) :=
  match isa with
  | .neon => some (Ob ⟨3, by decide⟩)
  | .avx512 => hp (j + 15)

/-- The first lane shifted out, the last lane `c`: idwt_neon.cpp:933, idwt_avx512.cpp:853. -/
def shiftIn {L : Nat} (a : V L) (c : BitVec 32) : V L := ext a (vset c) 1

/-- Interleaved store of `2 L` words: idwt_neon.cpp:937 `vst2q_s32`, idwt_avx512.cpp:855-858. -/
def weaveStore (isa : Isa) (out : Mem) (m : Int) (a b : V isa.lanes) : Option Mem :=
  match isa with
  | .neon => vst2 out m (a, b)
  | .avx512 => (storeL out m (permute2 a idxLo b)).bind fun out => storeL out (m + 16) (permute2 a idxHi b)

/-- idwt_neon.cpp:925-939, idwt_avx512.cpp:842-859: one turn of the loop of the synthesis from planes. -/
def planarTurn (isa : Isa) (lp hp : Mem) (j : Int) (x : Mem × BitVec 32) : Option (Mem × BitVec 32) :=
  let L := isa.lanes
  (loadL L hp j).bind fun Ob => (before isa hp j x.2 Ob).bind fun Ojm1 => (loadL L lp j).bind fun Eb =>
  let S1b := vsub Eb (vsrai (vadd (vadd Ojm1 Ob) (vset 2#32)) 2)
  (lastOdd isa hp j Ob).bind fun o3 => (lp (j + L)).bind fun l => (hp (j + L)).bind fun h =>
  let s1next := l - (o3 + h + 2#32).sshiftRight 2
  let S1n := shiftIn S1b s1next
  let S2b := vadd Ob (vsrai (vadd S1b S1n) 1)
  (weaveStore isa x.1 (2 * j) S1b S2b).map fun out => (out, o3)

/-- idwt_neon.cpp:941-951, idwt_avx512.cpp:861-872: the tail; `s1t` has 8 or 20 places.  The NEON code starts from `o_carry`, the AVX-512 code from `O(j - 1)`. -/
def planarTailW (isa : Isa) (E O : Int → Option (BitVec 32)) (N j : Int) (carry : BitVec 32) (out : Mem) : Option Mem :=
  let c := (N - j + 1).toNat
  if (match isa with | .neon => 8 | .avx512 => 20) < c then none
  else
    (match isa with | .neon => some carry | .avx512 => O (j - 1)).bind fun oPrev => (tailS1 E O c j oPrev).bind fun s1t =>
    (loopM c (fun i out => s1t[i]?.bind fun v => put out (2 * (j + i)) v) out).bind fun out =>
    loopM (N - j).toNat (fun i out => (O (j + i)).bind fun o => s1t[i]?.bind fun a => s1t[i + 1]?.bind fun b =>
      put out (2 * (j + i) + 1) (o + (a + b).sshiftRight 1)) out

/-- idwt_neon.cpp:911-952 `idwt_1d_filtr_rev53_planar_i32_neon`, idwt_avx512.cpp:823-873 `idwt_1d_filtr_rev53_planar_i32_avx512`; the loop runs while `j + L ≤ N - 1`. -/
def planarInverseW (isa : Isa) (u0 u1 : Int) (lp hp out : Mem) : Option Mem :=
  let N := u1 / 2 - u0 / 2
  let E := fun j => planeAt lp u0 u1 (u0 + 2 * j)
  let O := fun j => planeAt hp u0 u1 (u0 + 2 * j + 1)
  (O (-1)).bind fun oM1 => (sweep isa.lanes isa.lanes N (planarTurn isa lp hp) 0 (out, oM1)).bind fun r => planarTailW isa E O N r.1 r.2.2 r.2.1

/-- fdwt_neon.cpp:607, 615 `vld2q_s32`, fdwt_avx512.cpp:546-559. -/
def loadDeintW (isa : Isa) (b : Mem) (m : Int) : Option (V isa.lanes × V isa.lanes) :=
  match isa with
  | .neon => vld2 b m
  | .avx512 => (loadL 16 b m).bind fun x => (loadL 16 b (m + 16)).map fun y => (permute2 x idxE y, permute2 x idxO y)

/-- `vextq_s32(a, b, 1)`, fdwt_avx512.cpp:543. -/
def shl1W {L : Nat} (a b : V L) : V L := ext a b 1
/-- `vextq_s32(p, a, 3)`, fdwt_avx512.cpp:544. -/
def shr1W {L : Nat} (p a : V L) : V L := ext p a (L - 1)
/-- fdwt_neon.cpp:631 `vgetq_lane_s32(T1_nm2, 3)`, fdwt_avx512.cpp:679. -/
def topLane (isa : Isa) (a : V isa.lanes) : BitVec 32 := match isa with | .neon => a ⟨3, by decide⟩ | .avx512 => ext a a 15 ⟨0, by decide⟩

/-- What the loop of the analysis carries: `E_nm1`, `O_nm1`, `T1_nm2` and the planes. -/
structure FwdState (L : Nat) where
  Em : V L
  Om : V L
  Tm : V L
  lp : Mem
  hp : Mem

/-- fdwt_neon.cpp:614-624, fdwt_avx512.cpp:657-671: one turn of the loop of the analysis to planes.  `P = L (n - 1)` counts instead of `n`. -/
def planarFwdTurn (isa : Isa) (inp : Mem) (P : Int) (x : FwdState isa.lanes) : Option (FwdState isa.lanes) :=
  let L := isa.lanes
  (loadDeintW isa inp (2 * (P + L))).bind fun r =>
  let T1 := vsub x.Om (vsrai (vadd x.Em (shl1W x.Em r.1)) 1)
  let T2 := vadd x.Em (vsrai (vadd (vadd (shr1W x.Tm T1) T1) (vset 2#32)) 2)
  (storeL x.hp P T1).bind fun hp => (storeL x.lp P T2).map fun lp => ⟨r.1, r.2, T1, lp, hp⟩

/-- fdwt_neon.cpp:626-639, fdwt_avx512.cpp:673-690: the scalar end; `t1buf` has 8 or 32 places. -/
def planarDrainW (isa : Isa) (E O : Int → Option (BitVec 32)) (NL NH P : Int) (t1prev : BitVec 32) (lp hp : Mem) : Option (Mem × Mem) :=
  let c := (NL - P).toNat
  if 2 * isa.lanes < c then none
  else
    ((List.range c).mapM fun (i : Nat) => (O (P + i)).bind fun o => (E (P + i)).bind fun a => (E (P + i + 1)).map fun b => o - (a + b).sshiftRight 1).bind fun t1buf =>
    (loopM (NH - P).toNat (fun i hp => t1buf[i]?.bind fun v => put hp (P + i) v) hp).bind fun hp =>
    (loopM c (fun i lp => (if i = 0 then some t1prev else t1buf[i - 1]?).bind fun t1l => t1buf[i]?.bind fun t => (E (P + i)).bind fun e =>
      put lp (P + i) (e + (t1l + t + 2#32).sshiftRight 2)) lp).map fun lp => (lp, hp)

/-- fdwt_neon.cpp:596-640 `fdwt_1d_filtr_rev53_planar_i32_neon`, fdwt_avx512.cpp:639-691 `fdwt_1d_filtr_rev53_planar_i32_avx512`; the loop runs while
`L n + L - 1 ≤ NH - 1`, that is `P + 2 L - 1 < NH`. -/
def planarForwardW (isa : Isa) (u0 u1 : Int) (inp lp hp : Mem) : Option (Mem × Mem) :=
  let NH := u1 / 2 - u0 / 2
  let NL := ceilHalf u1 - u0 / 2
  let E := fun j => (pseo (u0 + 2 * j) u0 u1).bind inp
  let O := fun j => (pseo (u0 + 2 * j + 1) u0 u1).bind inp
  (O (-1)).bind fun o => (E (-1)).bind fun a => (E 0).bind fun b =>
  let t1m1 := o - (a + b).sshiftRight 1
  (loadDeintW isa inp 0).bind fun r => (sweep isa.lanes (2 * isa.lanes - 1) NH (planarFwdTurn isa inp) 0 ⟨r.1, r.2, vset t1m1, lp, hp⟩).bind fun q =>
  planarDrainW isa E O NL NH q.1 (topLane isa q.2.Tm) q.2.lp q.2.hp

/-! ### Vertical steps -/

/-- What a vertical step does to a register: a lifting step in every lane. -/
structure Ver where
  vec : ∀ {L : Nat}, V L → V L → V L → V L
  word : BitVec 32 → BitVec 32 → BitVec 32 → BitVec 32

/-- The four steps, e.g. idwt_neon.cpp:974-981 `idwt_rev_ver_hp_step_i32_neon`, idwt_avx512.cpp:614-633. -/
def vInvHp : Ver := ⟨fun a b t => vadd t (vsrai (vadd a b) 1), fun a b t => t + (a + b).sshiftRight 1⟩
@[inherit_doc vInvHp]
def vInvLp : Ver := ⟨fun a b t => vsub t (vsrai (vadd (vadd a b) (vset 2#32)) 2), fun a b t => t - (a + b + 2#32).sshiftRight 2⟩
@[inherit_doc vInvHp]
def vFwdHp : Ver := ⟨fun a b t => vsub t (vsrai (vadd a b) 1), fun a b t => t - (a + b).sshiftRight 1⟩
@[inherit_doc vInvHp]
def vFwdLp : Ver := ⟨fun a b t => vadd t (vsrai (vadd (vadd a b) (vset 2#32)) 2), fun a b t => t + (a + b + 2#32).sshiftRight 2⟩

/-- `L` columns from `i` on. -/
def colsL (L : Nat) (s : Ver) (prev next : Mem) (i : Int) (tgt : Mem) : Option Mem :=
  (loadL L prev i).bind fun a => (loadL L next i).bind fun b => (loadL L tgt i).bind fun t => storeL tgt i (s.vec a b t)

/-- Two registers of four columns: six loads, then two stores (idwt_neon.cpp:957-964). -/
def cols44 (s : Ver) (prev next : Mem) (i : Int) (tgt : Mem) : Option Mem :=
  (loadL 4 prev i).bind fun a0 => (loadL 4 next i).bind fun b0 => (loadL 4 tgt i).bind fun t0 =>
  (loadL 4 prev (i + 4)).bind fun a1 => (loadL 4 next (i + 4)).bind fun b1 => (loadL 4 tgt (i + 4)).bind fun t1 =>
  (storeL tgt i (s.vec a0 b0 t0)).bind fun tgt => storeL tgt (i + 4) (s.vec a1 b1 t1)

/-- One column. -/
def col1 (s : Ver) (prev next : Mem) (i : Int) (tgt : Mem) : Option Mem :=
  (prev i).bind fun a => (next i).bind fun b => (tgt i).bind fun t => put tgt i (s.word a b t)

/-- idwt_neon.cpp:953-993: the steps of the synthesis; pairs of registers while `i + 8 ≤ n`, single ones while `i + 4 ≤ n`, then columns. -/
def verInvNeon (s : Ver) (n : Int) (prev next tgt : Mem) : Option Mem :=
  (sweep 8 7 n (cols44 s prev next) 0 tgt).bind fun r => (sweep 4 3 n (colsL 4 s prev next) r.1 r.2).bind fun r =>
    (sweep 1 0 n (col1 s prev next) r.1 r.2).map fun r => r.2

/-- fdwt_neon.cpp:463-503: the steps of the analysis; pairs of registers while `i + 4 < n`. -/
def verFwdNeon (s : Ver) (n : Int) (prev next tgt : Mem) : Option Mem :=
  (sweep 8 4 n (cols44 s prev next) 0 tgt).bind fun r => (sweep 4 3 n (colsL 4 s prev next) r.1 r.2).bind fun r =>
    (sweep 1 0 n (col1 s prev next) r.1 r.2).map fun r => r.2

/-- `_mm512_maskz_loadu_epi32(mask, p + m)` with the low `c` bits of the mask set: no access in the other lanes, which are zero. -/
def maskLoad (c : Nat) (b : Mem) (m : Int) : Option (V 16) :=
  if ∀ i : Fin 16, i.val < c → (b (m + (i.val : Int))).isSome then some fun i => if i.val < c then (b (m + (i.val : Int))).getD 0#32 else 0#32 else none

/-- `_mm512_mask_storeu_epi32(p + m, mask, v)`. -/
def maskStore (c : Nat) (b : Mem) (m : Int) (v : V 16) : Option Mem :=
  if ∀ i : Fin 16, i.val < c → (b (m + (i.val : Int))).isSome then
    some fun k => if h : (m ≤ k ∧ k < m + 16) ∧ k < m + c then some (v ⟨(k - m).toNat, by omega⟩) else b k
  else none

/-- idwt_avx512.cpp:591-633, fdwt_avx512.cpp:489-530: sixteen columns while `i + 16 ≤ n`, then the rest under a mask of `(1 << (n - i)) - 1`. -/
def ver512 (s : Ver) (n : Int) (prev next tgt : Mem) : Option Mem :=
  (sweep 16 15 n (colsL 16 s prev next) 0 tgt).bind fun r =>
    if r.1 < n then
      let c := (n - r.1).toNat
      (maskLoad c prev r.1).bind fun a => (maskLoad c next r.1).bind fun b => (maskLoad c r.2 r.1).bind fun t => maskStore c r.2 r.1 (s.vec a b t)
    else some r.2

/-! ### Choice of the kernel -/

/-- idwt.cpp:1118-1132, 1143-1165, 1217-1228 `idwt_1d_row_from_planar` with `use_i32`, for two samples or more.  NEON: from the planes when `u0` is even and `N ≥ 12`.
AVX-512: with sixteen lanes when `N ≥ 32`, with the AVX2 kernel when `16 ≤ N < 32`.  Else interleaved and filtered in place. -/
def rowFromPlanarW (isa : Isa) (u0 : Int) (lp hp : List (BitVec 32)) (slot : Mem) : Option Mem :=
  let w := lp.length + hp.length
  let N := (u0 + w) / 2 - u0 / 2
  let inPlace := (blit (Dwt.join u0 lp hp) slot).bind (rowInverseW isa u0 w)
  match isa with
  | .neon => if u0 % 2 = 0 ∧ N ≥ 12 then planarInverseW .neon u0 (u0 + w) (Dwt.bufOf lp) (Dwt.bufOf hp) slot else inPlace
  | .avx512 =>
    if u0 % 2 = 0 ∧ N ≥ 16 then
      if N ≥ 32 then planarInverseW .avx512 u0 (u0 + w) (Dwt.bufOf lp) (Dwt.bufOf hp) slot else planarInverse u0 (u0 + w) (Dwt.bufOf lp) (Dwt.bufOf hp) slot
    else inPlace

/-- fdwt.cpp:957-1010, 1043-1048, 1119-1133 for two samples or more; the planes exist when `u0` is even and `NH ≥ 12` (NEON) or `NH ≥ 16` (AVX-512). -/
def rowToPlanarW (isa : Isa) (u0 : Int) (x : List (BitVec 32)) (tmp lpMem hpMem : Mem) : Option (List (BitVec 32) × List (BitVec 32)) :=
  let u1 := u0 + x.length
  let N := u1 / 2 - u0 / 2
  let planes := fun (r : Mem × Mem) => (Dwt.readBack 0 (ceilHalf u1 - u0 / 2).toNat r.1).bind fun l => (Dwt.readBack 0 N.toNat r.2).map fun h => (l, h)
  let inPlace := (rowForwardW isa u0 x tmp).bind fun b => (Dwt.readBack 0 x.length b).map (Dwt.split u0)
  match isa with
  | .neon => if u0 % 2 = 0 ∧ N ≥ 12 then (planarForwardW .neon u0 u1 (Dwt.bufOf x) lpMem hpMem).bind planes else inPlace
  | .avx512 =>
    if u0 % 2 = 0 ∧ N ≥ 16 then
      if N ≥ 32 then (planarForwardW .avx512 u0 u1 (Dwt.bufOf x) lpMem hpMem).bind planes else (planarForward u0 u1 (Dwt.bufOf x) lpMem hpMem).bind planes
    else inPlace

end Wide
end Verif.Simd.Lift
