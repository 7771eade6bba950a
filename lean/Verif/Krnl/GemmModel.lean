import Verif.Krnl.MatmulFull
import Verif.Lower.Nd

/-!
Model of the lowerings of ONNX `Gemm`, with the krnl buffer copies it uses.

Source:
* /repo/src/Conversion/ONNXToKrnl/Math/Gemm.cpp
* /repo/src/Conversion/KrnlToAffine/KrnlCopyToBuffer.cpp
* /repo/src/Conversion/KrnlToAffine/KrnlCopyFromBuffer.cpp

Arithmetic is that of a semiring: no rounding.  `alloc`ated buffers start with
arbitrary contents.
-/

namespace Verif.Krnl

section
variable {R : Type*}

/-- The loops of `krnl.copy_to_tile_buffer` for a buffer and a source of rank 2
without padding (KrnlCopyToBuffer.cpp 132-197 with `padUBs` all 0; `padToNext`
defaults to 1, lines 66-67 and 101-103).  `n0`, `n1` are the numbers of values to
read in each buffer dimension.  With `trans` the source is accessed with swapped
loop indices (lines 74-75, 157-159). -/
def copyTo (bv sv : View) (s0 s1 : ℤ) (trans : Bool) (n0 n1 : ℤ) (S : ℤ → R) (buf : ℤ → R) :
    Option (ℤ → R) :=
  forLoop 0 n0 1 (fun r buf =>
    forLoop 0 n1 1 (fun c buf =>
      (sv.pos ((if trans then c else r) + s0) ((if trans then r else c) + s1)).bind fun ps =>
        (bv.pos r c).map fun pb => Function.update buf pb (S ps)) buf) buf

/-- `krnl.copy_to_tile_buffer` for rank 2 (KrnlCopyToBuffer.cpp 39-130): the number
of values read in buffer dimension 0 or 1 is the tile size of the matching source
dimension, which is the other one when transposing. -/
def copyToBuffer (bv sv : View) (ub0 ub1 : IE) (s0 s1 : ℤ) (trans : Bool) (S buf : ℤ → R) :
    Option (ℤ → R) :=
  copyTo bv sv s0 s1 trans
    (if trans then tileSize s1 bv.rows ub1 else tileSize s0 bv.rows ub0)
    (if trans then tileSize s0 bv.cols ub0 else tileSize s1 bv.cols ub1) S buf

/-- `krnl.copy_from_tile_buffer` for rank 2 (KrnlCopyFromBuffer.cpp 39-134). -/
def copyFromBuffer (bv dv : View) (ub0 ub1 : IE) (s0 s1 : ℤ) (buf D : ℤ → R) :
    Option (ℤ → R) :=
  forLoop 0 (tileSize s0 bv.rows ub0) 1 (fun r D =>
    forLoop 0 (tileSize s1 bv.cols ub1) 1 (fun c D =>
      (bv.pos r c).bind fun pb => (dv.pos (r + s0) (c + s1)).map fun pd =>
        Function.update D pd (buf pb)) D) D

/-- Result of the Gemm shape helper: `outputDims`, the reduction dimension
`aDims[1]` and `cDims`. -/
structure GemmShape where
  I : IE
  J : IE
  K : IE
  c : List IE

/-- Test of one bias dimension (/repo/src/Dialect/ONNX/ONNXOps/Math/Gemm.cpp
93-113). -/
def biasDimOk (out c : IE) : Bool :=
  !(out.lit && c.lit) || (decide (c.val = 1) || decide (c.val = out.val))

/-- `ONNXGemmOpShapeHelper::computeShape` (/repo/src/Dialect/ONNX/ONNXOps/Math/Gemm.cpp
28-118); `c` is the shape of the bias if there is one.  `none` stands for an emitted
error.  The refinement of the operand types by `updateInputDimAt` is omitted. -/
def gemmShape (aT bT : Bool) (aS bS : List IE) (c : Option (List IE)) : Option GemmShape :=
  match aS, bS with
  | [a0, a1], [b0, b1] =>
    let (aI, aK) := if aT then (a1, a0) else (a0, a1)
    let (bK, bJ) := if bT then (b1, b0) else (b0, b1)
    let k := if aK.lit = true then aK else if bK.lit = true then bK else aK
    if aK.lit = true ∧ bK.lit = true ∧ aK.val ≠ bK.val then none
    else match c with
      | none => some ⟨aI, bJ, k, []⟩
      | some [] => some ⟨aI, bJ, k, [⟨1, true⟩, ⟨1, true⟩]⟩
      | some [c1] => if biasDimOk bJ c1 then some ⟨aI, bJ, k, [⟨1, true⟩, c1]⟩ else none
      | some [c0, c1] =>
        if biasDimOk aI c0 && biasDimOk bJ c1 then some ⟨aI, bJ, k, [c0, c1]⟩ else none
      | some _ => none
  | _, _ => none

variable [Semiring R]

/-- Attributes and shapes of a `Gemm`.  `I`, `J`, `K` are `outputDims[0]`,
`outputDims[1]` and `aDims[1]` of the shape helper (`aDims`, `bDims` are already
transposed). -/
structure Gemm where
  aT : Bool
  bT : Bool
  I : IE
  J : IE
  K : IE
  simd : Bool
  archVL : ℕ

/-- The memref of `A`: `I x K`, or `K x I` when transposed. -/
def Gemm.aView (g : Gemm) : View :=
  if g.aT then ⟨0, g.K.val, g.I.val⟩ else ⟨0, g.I.val, g.K.val⟩
/-- The memref of `B`: `K x J`, or `J x K` when transposed. -/
def Gemm.bView (g : Gemm) : View :=
  if g.bT then ⟨0, g.J.val, g.K.val⟩ else ⟨0, g.K.val, g.J.val⟩
/-- The memref of the result `R`. -/
def Gemm.rView (g : Gemm) : View := ⟨0, g.I.val, g.J.val⟩

/-- `aBuff`, also the type of `rBuff` (Gemm.cpp 191-192, 233-235). -/
def aBuffView : View := ⟨0, 32, 256⟩
/-- `bBuff` (Gemm.cpp 193-194). -/
def bBuffView : View := ⟨0, 256, 64⟩

/-- Copy of a tile of `A` (Gemm.cpp 241-244, 299-302). -/
def Gemm.copyA (g : Gemm) (A : ℤ → R) (i1 k1 : ℤ) (buf : ℤ → R) : Option (ℤ → R) :=
  if g.aT then copyToBuffer aBuffView g.aView g.K g.I k1 i1 true A buf
  else copyToBuffer aBuffView g.aView g.I g.K i1 k1 false A buf

/-- Copy of a tile of `B` (Gemm.cpp 245-248, 290-293). -/
def Gemm.copyB (g : Gemm) (B : ℤ → R) (k1 j1 : ℤ) (buf : ℤ → R) : Option (ℤ → R) :=
  if g.bT then copyToBuffer bBuffView g.bView g.J g.K j1 k1 true B buf
  else copyToBuffer bBuffView g.bView g.K g.J k1 j1 false B buf

/-- `mustTileR` (Gemm.cpp 155-188). -/
def Gemm.mustTileR (g : Gemm) : Bool :=
  !g.J.lit || (!decide (g.J.val < 16) && decide (g.J.val % 16 ≠ 0))

/-- `simdize` (Gemm.cpp 149-188). -/
def Gemm.simdize (g : Gemm) : Bool :=
  g.simd && !(g.J.lit && decide (g.J.val < 16))

/-- The `krnl.matmul` of both variants (Gemm.cpp 252-262, 306-316). -/
def Gemm.mm (g : Gemm) (c : View) (cMem : ℤ × ℤ) (i1 j1 k1 : ℤ) : MM :=
  { a := aBuffView, b := bBuffView, c := c, aMem := (i1, k1), bMem := (k1, j1), cMem := cMem,
    i0 := 0, j0 := 0, k0 := 0, iUB := g.I, jUB := g.J, kUB := g.K,
    tI := 4, tJ := 16, tK := 256, simdize := g.simdize, unroll := true, archVL := g.archVL }

/-- Buffers live across the loops (the comment of Gemm.cpp 228-230). -/
structure GSt (R : Type*) where
  a : ℤ → R
  b : ℤ → R
  r : ℤ → R
  out : ℤ → R

/-- Register loops `jj2`, `ii2` (both variants). -/
def regNest : List (Lp 3) := [⟨1, 16, false⟩, ⟨0, 4, false⟩]

/-- Body of the `kk1` loop of the tiled-result variant (Gemm.cpp 238-264). -/
def Gemm.tileRk (g : Gemm) (A B : ℤ → R) (s : GSt R) (t : Box 3) : Option (GSt R) :=
  (g.copyA A (t 0).1 (t 2).1 s.a).bind fun a =>
  (g.copyB B (t 2).1 (t 1).1 s.b).bind fun b =>
  ((g.mm aBuffView ((t 0).1, (t 1).1) (t 0).1 (t 1).1 (t 2).1).tiles regNest t a b s.r).map
    fun r => { s with a := a, b := b, r := r }

/-- Body of the `ii1`, `jj1` loops of the tiled-result variant (Gemm.cpp 225-266). -/
def Gemm.tileRij (g : Gemm) (A B : ℤ → R) (s : GSt R) (t : Box 3) : Option (GSt R) :=
  (copyToBuffer aBuffView g.rView g.I g.J (t 0).1 (t 1).1 false s.out s.r).bind fun r =>
  ((boxes [⟨2, 256, false⟩] t).foldlM (g.tileRk A B) { s with r := r }).bind fun s =>
  (copyFromBuffer aBuffView g.rView g.I g.J (t 0).1 (t 1).1 s.r s.out).map fun out =>
    { s with out := out }

/-- Body of the `ii1` loop of the direct variant (Gemm.cpp 296-317). -/
def Gemm.directI (g : Gemm) (A : ℤ → R) (s : GSt R) (t : Box 3) : Option (GSt R) :=
  (g.copyA A (t 0).1 (t 2).1 s.a).bind fun a =>
  ((g.mm g.rView (0, 0) (t 0).1 (t 1).1 (t 2).1).tiles regNest t a s.b s.out).map
    fun out => { s with a := a, out := out }

/-- Body of the `jj1`, `kk1` loops of the direct variant (Gemm.cpp 283-318). -/
def Gemm.directJK (g : Gemm) (A B : ℤ → R) (s : GSt R) (t : Box 3) : Option (GSt R) :=
  (g.copyB B (t 2).1 (t 1).1 s.b).bind fun b =>
  (boxes [⟨0, 32, false⟩] t).foldlM (g.directI A) { s with b := b }

/-- Schedule of the tiled-result variant: blocks of Gemm.cpp 205-216 and the
permutation of lines 219-221. -/
def gemmScheduleR : List SOp :=
  [.block 0 32 true, .block 1 4 false, .block 3 64 true, .block 4 16 false, .block 6 256 false,
   .permute [0, 4, 5, 1, 3, 6, 2, 7]]

/-- Schedule of the direct variant, on loops in the order `jj`, `kk`, `ii` (Gemm.cpp
205-216, 274-275, 282). -/
def gemmScheduleD : List SOp :=
  [.block 0 64 true, .block 1 16 false, .block 3 256 false, .block 5 32 true, .block 6 4 false,
   .permute [0, 3, 5, 1, 6, 2, 4, 7]]

/-- Original loops of the direct variant, in the order `jj`, `kk`, `ii`. -/
def gemmLoopsD : List (Lp 3) := [⟨1, 1, false⟩, ⟨2, 1, false⟩, ⟨0, 1, false⟩]

/-- Original bounds. -/
def Gemm.box (g : Gemm) : Box 3 := ![(0, g.I.val), (0, g.J.val), (0, g.K.val)]

/-- The tile loops of `tiledTransposedGemm` (Gemm.cpp 126-319) after the memset of
line 142. -/
def Gemm.product (g : Gemm) (A B : ℤ → R) (s : GSt R) : Option (GSt R) :=
  if g.mustTileR then
    (boxes [⟨0, 32, false⟩, ⟨1, 64, false⟩] g.box).foldlM (g.tileRij A B) s
  else
    (boxes [⟨1, 64, false⟩, ⟨2, 256, false⟩] g.box).foldlM (g.directJK A B) s

/-- The bias access of both variants (Gemm.cpp 110-118, 341-349): `c` has rank at
most 2 and the loop index is used only where the dimension is greater than 1. -/
def biasIdx (cDims : List ℤ) (i j : ℤ) : Lower.Idx :=
  List.zipWith (fun d x => if d > 1 then x else 0) cDims ([i, j].drop (2 - cDims.length))

/-- The final pass of `tiledTransposedGemm` (Gemm.cpp 321-356).  The tests on the
attributes are made on the element values. -/
def Gemm.finish [DecidableEq R] (g : Gemm) (α β : R) (bias : Option (Lower.Mem R)) (out : ℤ → R) :
    Option (ℤ → R) :=
  if α = 1 ∧ (β = 0 ∨ bias.isNone = true) then some out
  else
    forLoop 0 g.I.val 1 (fun i out =>
      forLoop 0 g.J.val 1 (fun j out =>
        (g.rView.pos i j).bind fun p =>
          let res := if α = 1 then out p else α * out p
          (match bias with
            | none => some res
            | some c => (c.load (biasIdx c.shape i j)).map fun v =>
                res + (if β = 1 then v else β * v)).map fun v => Function.update out p v) out) out

/-- `tiledTransposedGemm`: the result memory is cleared first (line 142). -/
def Gemm.tiled [DecidableEq R] (g : Gemm) (α β : R) (bias : Option (Lower.Mem R))
    (A B : ℤ → R) (s : GSt R) : Option (ℤ → R) :=
  (g.product A B { s with out := fun _ => 0 }).bind fun s => g.finish α β bias s.out

/-- `genericGemm` (Gemm.cpp 51-124). -/
def Gemm.generic (g : Gemm) (α β : R) (bias : Option (Lower.Mem R)) (A B out : ℤ → R) :
    Option (ℤ → R) :=
  forLoop 0 g.I.val 1 (fun i out =>
    forLoop 0 g.J.val 1 (fun j out =>
      (forLoop 0 g.K.val 1 (fun k (red : R) =>
        (if g.aT then g.aView.pos k i else g.aView.pos i k).bind fun pa =>
        (if g.bT then g.bView.pos j k else g.bView.pos k j).map fun pb =>
          A pa * B pb + red) 0).bind fun red =>
      (match bias with
        | none => some (α * red)
        | some c => (c.load (biasIdx c.shape i j)).map fun v => α * red + β * v).bind fun v =>
      (g.rView.pos i j).map fun p => Function.update out p v) out) out

end

end Verif.Krnl
