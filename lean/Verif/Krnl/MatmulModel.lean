import Verif.Krnl.LoopModel
import Verif.Krnl.MultiRed

/-!
Model of the lowering of `krnl.matmul`
(/repo/src/Conversion/KrnlToAffine/KrnlMatmul.cpp) and of the tile helpers of
`IndexExprBuilder` (/repo/src/Dialect/Mlir/IndexExprBuilder.cpp 444-492).

Memory is a function from flat addresses to values.  An access outside of a
memref is a failure (`none`).  `R` is the element type; `fma`, or multiply then
add, is `a * b + t`: rounding is not modelled.
-/

namespace Verif.Krnl

/-- A matrix in a memref: the two innermost dimensions at the leading indices
fixed by the start operands. -/
structure View where
  base : ℤ
  rows : ℤ
  cols : ℤ

/-- Flat address of an element. -/
def View.flat (v : View) (r c : ℤ) : ℤ := v.base + r * v.cols + c

/-- Bounds-checked address of a scalar load or store. -/
def View.pos (v : View) (r c : ℤ) : Option ℤ :=
  if 0 ≤ r ∧ r < v.rows ∧ 0 ≤ c ∧ c < v.cols then some (v.flat r c) else none

/-- Bounds-checked address of a vector load or store of `VL` consecutive
elements of the memref.  The vector may run over the end of a row but not over
the end of the matrix. -/
def View.vpos (v : View) (VL : ℕ) (r c : ℤ) : Option ℤ :=
  if 0 ≤ r ∧ r < v.rows ∧ 0 ≤ c ∧ c < v.cols ∧ r * v.cols + c + VL ≤ v.rows * v.cols then
    some (v.flat r c) else none

/-- An index expression: its run-time value and whether it is a literal. -/
structure IE where
  val : ℤ
  lit : Bool

/-- `isTileFull` (IndexExprBuilder.cpp 447-463), to be compared with `>= 0`. -/
def isTileFull (i block : ℤ) (ub : IE) : ℤ :=
  if ub.lit = true ∧ ub.val % block = 0 then 1 else ub.val - block - i

/-- `partialTileSize` (IndexExprBuilder.cpp 466-479). -/
def partialTileSize (i block : ℤ) (ub : IE) : ℤ :=
  if ub.lit = true then ub.val % block else ub.val - i

/-- `tileSize` (IndexExprBuilder.cpp 483-494); `trip` of KrnlToAffineHelper.cpp
24-36 is the same function. -/
def tileSize (i block : ℤ) (ub : IE) : ℤ :=
  if ub.lit = true ∧ ub.val % block = 0 then block else min (ub.val - i) block

/-- `affine.for lo to hi step s` over a state. -/
def forLoop {S : Type*} (lo hi : ℤ) (s : ℕ) (body : ℤ → S → Option S) (st : S) : Option S :=
  (starts lo hi s).foldlM (fun st x => body x st) st

/-- Destination memory and the temporary `TmpC`. -/
structure KSt (R T : Type*) where
  c : ℤ → R
  t : ℤ → T

/-- Access to `TmpC` (lines 339, 541): indexed by the loop variable only when it
is privatised; checked against its size `uf` (lines 304, 494). -/
def tIdx (uf x : ℤ) : Option ℤ :=
  if 0 ≤ (if uf > 1 then x else 0) ∧ (if uf > 1 then x else 0) < uf then
    some (if uf > 1 then x else 0) else none

/-- First part of a kernel body: load the destination into `TmpC`
(lines 338-341, 540-542). -/
def kPre {R T : Type*} (uf : ℤ) (rd : (ℤ → R) → ℤ → Option T) (x : ℤ) (s : KSt R T) :
    Option (KSt R T) :=
  (rd s.c x).bind fun v => (tIdx uf x).map fun i => { s with t := Function.update s.t i v }

/-- Inner part of a kernel body: `TmpC = a * b + TmpC` (lines 347-354, 549-563). -/
def kInner {R T : Type*} (uf : ℤ) (ma : ℤ → ℤ → T → Option T) (x k : ℤ) (s : KSt R T) :
    Option (KSt R T) :=
  (tIdx uf x).bind fun i => (ma x k (s.t i)).map fun v =>
    { s with t := Function.update s.t i v }

/-- Last part of a kernel body: store `TmpC` (lines 357-358, 566-578). -/
def kPost {R T : Type*} (uf : ℤ) (wr : (ℤ → R) → ℤ → T → Option (ℤ → R)) (x : ℤ)
    (s : KSt R T) : Option (KSt R T) :=
  (tIdx uf x).bind fun i => (wr s.c x (s.t i)).map fun c => { s with c := c }

/-- The loop with the reduction inside: in order, or, when it was recorded for
unroll-and-jam by its whole trip count (lines 361-365, 604-610), with the first
parts of all iterations, then the reduction loop over all iterations at once,
then the last parts. -/
def kernel {R T : Type*} (jam : Bool) (uf n K : ℤ) (rd : (ℤ → R) → ℤ → Option T)
    (ma : ℤ → ℤ → T → Option T) (wr : (ℤ → R) → ℤ → T → Option (ℤ → R))
    (s : KSt R T) : Option (KSt R T) :=
  if jam then
    (forLoop 0 n 1 (kPre uf rd) s).bind fun s =>
      (forLoop 0 K 1 (fun k s => forLoop 0 n 1 (fun x s => kInner uf ma x k s) s) s).bind fun s =>
        forLoop 0 n 1 (kPost uf wr) s
  else
    forLoop 0 n 1 (fun x s =>
      (kPre uf rd x s).bind fun s =>
        (forLoop 0 K 1 (fun k s => kInner uf ma x k s) s).bind fun s => kPost uf wr x s) s

/-- Operands and attributes of a `krnl.matmul` (lines 55-122), with the compute
tile sizes given by the attribute. -/
structure MM where
  a : View
  b : View
  c : View
  aMem : ℤ × ℤ
  bMem : ℤ × ℤ
  cMem : ℤ × ℤ
  i0 : ℤ
  j0 : ℤ
  k0 : ℤ
  iUB : IE
  jUB : IE
  kUB : IE
  tI : ℕ
  tJ : ℕ
  tK : ℕ
  simdize : Bool
  unroll : Bool
  archVL : ℕ

section
variable {R : Type*} [Semiring R]

/-- `aStart` (lines 175-180). -/
def MM.aStart (m : MM) : ℤ × ℤ := (m.i0 - m.aMem.1, m.k0 - m.aMem.2)
/-- `bStart` (lines 184-189). -/
def MM.bStart (m : MM) : ℤ × ℤ := (m.k0 - m.bMem.1, m.j0 - m.bMem.2)
/-- `cStart` (lines 193-198). -/
def MM.cStart (m : MM) : ℤ × ℤ := (m.i0 - m.cMem.1, m.j0 - m.cMem.2)

/-- `genScalar` (lines 312-366), with the size of `TmpC` of `allocForGenScalar`
(lines 302-304).  `jlit` tells whether `J` is a literal. -/
def genScalar (m : MM) (A B : ℤ → R) (I J K : ℤ) (jlit unroll : Bool) (c : ℤ → R) :
    Option (ℤ → R) :=
  (forLoop 0 I 1 (fun i s =>
    kernel (unroll && jlit) (if unroll && jlit then J else 1) J K
      (fun c j => (m.c.pos (m.cStart.1 + i) (m.cStart.2 + j)).map c)
      (fun j k t => (m.a.pos (m.aStart.1 + i) (m.aStart.2 + k)).bind fun pa =>
        (m.b.pos (m.bStart.1 + k) (m.bStart.2 + j)).map fun pb => A pa * B pb + t)
      (fun c j t => (m.c.pos (m.cStart.1 + i) (m.cStart.2 + j)).map fun p =>
        Function.update c p t) s)
    ({ c := c, t := fun _ => 0 } : KSt R R)).map KSt.c

/-- A vector store of `VL` lanes at a flat address. -/
def vstore (VL : ℕ) (c : ℤ → R) (p : ℤ) (v : Fin VL → R) : ℤ → R :=
  fun x => if h : p ≤ x ∧ x < p + VL then v ⟨(x - p).toNat, by omega⟩ else c x

/-- `genSimdMatMat` (lines 510-612).  `ilit` tells whether `I` is a literal. -/
def genSimdMatMat (m : MM) (A B : ℤ → R) (I : ℤ) (J : ℕ) (K : ℤ) (VL : ℕ)
    (ilit unroll : Bool) (c : ℤ → R) : Option (ℤ → R) :=
  (kernel (unroll && ilit) (if unroll && ilit then I else 1) I K
    (fun c i => (m.c.vpos VL (m.cStart.1 + i) m.cStart.2).map fun p (l : Fin VL) => c (p + l))
    (fun i k t => (m.a.pos (m.aStart.1 + i) (m.aStart.2 + k)).bind fun pa =>
      (m.b.vpos VL (m.bStart.1 + k) m.bStart.2).map fun pb =>
        fun (l : Fin VL) => A pa * B (pb + l) + t l)
    (fun c i t => (m.c.vpos VL (m.cStart.1 + i) m.cStart.2).map fun p =>
      vstore VL c p (if J ≠ VL then fun l => if l.val < J then t l else c (p + l) else t))
    ({ c := c, t := fun _ _ => 0 } : KSt R (Fin VL → R))).map KSt.c

/-- `genSimdMatVect` (lines 405-481): `TmpProd` is zeroed, the products are
accumulated by chunks of `VL` of the reduction, the `I` vectors are reduced and
added to `C` by chunks of `VL` rows. -/
def genSimdMatVect (m : MM) (A B : ℤ → R) (I K : ℕ) (VL : ℕ) (c : ℤ → R) :
    Option (ℤ → R) :=
  (forLoop 0 K VL (fun k (t : ℤ → ℕ → R) =>
    (m.b.vpos VL (m.bStart.1 + k) m.bStart.2).bind fun pb =>
      forLoop 0 I 1 (fun i (t : ℤ → ℕ → R) =>
        (m.a.vpos VL (m.aStart.1 + i) (m.aStart.2 + k)).map fun pa =>
          Function.update t i fun (l : ℕ) => A (pa + l) * B (pb + l) + t i l) t)
    (fun _ _ => (0 : R))).bind fun t =>
  (multiReduction (· + ·) VL I fun i => t (i : ℤ)).zipIdx.foldlM (fun c vi =>
    (m.c.vpos VL (m.cStart.1 + (vi.2 * VL : ℕ)) m.cStart.2).map fun p =>
      vstore VL c p fun l => c (p + l) + vi.1 l) c

/-- `ifThenElseIE` (/repo/src/Dialect/Mlir/DialectBuilder.hpp.inc 751-792): the
`then` part runs when every condition is `>= 0`. -/
def ifAll {α : Type*} (conds : List ℤ) (thn els : α) : α :=
  if conds.all (fun x => decide (0 ≤ x)) then thn else els

/-- The lowering of `krnl.matmul` (lines 52-294) as a function on the memory of
`C`. -/
def MM.exec (m : MM) (A B : ℤ → R) (c : ℤ → R) : Option (ℤ → R) :=
  -- lines 125-163
  let matVec := m.jUB.lit && decide (m.jUB.val = 1)
  let simd := m.simdize && (!matVec || (decide (m.tI % m.archVL = 0) && decide (m.tK % m.archVL = 0)))
  -- lines 204-223
  let iFull := isTileFull m.i0 m.tI m.iUB
  let jFull := isTileFull m.j0 m.tJ m.jUB
  let kFull := isTileFull m.k0 m.tK m.kUB
  let iTrip := tileSize m.i0 m.tI m.iUB
  let jTrip := tileSize m.j0 m.tJ m.jUB
  let kTrip := tileSize m.k0 m.tK m.kUB
  let jPartial := partialTileSize m.j0 m.tJ m.jUB
  -- lines 225-291
  if simd then
    if matVec then
      ifAll [iFull, jFull, kFull]
        (genSimdMatVect m A B m.tI m.tK m.archVL c)
        (genScalar m A B iTrip jTrip kTrip false false c)
    else
      ifAll [iFull, jFull, kFull]
        (genSimdMatMat m A B m.tI m.tJ m.tK m.tJ true m.unroll c)
        (ifAll [jFull]
          (genSimdMatMat m A B iTrip m.tJ kTrip m.tJ false false c)
          (genScalar m A B iTrip jPartial kTrip false false c))
  else
    ifAll [iFull, jFull, kFull]
      (genScalar m A B m.tI m.tJ m.tK true m.unroll c)
      (genScalar m A B iTrip jTrip kTrip false false c)

end

end Verif.Krnl
