import Verif.Lower.Nd
import Verif.Krnl.SimdModel
import Verif.Krnl.MultiRed

/-!
Model of the lowering of the reduction operators ReduceSum, ReduceMean, ReduceProd,
ReduceMax and ReduceMin.

Source:
* /repo/src/Conversion/ONNXToKrnl/Math/Reduction.cpp 36-1370
* /repo/src/Dialect/Mlir/DialectBuilder.hpp.inc 368-600 `simdReduceIE`, `simdReduce2DIE`
* /repo/src/Dialect/Krnl/DialectBuilder.cpp 328-355 `forExplicitParallelLoopIE`
* /repo/src/Conversion/ONNXToKrnl/ONNXToKrnlCommon.cpp 168-195 `getReductionMapping`,
  707-755 `tryCreateKrnlParallel`, 871-885 `capVLForMaxSimdUnroll`
* /repo/src/Dialect/ONNX/ONNXOps/Math/Reduction.cpp 27-79 `customComputeShape`

Temporary accumulators are private to a reduction: they are not part of the modelled
memory.  Scalar arithmetic is a parameter (`NumOps`).
-/

namespace Verif.Lower

open Verif.Krnl (Buf IE forLoop starts isTileFull multiReduction)

/-! ### Operators -/

/-- The arithmetic of an element type. -/
structure NumOps (R : Type*) where
  add : R → R → R
  mul : R → R → R
  max : R → R → R
  min : R → R → R
  div : R → R → R
  zero : R
  one : R
  negInf : R
  posInf : R
  ofInt : ℤ → R

/-- The operators of `populateLoweringONNXReductionOpPattern` (lines 1354-1370). -/
inductive RKind where
  | sum | mean | prod | max | min
  deriving DecidableEq, Repr

/-- `ScalarOp` / `emitScalarOpFor` (lines 62-66, 104-108, 152-156, 195-206, 245-256). -/
def RKind.op {R : Type*} (N : NumOps R) : RKind → R → R → R
  | .sum => N.add
  | .mean => N.add
  | .prod => N.mul
  | .max => N.max
  | .min => N.min

/-- `getIdentityValue` (lines 50-55, 91-96, 134-139, 181-186, 231-236). -/
def RKind.ident {R : Type*} (N : NumOps R) : RKind → R
  | .sum => N.zero
  | .mean => N.zero
  | .prod => N.one
  | .max => N.negInf
  | .min => N.posInf

/-- `getCombiningKind` (lines 56-59, 97-100, 140-143, 187-190, 237-240): the horizontal
operation. -/
def RKind.combine {R : Type*} (N : NumOps R) : RKind → R → R → R
  | .sum => N.add
  | .mean => N.add
  | .prod => N.mul
  | .max => N.max
  | .min => N.min

/-- `divideByMean` (lines 42-46, 148-151). -/
def RKind.divides : RKind → Bool
  | .mean => true
  | _ => false

/-! ### Axes -/

/-- The axes: not given, literals, or known only at run time, with a length that is
known at compile time or not. -/
inductive Axes where
  | absent
  | lits (l : List ℤ)
  | dyn (lenKnown : Bool) (l : List ℤ)

/-- `rawAxesIE.size()` (lines 665-693). -/
def Axes.rawSize : Axes → ℕ
  | .absent => 0
  | .lits l => l.length
  | .dyn true l => l.length
  | .dyn false _ => 0

/-- `hasNoAxes` (lines 668-670, 684-687). -/
def Axes.isAbsent : Axes → Bool
  | .absent => true
  | _ => false

/-- `fullReduction` (lines 697-698). -/
def fullReduction (rank : ℕ) (axes : Axes) : Bool :=
  axes.isAbsent || decide (axes.rawSize = rank)

/-- Normalisation of literal axes (lines 724-745); an axis out of range is an error. -/
def normAxes (rank : ℕ) (l : List ℤ) : Option (List Bool) :=
  l.foldlM (fun (red : List Bool) (axis : ℤ) =>
    if axis < -(rank : ℤ) ∨ axis > (rank : ℤ) - 1 then none
    else some (red.set (if axis ≥ 0 then axis else rank + axis).toNat true))
    (List.replicate rank false)

/-- `litAxes` for absent axes (lines 713-722). -/
def absentAxes (rank : ℕ) (noop : Bool) : List Bool := List.replicate rank (!noop)

/-- `getReductionMapping` (ONNXToKrnlCommon.cpp 182-192): pairs of output and input
dimensions. -/
def mappingLoop (keep : Bool) : List Bool → ℕ → ℕ → List (ℕ × ℕ)
  | [], _, _ => []
  | true :: red, inIndex, outIndex =>
    mappingLoop keep red (inIndex + 1) (if keep then outIndex + 1 else outIndex)
  | false :: red, inIndex, outIndex =>
    (outIndex, inIndex) :: mappingLoop keep red (inIndex + 1) (outIndex + 1)

def reductionMapping (keep : Bool) (red : List Bool) : List (ℕ × ℕ) := mappingLoop keep red 0 0

/-- Output dimensions (ONNXOps/Math/Reduction.cpp 64-73). -/
def outDims (keep : Bool) : List Bool → List ℤ → List ℤ
  | true :: red, _ :: ds => if keep then 1 :: outDims keep red ds else outDims keep red ds
  | false :: red, d :: ds => d :: outDims keep red ds
  | _, _ => []

/-- `customComputeShape` (ONNXOps/Math/Reduction.cpp 38-77) for literal or absent axes;
the axes to reduce and the output dimensions. -/
def reduceShape (dims : List ℤ) (axes : List ℤ) (noop keep : Bool) :
    Option (List Bool × List ℤ) :=
  (if axes.length > 0 then normAxes dims.length axes
    else some (List.replicate dims.length (!noop))).map
    fun red => (red, outDims keep red dims)

/-- Accumulator access function with static axes (lines 991-1004). -/
def accStatic (outRank : ℕ) (map : List (ℕ × ℕ)) (loopInd : Idx) : Idx :=
  (List.range outRank).map fun i =>
    match map.lookup i with
    | some j => loopInd.getD j 0
    | none => 0

/-- Accumulator access function with dynamic axes (lines 992-998). -/
def accDynamic (outRank : ℕ) (mask : List Bool) (loopInd : Idx) : Idx :=
  (List.range outRank).map fun i => if mask.getD i false then 0 else loopInd.getD i 0

/-- The mask of run-time axes (lines 860-914); a store outside of the mask is an
error. -/
def dynMask (rank : ℕ) (lenKnown noop : Bool) (l : List ℤ) : Option (List Bool) :=
  l.foldlM (fun (mask : List Bool) (axe : ℤ) =>
    let dim : ℤ := if axe < 0 then axe + rank else axe
    if 0 ≤ dim ∧ dim < rank then some (mask.set dim.toNat true) else none)
    (List.replicate rank (!lenKnown && !noop && decide (l.length = 0)))

/-- Output dimensions with dynamic axes (lines 930-938): keepdims is required
(lines 836-838). -/
def dynOutDims (mask : List Bool) (dims : List ℤ) : List ℤ :=
  List.zipWith (fun m d => if m then 1 else d) mask dims

/-- Number of elements of a shape. -/
def numel (dims : List ℤ) : ℤ := dims.foldr (· * ·) 1

/-- The divisor of the mean (lines 946-962): `floorDiv` by zero is undefined. -/
def meanDivisor (inDims outDims : List ℤ) : Option ℤ :=
  if numel outDims = 0 then none else some (numel inDims / numel outDims)

section
variable {R : Type*}

/-! ### Scalar code -/

/-- Loop 2 of `genScalarReduction` (lines 984-1014). -/
def accumulate (f : R → R → R) (X : Mem R) (acc : Idx → Idx) (out : Mem R) : Option (Mem R) :=
  iterate X.shape (fun i o =>
    (X.load i).bind fun next => (o.load (acc i)).bind fun a => o.store (acc i) (f a next)) out

/-- Loop 3 of `genScalarReduction` (lines 1017-1034). -/
def divideAll (div : R → R → R) (d : R) (out : Mem R) : Option (Mem R) :=
  iterate out.shape (fun i o => (o.load i).bind fun a => o.store i (div a d)) out

/-- `genScalarReduction` (lines 961-1035), after the allocation of the output and the
computation of the divisor. -/
def scalarReduce (N : NumOps R) (k : RKind) (X : Mem R) (acc : Idx → Idx) (oDims : List ℤ) :
    Option (Mem R) :=
  let init : Mem R := ⟨oDims, fun _ => k.ident N⟩
  if k.divides then
    (meanDivisor X.shape oDims).bind fun d =>
      (accumulate (k.op N) X acc init).bind fun o => divideAll N.div (N.ofInt d) o
  else accumulate (k.op N) X acc init

/-! ### SIMD reductions -/

/-- The inputs of `simdReduceIE`: for each of `n` reductions the input buffer, the
offset of the row, the reduction function (temporary, input) and the initial value. -/
structure Reds (R : Type*) where
  n : ℕ
  inp : ℕ → Buf R
  off : ℕ → ℤ
  f : ℕ → R → R → R
  init : ℕ → R

/-- One iteration with vectors of `VL` lanes (hpp.inc 413-444); the scalar iteration
(lines 485-511) has one lane.  Loads are bounds checked. -/
def redStep (r : Reds R) (VL : ℕ) (i : ℤ) (tmp : ℕ → ℕ → R) : Option (ℕ → ℕ → R) :=
  if ∀ v < r.n, 0 ≤ r.off v + i ∧ r.off v + i + VL ≤ (r.inp v).size then
    some fun v l =>
      if v < r.n ∧ l < VL then r.f v (tmp v l) ((r.inp v).data (r.off v + i + l)) else tmp v l
  else none

/-- `simdReduceIE` up to the post processing (lines 400-520); `trip` is `ub - lb`. -/
def simdReduce (r : Reds R) (lb : ℤ) (trip : IE) (VL : ℕ) (fullySimd : Bool) :
    Option (ℕ → ℕ → R) :=
  let tmp : ℕ → ℕ → R := fun v _ => r.init v
  if VL > 1 then
    (forLoop lb (if fullySimd then lb + trip.val else lb + trip.val - (VL - 1)) VL
      (redStep r VL) tmp).bind fun tmp =>
    if fullySimd then some tmp
    else if trip.lit = true ∧ trip.val % VL = 0 then some tmp
    else forLoop (lb + (trip.val - trip.val % VL)) (lb + trip.val) 1 (redStep r 1) tmp
  else forLoop lb (lb + trip.val) 1 (redStep r 1) tmp

/-- `vector.reduction` of `VL` lanes. -/
def vecReduction (op : R → R → R) (VL : ℕ) (v : ℕ → R) : R :=
  (List.range (VL - 1)).foldl (fun a l => op a (v (l + 1))) (v 0)

/-- Row-major position. -/
def lin : List ℤ → Idx → ℤ
  | _ :: ds, x :: xs => x * numel ds + lin ds xs
  | _, _ => 0

/-- Index tuple of a row-major position. -/
def unlin : List ℤ → ℤ → Idx
  | [], _ => []
  | _ :: ds, p => p / numel ds :: unlin ds (p % numel ds)

/-- A contiguous memref seen as one dimension (`reshapeToFlatInnermost`). -/
def Mem.flat (m : Mem R) : Buf R := ⟨numel m.shape, fun p => m.data (unlin m.shape p)⟩

/-- The flat buffer seen with a shape. -/
def ofFlat (dims : List ℤ) (b : Buf R) : Mem R := ⟨dims, fun i => b.data (lin dims i)⟩

/-- Vector store into a flat buffer. -/
def Buf.vstore (b : Buf R) (p : ℤ) (VL : ℕ) (v : ℕ → R) : Option (Buf R) :=
  if 0 ≤ p ∧ p + VL ≤ b.size then
    some ⟨b.size, fun y => if p ≤ y ∧ y < p + VL then v (y - p).toNat else b.data y⟩
  else none

/-- The division by the number of elements, if any (`divisorForMean`). -/
def post (N : NumOps R) (k : RKind) (d : R) (x : R) : R := if k.divides then N.div x d else x

/-- `genOneHorizontalSimdReduction` (lines 1100-1145): reduction of the row at `oi`. -/
def oneHorizontal (N : NumOps R) (k : RKind) (X : Buf R) (outer : List ℤ) (K : IE) (VL : ℕ)
    (simdOnly : Bool) (d : R) (oi : Idx) (out : Buf R) : Option (Buf R) :=
  (simdReduce ⟨1, fun _ => X, fun _ => lin (outer ++ [K.val]) (oi ++ [0]), fun _ => k.op N,
    fun _ => k.ident N⟩ 0 K VL simdOnly).bind fun tmp =>
  Buf.vstore out (lin outer oi) 1 fun _ => post N k d (vecReduction (k.combine N) VL (tmp 0))

/-- `genHorizontalSimdReduction` (lines 1150-1203); `outer` are the dimensions that are
not reduced, `K` the product of the reduced ones. -/
def horizontal (N : NumOps R) (k : RKind) (X : Buf R) (outer : List ℤ) (K : IE) (VL : ℕ)
    (simdOnly : Bool) (d : R) (out : Buf R) : Option (Buf R) :=
  (idxs outer).foldlM (fun o oi => oneHorizontal N k X outer K VL simdOnly d oi o) out

/-- `genVlHorizontalSimdReduction` with `simdReduce2DIE` (lines 1227-1270, hpp.inc
536-600): `VL` consecutive rows, starting at `oi ++ [m]`. -/
def vlHorizontal (N : NumOps R) (k : RKind) (X : Buf R) (outer : List ℤ) (K : IE) (VL : ℕ)
    (simdOnly : Bool) (d : R) (oi : Idx) (m : ℤ) (out : Buf R) : Option (Buf R) :=
  (simdReduce ⟨VL, fun _ => X, fun v => lin (outer ++ [K.val]) (oi ++ [m + v, 0]),
    fun _ => k.op N, fun _ => k.ident N⟩ 0 K VL simdOnly).bind fun tmp =>
  match multiReduction (k.op N) VL VL tmp with
  | [v] => Buf.vstore out (lin outer (oi ++ [m])) VL fun l => post N k d (v l)
  | _ => none

/-- `genShuffleHorizontalSimdReduction` (lines 1285-1350); the not reduced dimensions
are `outer ++ [M]` and the last one is blocked by `VL`. -/
def shuffleHorizontal (N : NumOps R) (k : RKind) (X : Buf R) (outer : List ℤ) (M K : IE) (VL : ℕ)
    (simdOnly : Bool) (d : R) (out : Buf R) : Option (Buf R) :=
  (idxs outer).foldlM (fun o oi => forLoop 0 M.val VL (fun m o =>
    if isTileFull m VL M < 0 then
      forLoop m M.val 1 (fun j o =>
        oneHorizontal N k X (outer ++ [M.val]) K VL simdOnly d (oi ++ [j]) o) o
    else vlHorizontal N k X (outer ++ [M.val]) K VL simdOnly d oi m o) o) out

/-- The divisor is computed for the mean only (lines 944-962). -/
def divisorFor (N : NumOps R) (k : RKind) (inDims oDims : List ℤ) : Option R :=
  if k.divides then (meanDivisor inDims oDims).map N.ofInt else some N.zero

/-- The SIMD reduction of the innermost dimensions `inner` of `X` (lines 1150-1185):
input and output are flattened, `lit` is whether the product of the reduced dimensions
is a literal.  The result buffer is uninitialised (`junk`). -/
def reduceHorizontal (N : NumOps R) (k : RKind) (X : Mem R) (outer inner : List ℤ) (keep lit : Bool)
    (VL : ℕ) (simdOnly : Bool) (junk : ℤ → R) : Option (Mem R) :=
  let oDims := outer ++ (if keep then List.replicate inner.length 1 else [])
  (divisorFor N k X.shape oDims).bind fun d =>
    (horizontal N k X.flat outer ⟨numel inner, lit⟩ VL simdOnly d ⟨numel oDims, junk⟩).map
      (ofFlat oDims)

/-- The version for machines without a horizontal instruction (lines 1285-1310); the
innermost dimension that is not reduced is `M`. -/
def reduceShuffle (N : NumOps R) (k : RKind) (X : Mem R) (outer : List ℤ) (M : IE) (inner : List ℤ)
    (keep lit : Bool) (VL : ℕ) (simdOnly : Bool) (junk : ℤ → R) : Option (Mem R) :=
  let oDims := outer ++ [M.val] ++ (if keep then List.replicate inner.length 1 else [])
  (divisorFor N k X.shape oDims).bind fun d =>
    (shuffleHorizontal N k X.flat outer M ⟨numel inner, lit⟩ VL simdOnly d
      ⟨numel oDims, junk⟩).map (ofFlat oDims)

/-! ### Reduction of a whole tensor -/

/-- The reduction function of reduction `v` (lines 336-372). -/
def stepOp (N : NumOps R) (ks : List (RKind × (R → R))) (v : ℕ) (t x : R) : R :=
  match ks[v]? with
  | some (k, pre) => k.op N t (pre x)
  | none => t

/-- The initial value of reduction `v` (lines 321-334). -/
def stepInit (N : NumOps R) (ks : List (RKind × (R → R))) (d : R) (v : ℕ) : R :=
  match ks[v]? with
  | some (k, _) => k.ident N
  | none => d

/-- `emitOneStepOfFullSIMDReduction` (lines 300-392): several reductions of the elements
`[lb, ub)`; `final` is `tNum == 1`. -/
def oneStep (N : NumOps R) (ks : List (RKind × (R → R))) (inp : ℕ → Buf R) (lb ub : ℤ) (lit : Bool)
    (VL : ℕ) (simdOnly final : Bool) (d : R) : Option (List R) :=
  (simdReduce ⟨ks.length, inp, fun _ => 0, stepOp N ks, stepInit N ks d⟩ lb ⟨ub - lb, lit⟩ VL simdOnly).bind fun tmp =>
  some (ks.zipIdx.map fun kv =>
    let s := vecReduction (kv.1.1.combine N) VL (tmp kv.2)
    if final then post N kv.1.1 d s else s)

/-- `forExplicitParallelLoopIE` (KrnlBuilder 338-353): the range of thread `t` of `T`. -/
def threadRange (n : ℤ) (T t : ℕ) : ℤ × ℤ :=
  let block := (n + (T - 1)) / T
  (t * block, min (t * block + block) n)

/-- `emitFullSIMDReductionFor` (lines 394-521); `par` is whether the parallel version was
chosen (lines 436-442: the trip count is not literal or at least `32 * VL`). -/
def fullReduce (N : NumOps R) (ks : List (RKind × (R → R))) (X : Buf R) (lit : Bool) (VL : ℕ)
    (simdOnly par : Bool) : Option (List R) :=
  let d := N.ofInt X.size
  if par then
    ((List.range 8).mapM fun (t : ℕ) =>
      oneStep N ks (fun _ => X) (threadRange X.size 8 t).1 (threadRange X.size 8 t).2 false VL false
        false d).bind fun parts =>
    oneStep N ks (fun v => ⟨8, fun p => ((parts.getD p.toNat []).getD v d)⟩) 0 8 true 1 false true d
  else oneStep N ks (fun _ => X) 0 X.size lit VL simdOnly true d

/-- Whether the parallel version is used (lines 436-442). -/
def usesParallel (enable lit : Bool) (n : ℤ) (VL : ℕ) : Bool :=
  enable && (!lit || decide (32 * VL ≤ n))

/-- The dimensions marked for reduction by the lowering (lines 712-745) when the axes are
absent or literals; the other cases are `dynMask`. -/
def lowerMask (rank : ℕ) (axes : Axes) (noop : Bool) : Option (List Bool) :=
  match axes with
  | .absent => some (absentAxes rank noop)
  | .lits l => normAxes rank l
  | .dyn _ _ => none

/-- The axes as shape inference sees them (ONNXOps/Math/Reduction.cpp 81-150): absent
axes are an empty list. -/
def Axes.toList : Axes → List ℤ
  | .absent => []
  | .lits l => l
  | .dyn _ l => l

/-- The scalar lowering with compile-time axes: output dimensions by shape inference,
accumulator access by the mapping of the lowering. -/
def lowerScalar (N : NumOps R) (k : RKind) (X : Mem R) (axes : Axes) (noop keep : Bool) :
    Option (Mem R) :=
  (reduceShape X.shape axes.toList noop keep).bind fun s =>
    (lowerMask X.shape.length axes noop).bind fun red =>
      scalarReduce N k X (accStatic s.2.length (reductionMapping keep red)) s.2

/-- The choice between the reduction to a scalar and the others (lines 695-707). -/
def lowerReduce (N : NumOps R) (k : RKind) (X : Mem R) (axes : Axes) (noop keep enableSIMD lit : Bool)
    (VL : ℕ) (simdOnly par : Bool) : Option (Mem R) :=
  if fullReduction X.shape.length axes && !keep && enableSIMD then
    (fullReduce N [(k, id)] X.flat lit VL simdOnly par).map fun l => ⟨[], fun _ => l.headD N.zero⟩
  else lowerScalar N k X axes noop keep

/-- The scalar lowering with run-time axes, dimensions kept (lines 834-938). -/
def lowerDynamic (N : NumOps R) (k : RKind) (X : Mem R) (lenKnown noop : Bool) (l : List ℤ) :
    Option (Mem R) :=
  (dynMask X.shape.length lenKnown noop l).bind fun mask =>
    scalarReduce N k X (accDynamic X.shape.length mask) (dynOutDims mask X.shape)

end

end Verif.Lower
