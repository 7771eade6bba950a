import Verif.Base.Index
import Mathlib.Algebra.Order.Field.Rat

/-!
# Model of the runtime tensor layout functions

Source: `/repo/src/Runtime/OMTensor.inc`. Shapes, strides and indices are `Nat` lists: the
code uses `int64_t` arrays and relies on non-negative extents. Signed 64-bit overflow is
undefined behaviour in C, so it is the outcome `none` here.
-/

namespace Verif.Runtime

/-- Largest `int64_t` plus one. -/
def i64Bound : Nat := 2 ^ 63

/-- `int64_t` multiplication; `none` is signed overflow. -/
def mul64 (a b : Nat) : Option Nat := if a * b < i64Bound then some (a * b) else none

/-- `int64_t` addition; `none` is signed overflow. -/
def add64 (a b : Nat) : Option Nat := if a + b < i64Bound then some (a + b) else none

/-- `getNumElems`, OMTensor.inc 144-149: left-to-right product. -/
def getNumElems (shape : List Nat) : Option Nat :=
  shape.foldlM mul64 1

/-- Stride loop of `omTensorCreate`, OMTensor.inc 187-193: `strides[rank-1] = 1` and
`strides[i] = strides[i+1] * shape[i+1]`, from the last axis to the first. The recursion
computes the strides of the tail first, which is the order of the loop. -/
def createStrides : List Nat → Option (List Nat)
  | [] => some []
  | [_] => some [1]
  | _ :: d :: ds =>
    match createStrides (d :: ds) with
    | some (s :: ss) => (mul64 s d).map fun t => t :: s :: ss
    | _ => none

/-- `inner_product`, OMTensor.inc 152-158. The loop reads both arrays up to `len`; the two
lists have that length. -/
def innerProduct : List Nat → List Nat → Nat → Option Nat
  | v :: vs, u :: us, r =>
    match mul64 v u with
    | some p =>
      match add64 r p with
      | some r' => innerProduct vs us r'
      | none => none
    | none => none
  | _, _, r => some r

/-- `computeElemOffset` (C version), OMTensor.inc 160-163. -/
def computeElemOffset (strides idx : List Nat) : Option Nat := innerProduct strides idx 0

/-- `omTensorGetNumElems`, OMTensor.inc 385-400: `none` also stands for the assertion that
the strides are dense failing. -/
def omTensorGetNumElems (shape strides : List Nat) : Option Nat :=
  if (List.range shape.length).all fun i =>
      strides[i]? == (getNumElems (shape.drop (i + 1))) then
    getNumElems shape
  else none

/-- `std::partial_sum` with multiplication. -/
def partialProd : Nat → List Nat → Option (List Nat)
  | _, [] => some []
  | acc, x :: xs =>
    match mul64 acc x with
    | some p => (partialProd p xs).map fun r => p :: r
    | none => none

/-- `computeStridesFromShape` (C++), OMTensor.inc 750-758. `sizesVec` is built from the range
`[dataSizes + 1, dataSizes + rank)`, which is not a valid range when `rank = 0`: that case is
`none`. The partial products run over the reversed `sizesVec` and are stored reversed. -/
def computeStridesFromShape (shape : List Nat) : Option (List Nat) :=
  match shape with
  | [] => none
  | _ :: tail => (partialProd 1 (tail ++ [1]).reverse).map List.reverse

/-- Conversion of an `int64_t` to `int`: reduction modulo 2^32 to the signed range. -/
def toInt32 (x : Int) : Int := (x + 2 ^ 31) % 2 ^ 32 - 2 ^ 31

/-- `computeElemOffset` (C++), OMTensor.inc 761-765: `std::inner_product` with the initial
value `0` of type `int`, so every partial sum is converted back to `int`. -/
def computeElemOffsetCpp (strides idx : List Nat) : Int :=
  (List.zip idx strides).foldl (fun acc p => toInt32 (acc + (p.1 : Int) * p.2)) 0

/-- `CartProduct`, OMTensor.inc 733-747. -/
def cartProduct (v : List (List Nat)) : List (List Nat) :=
  v.foldl (fun s u => s.flatMap fun x => u.map fun y => x ++ [y]) [[]]

/-- `omTensorComputeIndexSet`, OMTensor.inc 847-861. -/
def omTensorComputeIndexSet (shape : List Nat) : List (List Nat) :=
  cartProduct (shape.map List.range)

/-- `omTensorAreTwoOmtsClose`, OMTensor.inc 865-927, on tensors whose buffers hold the listed
elements. Exact rational arithmetic replaces `float`; the element type is not an integer type
(for integer types the code first truncates the tolerances). The result is whether all
entries of `rtol*|b| + atol - |a-b|` are non-negative. -/
def areTwoOmtsClose (aShape bShape : List Nat) (a b : List ℚ) (rtol atol : ℚ) : Bool :=
  if aShape != bShape then false
  else
    let absDiff := (List.zipWith (· - ·) a b).map abs
    let eqc := (b.map abs).map (fun x => rtol * x)
    let eqc := eqc.map (fun x => x + atol)
    let eqc := List.zipWith (· - ·) eqc absDiff
    eqc.all fun e => decide (0 ≤ e)

end Verif.Runtime
