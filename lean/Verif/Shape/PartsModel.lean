import Verif.Shape.BroadcastModel
import Verif.Shape.AxisModel

/-!
# Model of Split, Concat, Squeeze and Unsqueeze shape inference

Sources: `/repo/src/Dialect/ONNX/ONNXOps/Tensor/{Split,Concat,Squeeze,Unsqueeze}.cpp`.
-/

namespace Verif.Shape
open Verif.IndexExpr

/-- `splitDims`, Split.cpp 54-86, for `n` results. `sizes` are the explicit sizes (an empty list if they
are omitted), `numOutputs` is true for `ONNXSplitOp`, false for the older versions. `none` is a reported
error. -/
def splitDims (κ : Nat → Option Int) (numOutputs : Bool) (n : Nat) (sizes : List Int) (dim : Expr) :
    Option (List Expr) :=
  if sizes ≠ [] then
    if sizes.length ≠ n then none else some (sizes.map .lit)
  else
    match litOf κ dim with
    | some d =>
      if d % n ≠ 0 ∧ numOutputs = false then none
      else some ((List.range n).map fun (i : Nat) =>
        if (i : Int) < d % n then .ceilDiv dim (.lit n) else .floorDiv dim (.lit n))
    | none => some ((List.range n).map fun _ => .ceilDiv dim (.lit n))

/-- `ONNXCommonSplitOpShapeHelper::customComputeShape`, Split.cpp 29-102: the dimensions of each
result. -/
def splitShape (κ : Nat → Option Int) (numOutputs : Bool) (dims : List Expr) (axis : Int) (n : Nat)
    (sizes : List Int) : Option (List (List Expr)) :=
  (isAxisInRange axis dims.length false).bind fun a =>
    (dims[a.toNat]?).bind fun dim =>
      (splitDims κ numOutputs n sizes dim).map fun sd => sd.map fun s => dims.set a.toNat s

/-- An operand whose type has the shape `[0]`, Concat.cpp 35-38. -/
def knownEmpty (κ : Nat → Option Int) (dims : List Expr) : Bool :=
  match dims with
  | [d] => decide (litOf κ d = some 0)
  | _ => false

/-- `firstNonEmptyInput`, Concat.cpp 33-41. Operands are values (numbers); `shape v` are the dimensions of
`v`. -/
def firstNonEmpty (κ : Nat → Option Int) (shape : Nat → List Expr) (vals : List Nat) : Option Nat :=
  vals.find? fun v => !knownEmpty κ (shape v)

/-- Lines 86-97 for the dimensions off the axis: a known extent replaces what was there. -/
def concatDims (κ : Nat → Option Int) (axis : Nat) : Nat → List Expr → List Expr → List Expr
  | j, o :: os, d :: ds =>
    (if j ≠ axis ∧ (litOf κ d).isSome then d else o) :: concatDims κ axis (j + 1) os ds
  | _, os, _ => os

/-- The loop 72-98. -/
def concatLoop (κ : Nat → Option Int) (shape : Nat → List Expr) (axis first : Nat) :
    Bool → List Nat → List Expr → Expr → Option (List Expr × Expr)
  | _, [], dims, size => some (dims, size)
  | counted, v :: vals, dims, size =>
    if !counted && v == first then concatLoop κ shape axis first true vals dims size
    else if knownEmpty κ (shape v) then concatLoop κ shape axis first counted vals dims size
    else (shape v)[axis]?.bind fun d =>
      concatLoop κ shape axis first counted vals (concatDims κ axis 0 dims (shape v)) (.add size d)

/-- `ONNXConcatOpShapeHelper::computeShape`, Concat.cpp 29-103. `none` is a failed assertion. If all
operands are empty the output dimensions are left as they were created, that is, empty. -/
def concatShape (κ : Nat → Option Int) (shape : Nat → List Expr) (vals : List Nat) (axis : Int) :
    Option (List Expr) :=
  match firstNonEmpty κ shape vals with
  | none => some []
  | some first =>
    (isAxisInRange axis (shape first).length false).bind fun a =>
      (shape first)[a.toNat]?.bind fun d =>
        (concatLoop κ shape a.toNat first false vals (shape first) d).map fun r =>
          r.1.set a.toNat r.2

/-- The axes of Squeeze and Unsqueeze, Squeeze.cpp 76-90, Unsqueeze.cpp 47-65; `none` entries are not
known at compile time. `unique` for Unsqueeze, which rejects duplicates. -/
def sqAxes (rank : Nat) (unique : Bool) : List (Option Int) → List Nat → Option (List Nat)
  | [], acc => some acc
  | none :: _, _ => none
  | some a :: l, acc =>
    (isAxisInRange a rank false).bind fun a =>
      if unique && acc.contains a.toNat then none else sqAxes rank unique l (acc ++ [a.toNat])

/-- The dimensions that are kept, Squeeze.cpp 94-98; `i` is the position of the first. -/
def keepDims (axes : List Nat) : Nat → List Expr → List Expr
  | _, [] => []
  | i, d :: l => if i ∈ axes then keepDims axes (i + 1) l else d :: keepDims axes (i + 1) l

/-- The positions of the dimensions known to be 1, Squeeze.cpp 60-73; `none` if one is not known. -/
def onesOf (κ : Nat → Option Int) : Nat → List Expr → Option (List Nat)
  | _, [] => some []
  | i, d :: l => (litOf κ d).bind fun n => (onesOf κ (i + 1) l).map fun r => if n = 1 then i :: r else r

/-- `ONNXCommonSqueezeOpShapeHelper::customComputeShape`, Squeeze.cpp 40-106; `axes` is `none` if
omitted. -/
def squeezeShape (κ : Nat → Option Int) (dims : List Expr) (axes : Option (List (Option Int))) :
    Option (List Expr) :=
  match axes with
  | none => (onesOf κ 0 dims).map fun l => keepDims l 0 dims
  | some l => (sqAxes dims.length false l []).map fun l => keepDims l 0 dims

/-- The loop 67-73 of Unsqueeze.cpp; `n` iterations up to the output rank are left. Reading beyond the
data's rank is `none`. Once the output rank is reached the rest of the data is appended. -/
def insertOnes (axes : List Nat) : Nat → Nat → List Expr → Option (List Expr)
  | 0, _, l => some l
  | n + 1, i, l =>
    if i ∈ axes then (insertOnes axes n (i + 1) l).map fun r => .lit 1 :: r
    else match l with
      | [] => none
      | d :: l => (insertOnes axes n (i + 1) l).map fun r => d :: r

/-- `ONNXCommonUnsqueezeOpShapeHelper::customComputeShape`, Unsqueeze.cpp 31-81. -/
def unsqueezeShape (dims : List Expr) (axes : List (Option Int)) : Option (List Expr) :=
  let outRank := dims.length + axes.length
  (sqAxes outRank true axes []).bind fun l => insertOnes l outRank 0 dims

end Verif.Shape
