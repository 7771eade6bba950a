import Verif.IndexExpr.Model

/-!
# Model of Reshape shape inference

Source: `/repo/src/Dialect/ONNX/ONNXOps/Tensor/Reshape.cpp`.

Dimension `k` of the data is quantity `2k`, entry `i` of the requested shape quantity `2i+1`. The data
is ranked. The attribute `allowzero` is not looked at by the code.
-/

namespace Verif.Shape
open Verif.IndexExpr

def dataQ (k : Nat) : Nat := 2 * k
def shapeQ (i : Nat) : Nat := 2 * i + 1

/-- The loop 95-137. `matches i` is the dimension of the data found equal to entry `i` of the request
(`none` if there is none); the result pairs positions of the request with dimensions of the data, and is
empty if the mapping is not one-to-one. -/
def bijection : List (Option Nat) → Nat → List (Nat × Nat) → List (Nat × Nat)
  | [], _, acc => acc
  | none :: l, i, acc => bijection l (i + 1) acc
  | some k :: l, i, acc =>
    if k ∈ acc.map Prod.snd then [] else bijection l (i + 1) (acc ++ [(i, k)])

/-- `numOfElements`, 142-147. -/
def numElems (ign : List Nat) : Nat → Expr
  | 0 => .lit 1
  | k + 1 => if k ∈ ign then numElems ign k else .mul (numElems ign k) (.sym (dataQ k))

/-- `dim`, 152-164. -/
def reshapeDim (dataRank i : Nat) : Expr :=
  if i < dataRank then .select (.cmp .eq (.sym (shapeQ i)) (.lit 0)) (.sym (dataQ i)) (.sym (shapeQ i))
  else .sym (shapeQ i)

/-- `numOfElementsFromShape`, 150-173. -/
def numFromShape (dataRank : Nat) (ign : List Nat) : Nat → Expr
  | 0 => .lit 1
  | i + 1 =>
    if i ∈ ign then numFromShape dataRank ign i
    else .mul (numFromShape dataRank ign i)
      (.select (.cmp .eq (reshapeDim dataRank i) (.lit (-1))) (.lit 1) (reshapeDim dataRank i))

/-- `ONNXReshapeOpShapeHelper::computeShape`, 29-199. -/
def reshapeShape (dataRank outRank : Nat) (found : List (Option Nat)) : List Expr :=
  let b := bijection found 0 []
  let n := numElems (b.map Prod.snd) dataRank
  let s := numFromShape dataRank (b.map Prod.fst) outRank
  (List.range outRank).map fun i =>
    .select (.cmp .eq (.sym (shapeQ i)) (.lit (-1))) (.floorDiv n s) (reshapeDim dataRank i)

end Verif.Shape
