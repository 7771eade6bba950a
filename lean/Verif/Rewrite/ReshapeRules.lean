import Verif.Rewrite.SqueezeRules

/-!
# Canonicalization patterns of Reshape (model)

Source: /repo/src/Dialect/ONNX/ONNXOps/Canonicalize.td 693-736, Canonicalize.cpp 1480-1800,
OpHelper.cpp 404-414, 479-520, 904-946.
-/

namespace Verif.Rewrite

variable {V : Type}

/-- `FuseTwoReshapesAllowZeroPattern`, Canonicalize.td 693-698. -/
def fuseTwoReshapesAllowZero : Ex V → Outcome V
  | .op (.reshape az2) [.op (.reshape _) [v, _] _, s2] ty =>
    if az2 = 1 then .into (.op (.reshape az2) [v, s2] ty) else .skip
  | _ => .skip

/-- `isIdentityReshape` without dimension analysis, OpHelper.cpp 904-946: the recorded shapes are the same
list and at most one extent is dynamic. -/
def isIdentityReshape (a b : STy) : Bool :=
  match a.dims, b.dims with
  | some x, some y => x = y ∧ x.length - 1 ≤ (x.filter (· ≠ none)).length
  | _, _ => false

/-- `RemoveIdentityReshapePattern2`, Canonicalize.td 728-736. -/
def removeIdentityReshape : Ex V → Outcome V
  | .op (.reshape _) [v, _] ty => if isIdentityReshape ty v.ty then .into v else .skip
  | _ => .skip

/-- `RewriteReshapeAllowZeroPattern`, Canonicalize.cpp 1730-1800. -/
def rewriteReshapeAllowZero : Ex V → Outcome V
  | .op (.reshape az) [v, s] ty =>
    if az ≠ 1 then .skip
    else match v.ty.dims, ty.dims with
      | some i, some o =>
        if i.count none = 0 ∧ o.count none = 0 then .into (.op (.reshape 0) [v, s] ty)
        else if i.count none = 1 ∧ o.count none = 1 then
          if (i.filterMap id).prod = (o.filterMap id).prod then .into (.op (.reshape 0) [v, s] ty)
          else .skip
        else .skip
      | _, _ => .skip
  | _ => .skip

mutual
/-- `areDims`, OpHelper.cpp 479-501: a one-dimensional value that is a Concat of dims or holds one 64-bit
integer. -/
def areDims : Ex V → Bool
  | .op (.concat _) args ty => ty.dims.map List.length = some 1 && areDimsL args
  | .none => false
  | .arg _ ty => ty.dims = some [some 1] && ty.elt = i64
  | .const t e => t.shape = [1] && e = i64
  | .op _ _ ty => ty.dims = some [some 1] && ty.elt = i64
def areDimsL : List (Ex V) → Bool
  | [] => true
  | e :: es => areDims e && areDimsL es
end

mutual
/-- `getDims`, OpHelper.cpp 509-520. -/
def getDims : Ex V → List (Ex V)
  | .op (.concat _) args _ => getDimsL args
  | e => [e]
def getDimsL : List (Ex V) → List (Ex V)
  | [] => []
  | e :: es => getDims e ++ getDimsL es
end

/-- Whether a value is a Concat. -/
def isConcat : Ex V → Bool
  | .op (.concat _) _ _ => true
  | _ => false

/-- `getI64ValuesFromONNXConstantOp`, OpHelper.cpp 404-414. -/
def constI64 (A : Alg V) : Ex V → Option (List ℤ)
  | .const t e => if e = i64 then some (t.data.map A.toInt) else none
  | _ => none

/-- `getValuesFromShape`, Canonicalize.cpp 1677-1697. -/
def shapeVals (A : Alg V) (e : Ex V) : Option (List (Ex V)) :=
  if areDims e && isConcat e then some (getDims e)
  else (constI64 A e).map fun l => l.map fun d => .const (ofInts A [d]) i64

/-- `isZero` and `isMinusOne`, Canonicalize.cpp 1650-1662 (the values have one element). -/
def isConstVal (A : Alg V) (n : ℤ) (e : Ex V) : Bool :=
  match constI64 A e with
  | some l => l.headD 0 = n
  | none => false

/-- The loop over the second shape, Canonicalize.cpp 1583-1614. -/
def fuseDims (A : Alg V) : List (Ex V) → List (Ex V) → List (Ex V)
  | _, [] => []
  | [], d2 :: s2 => d2 :: fuseDims A [] s2
  | d1 :: s1, d2 :: s2 => (if isConstVal A 0 d2 then d1 else d2) :: fuseDims A s1 s2

/-- `isScalarConstantTensor`, OpHelper.cpp 188-196. -/
def isScalarConst : Ex V → Bool
  | .const t _ => t.shape = [] || t.shape = [1]
  | _ => false

/-- The fused shape as one operand, Canonicalize.cpp 1621-1635. -/
def fusedShape (A : Alg V) (ds : List (Ex V)) : Ex V :=
  if ds.all isScalarConst then .const (ofInts A (ds.flatMap fun d => (constI64 A d).getD [])) i64
  else .op (.concat 0) ds ⟨some [some ds.length], i64⟩

/-- `FuseTwoReshapesPattern`, Canonicalize.cpp 1538-1642. -/
def fuseTwoReshapes (A : Alg V) : Ex V → Outcome V
  | .op (.reshape az2) [.op (.reshape az1) [v, s1] _, s2] ty =>
    if az2 ≠ 0 ∨ az1 ≠ 0 then .skip
    else match shapeVals A s1, shapeVals A s2 with
      | some d1, some d2 =>
        if 1 < ((fuseDims A d1 d2).filter (isConstVal A (-1))).length then .skip
        else .into (.op (.reshape az2) [v, fusedShape A (fuseDims A d1 d2)] ty)
      | _, _ => .skip
  | _ => .skip

end Verif.Rewrite
