import Verif.Rewrite.Term

/-!
# Canonicalization patterns of Transpose (model)

Source: /repo/src/Dialect/ONNX/ONNXOps/Canonicalize.td 551-687, Canonicalize.cpp 94-136, 138-147,
2505-2551, OpHelper.cpp 421-450.
-/

namespace Verif.Rewrite

variable {V : Type}

/-- `CombinedTransposePattern`, OpHelper.cpp 421-437: the second permutation is used as an index in the
first one. An index out of bounds is undefined behaviour: `none`. -/
def combinedPerm (p1 p2 : List ℤ) : Option (List ℤ) :=
  p2.mapM fun k => if 0 ≤ k then p1[k.toNat]? else none

/-- `IsIdentityPermuteVector`, OpHelper.cpp 441-449: entry number `k` is `k`. -/
def isIdentityFrom : ℤ → List ℤ → Bool
  | _, [] => true
  | k, p :: ps => if p ≠ k then false else isIdentityFrom (k + 1) ps

/-- `FuseTransposePattern`, Canonicalize.td 562-566. The native call reads both attributes without a test,
so a transpose without permutation makes the compiler crash. -/
def fuseTranspose : Ex V → Outcome V
  | .op (.transpose p2) [.op (.transpose p1) [v] _] ty =>
    match p1, p2 with
    | some p1, some p2 =>
      match combinedPerm p1 p2 with
      | some p => .into (.op (.transpose (some p)) [v] ty)
      | none => .crash
    | _, _ => .crash
  | _ => .skip

/-- The operators for which Canonicalize.td 592-661 instantiates the three
`FuseTransposeAndElementwiseUnary...` classes, except Cast. -/
def transposable : List String :=
  ["Atan", "Ceil", "Cos", "Cosh", "Elu", "Erf", "Acos", "Acosh", "Asin", "Asinh", "Atanh", "Exp",
   "Floor", "HardSigmoid", "IsNaN", "LeakyRelu", "Log", "Neg", "Not", "Reciprocal", "Relu", "Round",
   "Selu", "Sigmoid", "Sign", "Sin", "Sinh", "Softplus", "Softsign", "Sqrt", "Tan", "Tanh"]

/-- `FuseTransposeAndElementwiseUnaryOpPattern` and its variants with attributes, Canonicalize.td 568-590.
The new element-wise operation gets the type of `v` (`returnType $v`). -/
def fuseTransposeUnary : Ex V → Outcome V
  | .op (.transpose p2) [.op (.unary n a) [.op (.transpose p1) [v] _] _] ty =>
    if n ∈ transposable then
      match p1, p2 with
      | some p1, some p2 =>
        match combinedPerm p1 p2 with
        | some p => .into (.op (.transpose (some p)) [.op (.unary n a) [v] v.ty] ty)
        | none => .crash
      | _, _ => .crash
    else .skip
  | _ => .skip

/-- `FuseTransposeAndCastPattern`, Canonicalize.td 594-595. -/
def fuseTransposeCast : Ex V → Outcome V
  | .op (.transpose p2) [.op (.cast s d) [.op (.transpose p1) [v] _] _] ty =>
    match p1, p2 with
    | some p1, some p2 =>
      match combinedPerm p1 p2 with
      | some p => .into (.op (.transpose (some p)) [.op (.cast s d) [v] v.ty] ty)
      | none => .crash
    | _, _ => .crash
  | _ => .skip

/-- `RemoveIdentityTransposePattern`, Canonicalize.td 664-670. -/
def removeIdentityTranspose : Ex V → Outcome V
  | .op (.transpose (some p)) [v] _ => if isIdentityFrom 0 p then .into v else .skip
  | _ => .skip

/-- Whether a value is produced by a Transpose. -/
def isTranspose : Ex V → Bool
  | .op (.transpose _) _ _ => true
  | _ => false

/-- The position of the first entry equal to `axis`: `getIndexOfAxisInPerm`, Canonicalize.cpp 94-105. -/
def indexInPerm (p : List ℤ) (axis : ℤ) : Option ℕ := p.findIdx? (· == axis)

/-- `SwapTransposeConcatPattern`, Canonicalize.td 680-687 with `areProducedByTransposeOp` and
`transposeVariadicInput`, Canonicalize.cpp 107-121, 138-147. The new transposes keep the element type; the
shape that `inferShapes` then records is left open here. When the axis is not found in the permutation the
native call returns a null attribute, with which the Concat cannot be built: `crash`. -/
def swapTransposeConcat : Ex V → Outcome V
  | .op (.transpose p) [.op (.concat axis) inputs _] ty =>
    if inputs.all isTranspose then
      match p with
      | some p =>
        match indexInPerm p axis with
        | some k => .into (.op (.concat k)
            (inputs.map fun i => .op (.transpose (some p)) [i] (.unranked i.ty.elt)) ty)
        | none => .crash
      | none => .crash
    else .skip
  | _ => .skip

/-- `ArrayAttrIntVal(permAttr, i)` plus the rank when negative, Canonicalize.cpp 2537-2544. -/
def fixPerm (r : ℕ) (p : List ℤ) : Option (List ℤ) :=
  (List.range r).mapM fun k => (p[k]?).map fun v => if v < 0 then v + r else v

/-- `HandleNegativePermutePatternInTranspose`, Canonicalize.cpp 2508-2551. -/
def handleNegativePerm : Ex V → Outcome V
  | .op (.transpose p) [x] ty =>
    match x.ty.dims with
    | none => .skip
    | some ds =>
      match p with
      | none => .into (.op (.transpose (some ((List.range ds.length).reverse.map
          fun (k : ℕ) => (k : ℤ)))) [x] ty)
      | some p =>
        match fixPerm ds.length p with
        | none => .crash
        | some q =>
          if (p.take ds.length).any (· < 0) then .into (.op (.transpose (some q)) [x] ty) else .skip
  | _ => .skip

end Verif.Rewrite
