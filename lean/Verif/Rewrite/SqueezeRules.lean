import Verif.Rewrite.Term
import Mathlib.Data.Finset.Image
import Mathlib.Data.Finset.Dedup

/-!
# Canonicalization patterns of Squeeze and Unsqueeze (model)

Source: /repo/src/Dialect/ONNX/ONNXOps/Canonicalize.td 216-226, 789-878, Canonicalize.cpp 195-227.
-/

namespace Verif.Rewrite

variable {V : Type}

/-- The values of a constant operand (`createArrayAttrFromConstantOp`, OpHelper.cpp): its elements in order. -/
def constInts (A : Alg V) : Ex V → Option (List ℤ)
  | .const t _ => some (t.data.map A.toInt)
  | _ => none

/-- The rank recorded for a value, 0 when there is none: the first argument of `AreTheSameAxesConstant` and
`AreTheSameAxesArrayAttr`, Canonicalize.td 216-226. -/
def rankOr0 (e : Ex V) : ℕ := ((e.ty.dims).map List.length).getD 0

/-- `AreTheSameAxesArrayAttr`, Canonicalize.cpp 199-213: the axes as sets, with `rank` added to the negative
ones. -/
def sameAxes (rank : ℕ) (l r : List ℤ) : Bool :=
  (l.map fun a => if a < 0 then a + (rank : ℤ) else a).toFinset =
    (r.map fun a => if a < 0 then a + (rank : ℤ) else a).toFinset

/-- `AreTheSameAxesConstant`, Canonicalize.cpp 218-227. -/
def sameAxesConst (A : Alg V) (rank : ℕ) (l r : Ex V) : Bool :=
  match constInts A l, constInts A r with
  | some l, some r => sameAxes rank l r
  | _, _ => false

/-- `RemoveSqueezeUnsqueezePattern`, Canonicalize.td 798-804. -/
def removeSqueezeUnsqueeze (A : Alg V) : Ex V → Outcome V
  | .op .squeeze [.op .unsqueeze [v, u] _, s] _ =>
    if sameAxesConst A (rankOr0 v) u s then .into v else .skip
  | _ => .skip

/-- `RemoveSqueezeV11UnsqueezeV11Pattern`, Canonicalize.td 808-814. A missing attribute is not equal to
anything. -/
def removeSqueezeUnsqueezeV11 : Ex V → Outcome V
  | .op (.squeezeV11 (some s)) [.op (.unsqueezeV11 u) [v] _] _ =>
    if sameAxes (rankOr0 v) u s then .into v else .skip
  | _ => .skip

/-- `RemoveSqueezeCastUnsqueezePattern`, Canonicalize.td 818-824. -/
def removeSqueezeCastUnsqueeze (A : Alg V) : Ex V → Outcome V
  | .op .squeeze [.op (.cast sat d) [.op .unsqueeze [v, u] _] _, s] ty =>
    if sameAxesConst A (rankOr0 v) u s then .into (.op (.cast sat d) [v] ty) else .skip
  | _ => .skip

/-- `RemoveSqueezeV11CastUnsqueezeV11Pattern`, Canonicalize.td 828-834. -/
def removeSqueezeCastUnsqueezeV11 : Ex V → Outcome V
  | .op (.squeezeV11 (some s)) [.op (.cast sat d) [.op (.unsqueezeV11 u) [v] _] _] ty =>
    if sameAxes (rankOr0 v) u s then .into (.op (.cast sat d) [v] ty) else .skip
  | _ => .skip

/-- `RemoveUnsqueezeSqueezePattern`, Canonicalize.td 842-848: the rank is that of the squeezed value. -/
def removeUnsqueezeSqueeze (A : Alg V) : Ex V → Outcome V
  | .op .unsqueeze [.op .squeeze [v, s] t, u] _ =>
    if sameAxesConst A (rankOr0 (.op .squeeze [v, s] t)) u s then .into v else .skip
  | _ => .skip

/-- `RemoveUnsqueezeV11SqueezeV11Pattern`, Canonicalize.td 852-858. -/
def removeUnsqueezeSqueezeV11 : Ex V → Outcome V
  | .op (.unsqueezeV11 u) [.op (.squeezeV11 (some s)) [v] t] _ =>
    if sameAxes (rankOr0 (.op (.squeezeV11 (some s)) [v] t)) u s then .into v else .skip
  | _ => .skip

/-- `RemoveUnsqueezeCastSqueezePattern`, Canonicalize.td 862-868. -/
def removeUnsqueezeCastSqueeze (A : Alg V) : Ex V → Outcome V
  | .op .unsqueeze [.op (.cast sat d) [.op .squeeze [v, s] t] _, u] ty =>
    if sameAxesConst A (rankOr0 (.op .squeeze [v, s] t)) u s then .into (.op (.cast sat d) [v] ty)
    else .skip
  | _ => .skip

/-- `RemoveUnsqueezeV11CastSqueezeV11Pattern`, Canonicalize.td 872-878. -/
def removeUnsqueezeCastSqueezeV11 : Ex V → Outcome V
  | .op (.unsqueezeV11 u) [.op (.cast sat d) [.op (.squeezeV11 (some s)) [v] t] _] ty =>
    if sameAxes (rankOr0 (.op (.squeezeV11 (some s)) [v] t)) u s then .into (.op (.cast sat d) [v] ty)
    else .skip
  | _ => .skip

end Verif.Rewrite
