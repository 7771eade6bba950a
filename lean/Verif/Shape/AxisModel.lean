/-!
# Model of axis normalisation

Source: `/repo/src/Dialect/ONNX/ONNXOps/ShapeHelper.cpp`.
-/

namespace Verif.Shape

/-- `isAxisInRange`, ShapeHelper.cpp 36-44: `none` for `false`, otherwise the new value of `axis`. The
arithmetic is that of unbounded integers. -/
def isAxisInRange (axis rank : Int) (includeRank : Bool) : Option Int :=
  let ub := if includeRank then rank + 1 else rank
  if axis < -rank ∨ axis ≥ ub then none
  else some (if axis < 0 then axis + rank else axis)

/-- `getAxisInRange`, 54-57. The call that normalises the axis is the argument of `assert`: `asserts`
tells whether assertions are compiled in. `none` is a failed assertion. -/
def getAxisInRange (asserts : Bool) (axis rank : Int) (includeRank : Bool) : Option Int :=
  if asserts then isAxisInRange axis rank includeRank else some axis

end Verif.Shape
