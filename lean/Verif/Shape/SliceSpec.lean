import Verif.IndexExpr.Spec

/-!
# Slice, as the ONNX operator documentation defines it

Text of the definition: `/repo/src/Dialect/ONNX/ONNXOps.td.inc`, `ONNXSliceOp`.
-/

namespace Verif.Shape

/-- "All negative values in `starts[i]` and `ends[i]` have `dims[axes[i]]` added to them". -/
def fromEnd (x d : Int) : Int := if x < 0 then x + d else x

/-- "clamped into the range `[lo, hi]`" -/
def clampTo (lo hi x : Int) : Int := max lo (min x hi)

/-- "clamped into the range `[0, dims]` for positive stepping and `[0, dims - 1]` for negative
stepping" -/
def sliceFirst (d start step : Int) : Int :=
  if step < 0 then clampTo 0 (d - 1) (fromEnd start d) else clampTo 0 d (fromEnd start d)

/-- "for positive stepping clamped to `[0, dims]`, while for negative stepping `[-1, dims - 1]`" -/
def sliceStop (d «end» step : Int) : Int :=
  if step < 0 then clampTo (-1) (d - 1) (fromEnd «end» d) else clampTo 0 d (fromEnd «end» d)

/-- The `k`-th position of the slice exists: stepping from the first position, the end has not been
reached. -/
def SliceHas (d start «end» step : Int) (k : Nat) : Prop :=
  if step < 0 then sliceStop d «end» step < sliceFirst d start step + k * step
  else sliceFirst d start step + k * step < sliceStop d «end» step

end Verif.Shape
