import Verif.IndexExpr.Model

/-!
# Model of Slice shape inference and lowering

Sources: `/repo/src/Dialect/ONNX/ONNXOps/Tensor/Slice.cpp`,
`/repo/src/Conversion/ONNXToKrnl/Tensor/Slice.cpp`.

The quantities are numbered: `starts[i]` is `4i`, `ends[i]` is `4i+1`, `steps[i]` is `4i+2` and
dimension `j` of the data is `4j+3`.
-/

namespace Verif.Shape
open Verif.IndexExpr

def startQ (i : Nat) : Nat := 4 * i
def endQ (i : Nat) : Nat := 4 * i + 1
def stepQ (i : Nat) : Nat := 4 * i + 2
def dimQ (j : Nat) : Nat := 4 * j + 3

/-- `startPos`, Slice.cpp 87-88. -/
def startPos (start dim : Expr) : Expr :=
  .select (.cmp .lt start (.lit 0)) (.add start dim) start

/-- `startFinal`, Slice.cpp 90-92. -/
def startFinal (start step dim : Expr) : Expr :=
  let p := startPos start dim
  .select (.cmp .lt step (.lit 0)) (.clamp p (.lit 0) (.sub dim (.lit 1))) (.clamp p (.lit 0) dim)

/-- `endPos`, Slice.cpp 96-101, with the special cases for the 32-bit extremes. -/
def endPos («end» dim : Expr) : Expr :=
  let p := Expr.select (.cmp .lt «end» (.lit 0)) (.add «end» dim) «end»
  let p := Expr.select (.cmp .le «end» (.lit (-2147483648))) (.lit (-1)) p
  .select (.cmp .ge «end» (.lit 2147483647)) dim p

/-- `endFinal`, Slice.cpp 103-105. -/
def endFinal («end» step dim : Expr) : Expr :=
  let p := endPos «end» dim
  .select (.cmp .lt step (.lit 0)) (.clamp p (.lit (-1)) dim) (.clamp p (.lit 0) dim)

/-- `dimOutputFinal`, Slice.cpp 108-110. -/
def dimOut (start «end» step dim : Expr) : Expr :=
  let n := Expr.ceilDiv (.sub (endFinal «end» step dim) (startFinal start step dim)) step
  .select (.cmp .lt n (.lit 0)) (.lit 0) n

/-- What the shape helper keeps for an axis: `starts`, `steps`, `ends`, `outputDims`. -/
structure SliceAxis where
  start : Expr
  step : Expr
  «end» : Expr
  out : Expr

/-- Slice.cpp 39-54: an axis known at compile time, made non-negative and checked. `none` is the
error that is reported; axes that are not known are also an error. -/
def normAxis (rank : Nat) (a : Int) : Option Nat :=
  let axis := if a < 0 then a + rank else a
  if axis ≥ 0 ∧ axis < rank then some axis.toNat else none

def normAxes (rank : Nat) : List Int → Option (List Nat)
  | [] => some []
  | a :: l => (normAxis rank a).bind fun n => (normAxes rank l).map fun ns => n :: ns

/-- One iteration of the loop 64-117. -/
def setAxis (κ : Nat → Option Int) (acc : List (Option SliceAxis)) (i ii : Nat) :
    Option (List (Option SliceAxis)) :=
  if κ (stepQ i) = some 0 then none
  else
    some (acc.set ii (some {
      start := startFinal (.sym (startQ i)) (.sym (stepQ i)) (.sym (dimQ ii))
      step := .sym (stepQ i)
      «end» := endFinal (.sym (endQ i)) (.sym (stepQ i)) (.sym (dimQ ii))
      out := dimOut (.sym (startQ i)) (.sym (endQ i)) (.sym (stepQ i)) (.sym (dimQ ii)) }))

/-- The loop 64-117 over `i`, starting at `i`. -/
def setAxes (κ : Nat → Option Int) : Nat → List Nat → List (Option SliceAxis) →
    Option (List (Option SliceAxis))
  | _, [], acc => some acc
  | i, ii :: l, acc => (setAxis κ acc i ii).bind fun acc => setAxes κ (i + 1) l acc

/-- Defaults for the axes not mentioned, 121-132. -/
def fillAxes : Nat → List (Option SliceAxis) → List SliceAxis
  | _, [] => []
  | i, some a :: l => a :: fillAxes (i + 1) l
  | i, none :: l =>
    { start := .lit 0, step := .lit 1, «end» := .sym (dimQ i), out := .sym (dimQ i) } ::
      fillAxes (i + 1) l

/-- `axesIntLit`, 34-54; `axes` is `none` if omitted. -/
def sliceAxes (rank : Nat) (axes : Option (List Int)) : Option (List Nat) :=
  match axes with
  | none => some (List.range rank)
  | some l => normAxes rank l

/-- `ONNXSliceOpShapeHelper::computeShape`, 28-138. -/
def sliceShape (κ : Nat → Option Int) (rank : Nat) (axes : Option (List Int)) :
    Option (List SliceAxis) :=
  (sliceAxes rank axes).bind fun axs =>
    (setAxes κ 0 axs (List.replicate rank none)).map fun acc => fillAxes 0 acc

/-- The index loaded in iteration `k` of the loop of an axis, `(step * inductionIndex) + start`,
ONNXToKrnl/Tensor/Slice.cpp 76-79. `SymIE` of the start and the step keeps their values; the scope
change is not modelled. -/
def loadIndex (a : SliceAxis) (k : Nat) : Expr := .add (.mul a.step (.lit k)) a.start

end Verif.Shape
