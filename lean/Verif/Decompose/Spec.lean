import Verif.Rewrite.OnnxReduce
import Mathlib.Analysis.SpecialFunctions.Log.Basic
import Mathlib.Data.Real.Sqrt

/-!
# Composite ONNX operators over the real numbers (specification)

What the ONNX definitions of the operators that the Decompose pass takes apart say, over the real numbers: arithmetic is
exact, and a result that is not a real number (the logarithm of a number that is not positive, the maximum of nothing)
is no result. Conversions between floating-point types keep the number. Nothing here models code.
-/

namespace Verif.Decompose

open Verif.Rewrite

/-- Element-wise operators with one operand. -/
inductive Un
  | abs | sqrt | log | exp | cast (d : DT)
deriving DecidableEq

/-- Element-wise operators with two operands. -/
inductive Bi
  | add | sub | mul | min | max
deriving DecidableEq

/-- Reductions. -/
inductive Red
  | sum | max | min | l1 | l2 | logSum | logSumExp | sumSquare
deriving DecidableEq

/-- Conversion to an element type: to an integer by dropping the fraction, to bool by comparing with 0. -/
noncomputable def castR (d : DT) (v : ℝ) : ℝ :=
  match d.kind with
  | .float => v
  | .bool => if v = 0 then 0 else 1
  | _ => if 0 ≤ v then ⌊v⌋ else ⌈v⌉

/-- The value of an element-wise operator. -/
noncomputable def unR : Un → ℝ → ℝ
  | .abs => fun v => |v|
  | .sqrt => Real.sqrt
  | .log => Real.log
  | .exp => Real.exp
  | .cast d => castR d

/-- Where an element-wise operator has a value. -/
def UnDef : Un → ℝ → Prop
  | .sqrt, v => 0 ≤ v
  | .log, v => 0 < v
  | _, _ => True

/-- The value of an element-wise operator with two operands. -/
noncomputable def biR : Bi → ℝ → ℝ → ℝ
  | .add => (· + ·)
  | .sub => (· - ·)
  | .mul => (· * ·)
  | .min => min
  | .max => max

/-- The value of a reduction of a list of numbers. -/
noncomputable def redR : Red → List ℝ → ℝ
  | .sum, l => l.sum
  | .max, l => l.tail.foldl max (l.headD 0)
  | .min, l => l.tail.foldl min (l.headD 0)
  | .l1, l => (l.map fun v => |v|).sum
  | .l2, l => Real.sqrt (l.map fun v => v * v).sum
  | .logSum, l => Real.log l.sum
  | .logSumExp, l => Real.log (l.map Real.exp).sum
  | .sumSquare, l => (l.map fun v => v * v).sum

/-- Where a reduction has a value. -/
def RedDef : Red → List ℝ → Prop
  | .max, l => l ≠ []
  | .min, l => l ≠ []
  | .logSum, l => 0 < l.sum
  | .logSumExp, l => l ≠ []
  | _, _ => True

open Classical in
/-- An element-wise operator on a tensor. -/
noncomputable def unaryR (u : Un) (x : Tensor ℝ) : Option (Tensor ℝ) :=
  if ∀ v ∈ x.data, UnDef u v then some (x.map (unR u)) else none

open Classical in
/-- A Reduce operator. -/
noncomputable def reduceR (r : Red) (x : Tensor ℝ) (axes : Option (List ℤ)) (keep noop : Bool) : Option (Tensor ℝ) :=
  (redAxes x.shape.length axes noop).bind fun R =>
    if ∀ idx ∈ allIndices (project R keep 1 x.shape), RedDef r (reduced x R keep idx) then
      some (reduceWith (redR r) x R keep)
    else none

/-- The sum of the exponentials along an axis. -/
noncomputable def expSum (x : Tensor ℝ) (a : ℕ) (idx : List ℕ) : ℝ :=
  ((List.range (x.shape.getD a 0)).map fun k => Real.exp (x.get (idx.set a k))).sum

/-- Softmax along an axis. -/
noncomputable def softmaxR (x : Tensor ℝ) (axis : ℤ) : Option (Tensor ℝ) :=
  (normAxis x.shape.length axis).map fun a => build x.shape fun idx => Real.exp (x.get idx) / expSum x a idx

/-- LogSoftmax along an axis. -/
noncomputable def logSoftmaxR (x : Tensor ℝ) (axis : ℤ) : Option (Tensor ℝ) :=
  (normAxis x.shape.length axis).map fun a => build x.shape fun idx => x.get idx - Real.log (expSum x a idx)

/-- The entry of an attribute of Scaler for the features at an index: one for all features, or one for each
position of the last axis; `d` without the attribute. -/
noncomputable def scalerAt (l : Option (List ℝ)) (d : ℝ) (idx : List ℕ) : ℝ :=
  match l with
  | none => d
  | some l => if l.length = 1 then l.getD 0 d else l.getD (idx.getLastD 0) d

/-- An attribute of Scaler fits the data. -/
def ScalerFits (l : Option (List ℝ)) (s : List ℕ) : Prop :=
  ∀ v, l = some v → v.length = 1 ∨ v.length = s.getLastD 0

open Classical in
/-- Scaler: subtract the offset, then multiply with the scale; the data have at least one axis. -/
noncomputable def scalerR (x : Tensor ℝ) (off scale : Option (List ℝ)) : Option (Tensor ℝ) :=
  if x.shape ≠ [] ∧ ScalerFits off x.shape ∧ ScalerFits scale x.shape then
    some (build x.shape fun idx => (x.get idx - scalerAt off 0 idx) * scalerAt scale 1 idx)
  else none

/-- HardSwish. -/
noncomputable def hardSwishR (v : ℝ) : ℝ := v * max 0 (min 1 (v / 6 + 1 / 2))

/-- Clip with optional bounds, which have no axes: `min(max(x, lo), hi)`. -/
noncomputable def clipR (x : Tensor ℝ) (lo hi : Option (Tensor ℝ)) : Option (Tensor ℝ) :=
  if lo.all (fun t => t.shape = []) ∧ hi.all (fun t => t.shape = []) then
    some (x.map fun v => bound min hi (bound max lo v))
  else none

/-- A tensor filled with a number. -/
def fillR (s : List ℤ) (v : ℝ) : Option (Tensor ℝ) :=
  if ∀ d ∈ s, 0 ≤ d then some (build (s.map Int.toNat) fun _ => v) else none

end Verif.Decompose
