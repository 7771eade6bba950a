import Verif.Rewrite.OnnxReduce
import Mathlib.Analysis.SpecialFunctions.Pow.Real
import Mathlib.MeasureTheory.Integral.IntervalIntegral.Basic

/-!
# Normalisation and Gelu over the real numbers (specification)

What the definitions of ReduceMean, LayerNormalization, RMSLayerNormalization and Gelu say, over the real numbers:
arithmetic is exact, and a result that is not a real number (the mean of nothing, a quotient by 0) is no result. Nothing
here models code.
-/

namespace Verif.Recompose

open Verif.Rewrite

/-- Element-wise operators with one operand. -/
inductive NUn
  | sqrt | recip | erf | tanh
deriving DecidableEq

/-- Element-wise operators with two operands. -/
inductive NBi
  | add | sub | mul | div | pow
deriving DecidableEq

/-- The error function. -/
noncomputable def erfR (x : ℝ) : ℝ := 2 / Real.sqrt Real.pi * ∫ t in (0 : ℝ)..x, Real.exp (-t ^ 2)

/-- The value of an element-wise operator. -/
noncomputable def nunR : NUn → ℝ → ℝ
  | .sqrt => Real.sqrt
  | .recip => fun v => 1 / v
  | .erf => erfR
  | .tanh => Real.tanh

/-- Where an element-wise operator has a value. -/
def NUnDef : NUn → ℝ → Prop
  | .sqrt, v => 0 ≤ v
  | .recip, v => v ≠ 0
  | _, _ => True

/-- The value of an element-wise operator with two operands. -/
noncomputable def nbiR : NBi → ℝ → ℝ → ℝ
  | .add => (· + ·)
  | .sub => (· - ·)
  | .mul => (· * ·)
  | .div => (· / ·)
  | .pow => (· ^ ·)

/-- Where an element-wise operator with two operands has a value. -/
def NBiDef : NBi → ℝ → ℝ → Prop
  | .div, _, w => w ≠ 0
  | .pow, v, w => 0 < v ∨ ∃ n : ℕ, w = n
  | _, _, _ => True

open Classical in
/-- An element-wise operator on a tensor. -/
noncomputable def nunary (u : NUn) (x : Tensor ℝ) : Option (Tensor ℝ) :=
  if ∀ v ∈ x.data, NUnDef u v then some (x.map (nunR u)) else none

open Classical in
/-- An element-wise operator on two tensors, with broadcasting. -/
noncomputable def nbinary (b : NBi) (x y : Tensor ℝ) : Option (Tensor ℝ) :=
  (bshape x.shape y.shape).bind fun s =>
    if ∀ i, InBounds s i → NBiDef b (x.get (bidx x.shape i)) (y.get (bidx y.shape i)) then
      some (build s fun i => nbiR b (x.get (bidx x.shape i)) (y.get (bidx y.shape i)))
    else none

/-- The mean of a list of numbers. -/
noncomputable def avg (l : List ℝ) : ℝ := l.sum / l.length

open Classical in
/-- ReduceMean. -/
noncomputable def meanR (x : Tensor ℝ) (axes : Option (List ℤ)) (keep : Bool) : Option (Tensor ℝ) :=
  (redAxes x.shape.length axes false).bind fun R =>
    if ∀ idx, InBounds (project R keep 1 x.shape) idx → reduced x R keep idx ≠ [] then some (reduceWith avg x R keep)
    else none

/-- The elements that are normalised together: those whose first `a` coordinates agree. -/
def row (x : Tensor ℝ) (a : ℕ) (idx : List ℕ) : List ℝ :=
  ((allIndices x.shape).filter fun p => p.take a = idx.take a).map x.get

/-- The mean of the squares of the distances to `m`. -/
noncomputable def spread (l : List ℝ) (m : ℝ) : ℝ := avg (l.map fun v => (v - m) ^ 2)

open Classical in
/-- Normalisation: every element is moved by `m` and divided by the square root of the spread of its row plus
`eps`, then multiplied with the scale, which is stretched to the shape of the data. -/
noncomputable def normalize (m : List ℝ → ℝ) (x scale : Tensor ℝ) (axis : ℤ) (eps : ℝ) : Option (Tensor ℝ) :=
  (normAxis x.shape.length axis).bind fun a =>
    if bshape x.shape scale.shape = some x.shape ∧
        ∀ i, InBounds x.shape i → 0 < spread (row x a i) (m (row x a i)) + eps then
      some (build x.shape fun i =>
        (x.get i - m (row x a i)) / Real.sqrt (spread (row x a i) (m (row x a i)) + eps) * scale.get (bidx scale.shape i))
    else none

/-- LayerNormalization: the elements are moved by their mean. -/
noncomputable def layerNormR : Tensor ℝ → Tensor ℝ → ℤ → ℝ → Option (Tensor ℝ) := normalize avg

/-- RMSLayerNormalization: the elements are not moved. -/
noncomputable def rmsNormR : Tensor ℝ → Tensor ℝ → ℤ → ℝ → Option (Tensor ℝ) := normalize fun _ => 0

/-- The default of epsilon, 1e-05 in single precision. -/
noncomputable def epsDefault : ℝ := 2748779 / 274877906944

/-- The formula of Gelu for given constants; `true` for the approximation with tanh. -/
noncomputable def geluWith (c1 c2 c3 : ℝ) : Bool → ℝ → ℝ
  | false, x => 1 / 2 * x * (1 + erfR (x / c1))
  | true, x => 1 / 2 * x * (1 + Real.tanh (c2 * (x + c3 * x ^ 3)))

/-- Gelu by its definition. -/
noncomputable def geluR : Bool → ℝ → ℝ := geluWith (Real.sqrt 2) (Real.sqrt (2 / Real.pi)) 0.044715

end Verif.Recompose
