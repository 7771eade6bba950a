import Mathlib.Analysis.Complex.Trigonometric
import Mathlib.Analysis.SpecialFunctions.Log.Basic
import Mathlib.Analysis.Real.Sqrt
import Mathlib.Analysis.Real.Pi.Bounds

/-!
# What element-wise operators compute

The operators of ONNX on numbers, and what "the value at infinity" means.
-/

namespace Verif.Scalar
open Filter Topology

/-- A floating-point number: NaN, an infinity, or a real number.  There is one zero. -/
inductive Num
  | nan | ninf | pinf
  | fin (r : ℝ)

/-- Operators on one tensor, with their attributes. -/
inductive Fn
  | sinh | cosh | sigmoid
  | shrink (lambd bias : ℝ)
  | hardSigmoid (alpha beta : ℝ)
  | hardSwish
  | elu (alpha : ℝ)
  | relu
  | celu (alpha : ℝ)
  | leakyRelu (alpha : ℝ)
  | thresholdedRelu (alpha : ℝ)
  | selu (alpha gamma : ℝ)
  | reciprocal | softplus | softsign | sign | mish | neg
  | binarizer (threshold : ℝ)
  | gelu | geluTanh
  | clip (lo hi : Option ℝ)

/-- The definitions of ONNX.  `erf` is the error function. -/
noncomputable def onnx (erf : ℝ → ℝ) : Fn → ℝ → ℝ
  | .sinh, x => Real.sinh x
  | .cosh, x => Real.cosh x
  | .sigmoid, x => 1 / (1 + Real.exp (-x))
  | .shrink lambd bias, x => if x < -lambd then x + bias else if x > lambd then x - bias else 0
  | .hardSigmoid alpha beta, x => max 0 (min 1 (alpha * x + beta))
  | .hardSwish, x => x * max 0 (min 1 (x / 6 + 1 / 2))
  | .elu alpha, x => if x < 0 then alpha * (Real.exp x - 1) else x
  | .relu, x => max 0 x
  | .celu alpha, x => max 0 x + min 0 (alpha * (Real.exp (x / alpha) - 1))
  | .leakyRelu alpha, x => if x < 0 then alpha * x else x
  | .thresholdedRelu alpha, x => if x > alpha then x else 0
  | .selu alpha gamma, x => if x > 0 then gamma * x else gamma * (alpha * Real.exp x - alpha)
  | .reciprocal, x => 1 / x
  | .softplus, x => Real.log (Real.exp x + 1)
  | .softsign, x => x / (1 + |x|)
  | .sign, x => if x > 0 then 1 else if x < 0 then -1 else 0
  | .mish, x => x * Real.tanh (Real.log (1 + Real.exp x))
  | .neg, x => -x
  | .binarizer t, x => if x > t then 1 else 0
  | .gelu, x => 1 / 2 * x * (1 + erf (x / √2))
  | .geluTanh, x => 1 / 2 * x * (1 + Real.tanh (√(2 / Real.pi) * (x + 0.044715 * x ^ 3)))
  | .clip lo hi, x =>
    let y := match lo with | some l => max l x | none => x
    match hi with | some h => min h y | none => y

/-- Where the definition makes sense. -/
def Fn.Defined : Fn → ℝ → Prop
  | .reciprocal, x => x ≠ 0
  | .celu alpha, _ => alpha ≠ 0
  | _, _ => True

/-- A value is the limit of a function. -/
def LimitOf (F : Filter ℝ) (g : ℝ → ℝ) : Num → Prop
  | .fin l => Tendsto g F (𝓝 l)
  | .pinf => Tendsto g F atTop
  | .ninf => Tendsto g F atBot
  | .nan => False

/-! ## Integers and strings -/

/-- The remainder that Mod of ONNX gives: with the sign of the divisor, as in Python, or with
`fmod = 1` with the sign of the dividend, as in C. -/
def onnxMod (fmod : Bool) (a b : ℤ) : ℤ := if fmod then a.tmod b else a.fmod b

/-- Clip on integers. -/
def onnxClip (lo hi : Option ℤ) (x : ℤ) : ℤ :=
  let y := match lo with | some l => max l x | none => x
  match hi with | some h => min h y | none => y

/-- A string in C: its bytes, none of which is zero. -/
structure CStr where
  bytes : List ℕ
  nonzero : ∀ b ∈ bytes, b ≠ 0

end Verif.Scalar
