import Mathlib.Analysis.SpecialFunctions.Trigonometric.Basic
import Mathlib.Analysis.SpecialFunctions.Log.Basic
import Mathlib.Analysis.SpecialFunctions.Sqrt

/-!
# Random values (model)

Sources: /repo/src/Runtime/OMRandomUniform.c 24-66, /repo/src/Runtime/OMRandomNormal.c 15-40,
/repo/src/Conversion/ONNXToKrnl/Math/RandomUniform.cpp 24-58, RandomUniformLike.cpp 26-60, RandomNormal.cpp 27-76,
RandomNormalLike.cpp 28-84.

Simplified: arithmetic on floating-point numbers is exact, except for the conversion of integers to float32 in the uniform
distribution, which is rounded here as there. Seeds are natural numbers (the code truncates them to unsigned integers).
-/

namespace Verif.Random

/-- `RAND_MAX` of the C library. -/
def randMax : ℕ := 2147483647

/-- The generator of the C library: `srand` sets its state, `rand` returns a number and changes it. -/
structure Gen where
  State : Type
  srand : ℕ → State
  rand : State → ℕ × State
  bound : ∀ s, (rand s).1 ≤ randMax

/-- Conversion of an integer to float32: 24 bits, to the nearest, ties to even. -/
def toF32 (n : ℕ) : ℕ :=
  let e := Nat.log2 n - 23
  let q := n / 2 ^ e
  let r := n % 2 ^ e
  if 2 * r < 2 ^ e then q * 2 ^ e
  else if 2 * r = 2 ^ e then (if q % 2 = 0 then q else q + 1) * 2 ^ e
  else (q + 1) * 2 ^ e

/-- The element types. -/
inductive Elt
  | f32 | f64
deriving DecidableEq

/-- A value of the uniform distribution, OMRandomUniform.c 28-31 and 43-46. -/
noncomputable def uniformValue (t : Elt) (low high : ℝ) (k : ℕ) : ℝ :=
  match t with
  | .f32 => low + (toF32 k : ℝ) / (toF32 (toF32 randMax + 1) : ℝ) * (high - low)
  | .f64 => low + (k : ℝ) / ((randMax : ℝ) + 1) * (high - low)

/-- The loop of `run_uniform_random_f32` and `run_uniform_random_f64`, OMRandomUniform.c 28-31 and 43-46. -/
noncomputable def uniformLoop (g : Gen) (t : Elt) (low high : ℝ) : ℕ → g.State → List ℝ × g.State
  | 0, s => ([], s)
  | n + 1, s =>
    let (k, s1) := g.rand s
    let (l, s2) := uniformLoop g t low high n s1
    (uniformValue t low high k :: l, s2)

/-- `run_uniform_random`, OMRandomUniform.c 24-66. -/
noncomputable def runUniform (g : Gen) (t : Elt) (n : ℕ) (low high : ℝ) (seed : ℕ) (_s : g.State) : List ℝ × g.State :=
  uniformLoop g t low high n (g.srand seed)

/-- `uniformRandom`, OMRandomNormal.c 18-20. -/
noncomputable def unit (k : ℕ) : ℝ := ((k : ℝ) + 1) / ((randMax : ℝ) + 1)

/-- `normalRandom`, OMRandomNormal.c 23-27; none is an infinity (the logarithm of zero) or not a number (the root of a negative
number). -/
noncomputable def normalValue (u1 u2 : ℝ) : Option ℝ :=
  if u1 ≤ 0 then none
  else if -2.0 * Real.log u1 < 0 then none
  else some (Real.cos (2 * 3.14159 * u2) * Real.sqrt (-2.0 * Real.log u1))

/-- The loop of `get_random_normal_value_f64` and `_f32`, OMRandomNormal.c 31-33 and 38-40. -/
noncomputable def normalLoop (g : Gen) (mean scale : ℝ) : ℕ → g.State → List (Option ℝ) × g.State
  | 0, s => ([], s)
  | n + 1, s =>
    let (k1, s1) := g.rand s
    let (k2, s2) := g.rand s1
    let (l, s3) := normalLoop g mean scale n s2
    ((normalValue (unit k1) (unit k2)).map (fun x => x * scale + mean) :: l, s3)

/-- `get_random_normal_value_f64` and `_f32`, OMRandomNormal.c 29-40: only the second calls `srand`. -/
noncomputable def runNormal (g : Gen) (t : Elt) (n : ℕ) (mean scale : ℝ) (seed : ℕ) (s : g.State) :
    List (Option ℝ) × g.State :=
  match t with
  | .f32 => normalLoop g mean scale n (g.srand seed)
  | .f64 => normalLoop g mean scale n s

/-- The seed in the code of a model, RandomNormal.cpp 61-65 (the same in the other three): without a seed, one is chosen by the
compiler from its time in seconds. -/
def seedFor (g : Gen) (time : ℕ) (attr : Option ℕ) : ℕ :=
  match attr with
  | some s => s
  | none => (g.rand (g.srand time)).1 % 100

/-- The dimensions of a type: none is one that is not known at compile time. -/
abbrev Dims := List (Option ℕ)

/-- The static part of the number of values, RandomNormalLike.cpp 53-56. -/
def staticCount : Dims → ℕ
  | [] => 1
  | some d :: ds => d * staticCount ds
  | none :: ds => staticCount ds

/-- The multiplication with the sizes at run time, RandomNormalLike.cpp 61-66. -/
def dynCount : Dims → List ℕ → ℕ → ℕ
  | none :: ds, x :: xs, n => dynCount ds xs (n * x)
  | some _ :: ds, _ :: xs, n => dynCount ds xs n
  | _, _, n => n

/-- The number of values that RandomNormalLike stores, RandomNormalLike.cpp 52-66. -/
def normalCount (ty : Dims) (actual : List ℕ) : ℕ := dynCount ty actual (staticCount ty)

/-- The buffer of RandomUniformLike, RandomUniformLike.cpp 40: there are no sizes for the dimensions that are not known, and an
allocation without them is rejected. -/
def uniformAlloc (ty : Dims) : Option ℕ := if ty.all (·.isSome) then some (staticCount ty) else none

end Verif.Random
