import Mathlib.Analysis.SpecialFunctions.Trigonometric.Basic

/-!
# Window functions (model)

Source: /repo/src/Conversion/ONNXToKrnl/Math/Window.cpp 31-163.

Simplified: floating-point types are the real numbers, so that constants, products and cosines are exact. A division by zero
is a separate outcome. Integer output types are not modelled.
-/

namespace Verif.Window

/-- The three operators. -/
inductive Kind
  | hamming | hann | blackman
deriving DecidableEq

/-- The type of the size. -/
inductive SizeTy
  | i32 | i64
deriving DecidableEq

/-- What compiling and running gives. -/
inductive Outcome
  | values (l : List ℝ)
  | assertion
  | divisionByZero

/-- `emitWindowCompute`, Window.cpp 39-91: the value at `i`, with the denominator `d`. -/
noncomputable def emit (k : Kind) (i d : ℝ) : ℝ :=
  match k with
  | .hamming => 0.54347 - 0.45653 * Real.cos (2 * Real.pi * i / d)
  | .hann => 0.5 * (1 - Real.cos (2 * Real.pi * i / d))
  | .blackman => 0.42 - 0.5 * Real.cos (2 * Real.pi * i / d) + 0.08 * Real.cos (4 * Real.pi * i / d)

/-- Wrapping to 32 bits, signed. -/
def wrap32 (x : ℤ) : ℤ := (x + 2147483648) % 4294967296 - 2147483648

/-- The size from which the denominator is computed, Window.cpp 122-126: none is the assertion of `MathBuilder::add` for operands
of different types (DialectBuilder.cpp 207), as the constant one is always of type i32. -/
def computeSize (t : SizeTy) (size : ℤ) (periodic : Bool) : Option ℤ :=
  if periodic then
    match t with
    | .i32 => some (wrap32 (size + 1))
    | .i64 => none
  else some size

/-- `GenericWindowOpLowering`, Window.cpp 96-156: the elements that the loop stores, for a size that is not negative. -/
noncomputable def lower (k : Kind) (t : SizeTy) (size : ℕ) (periodic : Bool) : Outcome :=
  match computeSize t size periodic with
  | none => .assertion
  | some n =>
    if (n : ℝ) - 1 = 0 ∧ size ≠ 0 then .divisionByZero
    else .values ((List.range size).map fun i : ℕ => emit k i ((n : ℝ) - 1))

end Verif.Window
