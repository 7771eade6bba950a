import Mathlib.Algebra.Order.Field.Basic
import Mathlib.Algebra.Order.Floor.Ring
import Mathlib.Algebra.Order.Archimedean.Basic
import Mathlib.Data.Finset.Max
import Mathlib.Algebra.BigOperators.Fin

/-!
# Quantised operators of ONNX

QuantizeLinear, DequantizeLinear, DynamicQuantizeLinear, MatMulInteger and QLinearMatMul over an ordered field, so without
the rounding of floating-point numbers. Nothing here models code.
-/

namespace Verif.Quant

variable {K : Type} [Field K] [LinearOrder K]

/-- `n` is `x` rounded to the nearest integer, ties going to the even one. -/
def IsRoundEven (x : K) (n : ℤ) : Prop := |x - n| ≤ 1 / 2 ∧ (|x - n| = 1 / 2 → Even n)

/-- Smallest and largest number of 8 bits. -/
def lo8 (signed : Bool) : ℤ := if signed then -128 else 0

/-- See `lo8`. -/
def hi8 (signed : Bool) : ℤ := if signed then 127 else 255

/-- Saturation to 8 bits. -/
def saturate (signed : Bool) (n : ℤ) : ℤ := max (lo8 signed) (min n (hi8 signed))

/-- The number that 8 bits stand for. -/
def val8 (signed : Bool) (v : BitVec 8) : ℤ := if signed then v.toInt else v.toNat

/-- QuantizeLinear: `y = saturate (round (x / scale) + zero point)`. -/
def IsQuantized (signed : Bool) (scale : K) (zp : ℤ) (x : K) (y : ℤ) : Prop :=
  ∃ r : ℤ, IsRoundEven (x / scale) r ∧ y = saturate signed (r + zp)

/-- DequantizeLinear: `y = (x - zero point) * scale`. -/
def dequantize (scale : K) (zp x : ℤ) : K := ((x - zp : ℤ) : K) * scale

/-- `m` is the largest of 0 and the elements. -/
def IsTop (xs : List K) (m : K) : Prop := (m = 0 ∨ m ∈ xs) ∧ 0 ≤ m ∧ ∀ x ∈ xs, x ≤ m

/-- `m` is the smallest of 0 and the elements. -/
def IsBottom (xs : List K) (m : K) : Prop := (m = 0 ∨ m ∈ xs) ∧ m ≤ 0 ∧ ∀ x ∈ xs, m ≤ x

/-- A parameter of a product of matrices: one number, or one for each row (of the left matrix) or column (of the right
one). -/
inductive Par (α : Type)
  | scalar (v : α)
  | each (n : ℕ) (f : ℕ → α)

/-- The parameter of row or column `i`. -/
def Par.get {α : Type} : Par α → ℕ → α
  | .scalar v, _ => v
  | .each _ f, i => f i

/-- The parameter fits `n` rows or columns. -/
def Par.Fits {α : Type} (n : ℕ) : Par α → Prop
  | .scalar _ => True
  | .each m _ => m = n

/-- MatMulInteger: element of a product of matrices of numbers less their zero points. -/
def accumulate (k : ℕ) (a b : ℕ → ℕ → ℤ) (za zb : Par ℤ) (i j : ℕ) : ℤ :=
  ∑ l : Fin k, (a i l - za.get i) * (b l j - zb.get j)

/-- QLinearMatMul: the product is scaled, rounded, moved by the zero point and saturated. -/
def IsQLinear (signed : Bool) (k : ℕ) (a b : ℕ → ℕ → ℤ) (za zb : Par ℤ) (sa sb : Par K) (sy : K) (zy : ℤ) (i j : ℕ) (y : ℤ) :
    Prop :=
  ∃ r : ℤ, IsRoundEven ((accumulate k a b za zb i j : K) * (sa.get i * sb.get j / sy)) r ∧ y = saturate signed (r + zy)

end Verif.Quant
