import Mathlib.Algebra.Order.Field.Rat
import Mathlib.Algebra.Order.AbsoluteValue.Basic

/-!
# What binary floating-point patterns mean

Specification only: no code is modelled here. A pattern without its sign bit is a natural number
`p`: exponent field `p / 2^fw`, fraction field `p % 2^fw`.
-/

namespace Verif.Float

/-- Real value of the magnitude pattern `p` of an IEEE format with `fw` fraction bits and the given
exponent bias: subnormal when the exponent field is zero. -/
def ieee (bias fw p : Nat) : ℚ :=
  if p / 2 ^ fw = 0 then (p % 2 ^ fw : ℕ) * (2 : ℚ) ^ (1 - (bias : ℤ) - fw)
  else ((2 ^ fw + p % 2 ^ fw : ℕ) : ℚ) * (2 : ℚ) ^ ((p / 2 ^ fw : ℕ) - (bias : ℤ) - fw)

/-- `q` is the pattern nearest to `x` among the patterns `0..top`, where of two nearest patterns the
even one is taken. With `top` the pattern of infinity, read as the value that would follow the
largest finite one, this is IEEE rounding to nearest even including overflow. -/
def NearestEven (val : Nat → ℚ) (top : Nat) (x : ℚ) (q : Nat) : Prop :=
  q ≤ top ∧ (∀ z, z ≤ top → |x - val q| ≤ |x - val z|) ∧
    ∀ z, z ≤ top → z ≠ q → |x - val z| = |x - val q| → q % 2 = 0

/-- float32, float16, bfloat16 magnitudes. -/
def f32 : Nat → ℚ := ieee 127 23
def f16 : Nat → ℚ := ieee 15 10
def bf16 : Nat → ℚ := ieee 127 7

/-- Patterns of infinity. -/
def inf32 : Nat := 255 * 2 ^ 23
def inf16 : Nat := 31 * 2 ^ 10
def infB16 : Nat := 255 * 2 ^ 7

/-- Nearest, where of two nearest patterns the larger magnitude is taken (ties away from zero). -/
def NearestAway (val : Nat → ℚ) (top : Nat) (x : ℚ) (q : Nat) : Prop :=
  q ≤ top ∧ (∀ z, z ≤ top → |x - val q| ≤ |x - val z|) ∧
    ∀ z, z ≤ top → z ≠ q → |x - val z| = |x - val q| → z < q

/-- The NNPA format: six exponent bits with bias 31, nine fraction bits, no subnormals; the all
zero magnitude is zero. The last pattern, `0x7FFF`, is the special value `NINF`; here it is read as
the value that would follow the largest finite one. -/
def dlf16 (p : Nat) : ℚ :=
  if p = 0 then 0
  else ((2 ^ 9 + p % 2 ^ 9 : ℕ) : ℚ) * (2 : ℚ) ^ ((p / 2 ^ 9 : ℕ) - (31 : ℤ) - 9)

def ninf : Nat := 0x7FFF

end Verif.Float
