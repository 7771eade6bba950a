import Mathlib.Data.Int.Log
import Mathlib.Algebra.Order.Round
import Mathlib.Data.Rat.Floor

/-!
# The ONNX Loop operator (specification)

Source: https://onnx.ai/onnx/operators/onnx__Loop.html, as quoted in /repo/docs/Dialects/onnx.md. Nothing here models code.
-/

namespace Verif.LoopTrip

/-- Values: integers, truth values, and anything else. -/
inductive Dat (X : Type)
  | int (z : ℤ)
  | bool (b : Bool)
  | other (x : X)
deriving DecidableEq

/-- What one iteration yields: whether to go on, the carried values and the scanned values. -/
structure Yield (X : Type) where
  go : Bool
  carried : List (Dat X)
  scan : List (Dat X)

/-- `for (i = ...; trips left && cond; ++i)`: at most `m` further iterations of a body, beginning with iteration `i`,
condition `c` and carried values `s`. The result is the carried values at the end and what every iteration scanned. -/
def iterate {X : Type} (body : ℕ → Bool → List (Dat X) → Yield X) :
    ℕ → ℕ → Bool → List (Dat X) → List (Dat X) × List (List (Dat X))
  | 0, _, _, s => (s, [])
  | m + 1, i, c, s =>
    if c then
      let y := body i c s
      let r := iterate body m (i + 1) y.go y.carried
      (r.1, y.scan :: r.2)
    else (s, [])

/-- Loop with a maximum trip count, an initial condition and initial values. A trip count below 1 means no iteration. -/
def loop {X : Type} (body : ℕ → Bool → List (Dat X) → Yield X) (trip : ℤ) (cond : Bool) (init : List (Dat X)) :
    List (Dat X) × List (List (Dat X)) := iterate body trip.toNat 0 cond init

/-- A rounding to `p` binary digits: integers of at most `p` digits are kept, and the relative error is at most half a
unit of the last digit. -/
structure Rounds (p : ℕ) (fl : ℚ → ℚ) : Prop where
  exact : ∀ n : ℤ, |n| ≤ 2 ^ p → fl n = n
  error : ∀ x, |fl x - x| ≤ |x| / 2 ^ p

/-- Round to nearest, ties to even, for integers. -/
def nearest (x : ℚ) : ℤ :=
  if x - ⌊x⌋ < 1 / 2 then ⌊x⌋ else if 1 / 2 < x - ⌊x⌋ then ⌊x⌋ + 1 else if ⌊x⌋ % 2 = 0 then ⌊x⌋ else ⌊x⌋ + 1

/-- Round to nearest, ties to even, with `p` binary digits (no bounds on the exponent). -/
def roundTo (p : ℕ) (x : ℚ) : ℚ :=
  (nearest (x / 2 ^ (Int.log 2 |x| - p + 1)) : ℚ) * 2 ^ (Int.log 2 |x| - p + 1)

end Verif.LoopTrip
