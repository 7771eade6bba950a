import Verif.Base.Index
import Mathlib.Data.Rat.Floor
import Mathlib.Algebra.Order.Floor.Ring
import Mathlib.Order.Interval.Finset.Basic
import Mathlib.Data.Int.Interval
import Mathlib.Algebra.BigOperators.Group.Finset.Basic

/-!
# Specification of Resize

Interpolating means summing the samples near a coordinate, each weighted by a kernel of its distance.
Samples outside the data are those at the border. In several dimensions this is done one dimension
after the other.
-/

namespace Verif.Resize

/-- The sample next to position `k` in data of length `n`. -/
def clamp (n : Nat) (k : Int) : Nat := (max 0 (min k ((n : Int) - 1))).toNat

/-- Weight of a sample at distance `t` (coordinate minus sample) for linear interpolation. -/
def linearKernel (t : ℚ) : ℚ := max 0 (1 - |t|)

/-- Weight for nearest neighbour, halves to the left. -/
def nearestKernel (t : ℚ) : ℚ := if -(1 / 2) < t ∧ t ≤ 1 / 2 then 1 else 0

/-- Weight for nearest neighbour, halves to the right. -/
def nearestCeilKernel (t : ℚ) : ℚ := if -(1 / 2) ≤ t ∧ t < 1 / 2 then 1 else 0

/-- Weight for cubic convolution with `A = -0.75`. -/
def cubicKernel (t : ℚ) : ℚ :=
  if |t| ≤ 1 then (-3 / 4 + 2) * |t| ^ 3 - (-3 / 4 + 3) * |t| ^ 2 + 1
  else if |t| < 2 then -3 / 4 * |t| ^ 3 - 5 * (-3 / 4) * |t| ^ 2 + 8 * (-3 / 4) * |t| - 4 * (-3 / 4)
  else 0

/-- The interpolated value at the coordinates `xs` of the image `f` with the given extents. All kernels
above are zero outside the window. -/
def interp (w : ℚ → ℚ) : List Nat → (List Nat → ℚ) → List ℚ → ℚ
  | n :: ns, f, x :: xs =>
    ∑ k ∈ Finset.Icc (⌊x⌋ - 2) (⌊x⌋ + 2), w (x - k) * interp w ns (fun j => f (clamp n k :: j)) xs
  | _, f, _ => f []

/-- The coordinate in the data of element `i` of the result, with the convention `half_pixel`. -/
def halfPixel (scale : ℚ) (i : Nat) : ℚ := (i + 1 / 2) / scale - 1 / 2

end Verif.Resize
