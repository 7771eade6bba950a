import Mathlib.Algebra.Order.Field.Basic
import Mathlib.Algebra.Order.Floor.Ring

/-!
# GridSample of ONNX

The definition of GridSample for any number of spatial dimensions, after the reference implementation of the operator, over
an ordered field (so without the rounding of floating-point numbers). Nothing here models code.
-/

namespace Verif.GridSample

inductive Interp | nearest | linear | cubic
  deriving DecidableEq

inductive Padding | zeros | border
  deriving DecidableEq

variable {K : Type} [Field K] [LinearOrder K] [FloorRing K]

/-- A coordinate between -1 and 1 as a place along an axis of `n` elements. -/
def denormalize (align : Bool) (n : ℕ) (g : K) : K :=
  if align then (g + 1) / 2 * (n - 1) else ((g + 1) * n - 1) / 2

/-- Rounding to the nearest integer, ties going to the even one. -/
def rint (x : K) : ℤ := if x + 1 / 2 = ⌊x + 1 / 2⌋ ∧ ⌊x + 1 / 2⌋ % 2 = 1 then ⌊x + 1 / 2⌋ - 1 else ⌊x + 1 / 2⌋

/-- With border padding, a place outside of the image moves to the first or last element. The image reaches half an element
further when corners are not aligned. -/
def bring (align : Bool) (n : ℕ) (x : K) : K :=
  let lo : K := if align then 0 else -1 / 2
  let hi : K := if align then n - 1 else n - 1 / 2
  if x < lo ∨ hi < x then max 0 (min x (n - 1)) else x

/-- `i` clamped to an axis of `n` elements. -/
def clampZ (n : ℕ) (i : ℤ) : ℤ := max 0 (min i (n - 1))

/-- An element of the image, or what stands for it outside. -/
def pixel (p : Padding) (dims : List ℕ) (img : List ℤ → K) (ix : List ℤ) : K :=
  match p with
  | .zeros => if List.Forall₂ (fun (n : ℕ) (i : ℤ) => 0 ≤ i ∧ i < n) dims ix then img ix else 0
  | .border => img (List.zipWith clampZ dims ix)

/-- Linear interpolation, one axis at a time. -/
def linear : List K → (List ℤ → K) → K
  | [], f => f []
  | x :: xs, f => (1 - (x - ⌊x⌋)) * linear xs (fun t => f (⌊x⌋ :: t)) + (x - ⌊x⌋) * linear xs (fun t => f ((⌊x⌋ + 1) :: t))

/-- The four coefficients of cubic convolution with `a = -3/4`. -/
def coeff (r : K) : ℕ → K
  | 0 => ((-3 / 4 * (r + 1) - 5 * (-3 / 4)) * (r + 1) + 8 * (-3 / 4)) * (r + 1) - 4 * (-3 / 4)
  | 1 => ((-3 / 4 + 2) * r - (-3 / 4 + 3)) * r * r + 1
  | 2 => ((-3 / 4 + 2) * (1 - r) - (-3 / 4 + 3)) * (1 - r) * (1 - r) + 1
  | _ => ((-3 / 4 * (2 - r) - 5 * (-3 / 4)) * (2 - r) + 8 * (-3 / 4)) * (2 - r) - 4 * (-3 / 4)

/-- Cubic interpolation, one axis at a time. -/
def cubic : List K → (List ℤ → K) → K
  | [], f => f []
  | x :: xs, f => coeff (x - ⌊x⌋) 0 * cubic xs (fun t => f ((⌊x⌋ - 1) :: t)) + coeff (x - ⌊x⌋) 1 * cubic xs (fun t => f (⌊x⌋ :: t))
      + coeff (x - ⌊x⌋) 2 * cubic xs (fun t => f ((⌊x⌋ + 1) :: t)) + coeff (x - ⌊x⌋) 3 * cubic xs (fun t => f ((⌊x⌋ + 2) :: t))

/-- The value at a place, of which `coords` are the coordinates in the order of the axes of the image. -/
def sample (m : Interp) (p : Padding) (align : Bool) (dims : List ℕ) (img : List ℤ → K) (coords : List K) : K :=
  let v := List.zipWith (denormalize align) dims coords
  let v := if m = .nearest then v.map (fun x => (rint x : K)) else v
  let v := if p = .border then List.zipWith (bring align) dims v else v
  match m with
  | .nearest => pixel p dims img (v.map (⌊·⌋))
  | .linear => linear v (pixel p dims img)
  | .cubic => cubic v (pixel p dims img)

/-- GridSample: element `(n, c, o...)` of the output. The last axis of the grid has the coordinates in opposite order. -/
def gridSample (m : Interp) (p : Padding) (align : Bool) (dims : List ℕ) (input grid : List ℤ → K) (n c : ℤ) (o : List ℤ) : K :=
  sample m p align dims (fun ix => input (n :: c :: ix))
    (((List.range dims.length).map fun k => grid (n :: o ++ [(k : ℤ)])).reverse)

end Verif.GridSample
