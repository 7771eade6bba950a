import Mathlib.Data.Rat.Floor
import Mathlib.Algebra.Order.Floor.Ring

/-!
# Model of the Resize runtime

Source: `/repo/src/Runtime/OMResize.c`.

`float` arithmetic is exact. An access outside an array and the use of an uninitialised variable are
`none`. Allocation does not fail.
-/

namespace Verif.Resize

/-- The functions passed as `Coeff_Func_t`. -/
inductive Kern | nearest | linear | cubic
  deriving DecidableEq

/-- `coeffs_n`, OMResize.c 324-339. -/
def taps : Kern → Nat
  | .nearest => 2
  | .linear => 2
  | .cubic => 4

/-- `nearest_coeffs`, 33-53. An unknown mode leaves the buffer as it was. -/
def nearestCoeffs (mode : Nat) (r : ℚ) : Option (List ℚ) :=
  match mode with
  | 0 => some [if r ≤ 1 / 2 then 1 else 0, if r > 1 / 2 then 1 else 0]
  | 1 => some [if r < 1 / 2 then 1 else 0, if r ≥ 1 / 2 then 1 else 0]
  | 2 => some [1, 0]
  | 4 => some [0, 1]
  | _ => none

/-- `cubic_coeffs`, 55-68. -/
def cubicCoeffs (r : ℚ) : List ℚ :=
  let A : ℚ := -3 / 4
  [((A * (r + 1) - 5 * A) * (r + 1) + 8 * A) * (r + 1) - 4 * A,
   ((A + 2) * r - (A + 3)) * r * r + 1,
   ((A + 2) * (1 - r) - (A + 3)) * (1 - r) * (1 - r) + 1,
   ((A * ((1 - r) + 1) - 5 * A) * ((1 - r) + 1) + 8 * A) * ((1 - r) + 1) - 4 * A]

/-- The call of `get_coeffs`; `linear_coeffs` 28-31. -/
def coeffs (k : Kern) (mode : Nat) (r : ℚ) : Option (List ℚ) :=
  match k with
  | .linear => some [1 - r, r]
  | .nearest => nearestCoeffs mode r
  | .cubic => some (cubicCoeffs r)

/-- `start` and `end`, 79-112. -/
def neighborRange (x : ℚ) (n : Int) : Int × Int :=
  let pad : Int := n / 2
  let y := x + pad
  let r := y - ⌊y⌋
  let c := if r > 1 / 2 then ⌊y⌋ + 1 else ⌊y⌋
  let rest := n - 1
  let half := rest / 2
  let se :=
    if rest = 0 then (c, c)
    else if rest % 2 = 0 then (c - half, c + half)
    else if r = 0 then (c - half - 1, c + half)
    else if r > 1 / 2 then (c - half - 1, c + half)
    else (c - half, c + half + 1)
  (se.1 - pad, se.2 - pad)

/-- The body of the loop 114-128. -/
def point (data : List ℚ) (limit : Nat) (exclude : Bool) (i : Int) : Option ℚ :=
  if i < 0 then (if exclude then some 0 else data[0]?)
  else if i ≥ limit then (if exclude then some 0 else if limit = 0 then none else data[limit - 1]?)
  else data[i.toNat]?

/-- `get_neighbor`, 70-129: the points, which have to fit the buffer of `n` elements. -/
def getNeighbor (x : ℚ) (n : Nat) (limit : Nat) (data : List ℚ) (exclude : Bool) : Option (List ℚ) :=
  let se := neighborRange x n
  if se.2 - se.1 + 1 ≤ n then
    (List.range (se.2 - se.1 + 1).toNat).mapM fun (j : Nat) => point data limit exclude (se.1 + j)
  else none

/-- `x_ori`, 140-148. -/
def xOri (ctm : Nat) (scale x : ℚ) : Option ℚ :=
  if scale = 0 then none
  else match ctm with
    | 0 => some ((x + 1 / 2) / scale - 1 / 2)
    | 1 => some (x / scale)
    | _ => none

/-- The loop 165-167. -/
def dot : List ℚ → List ℚ → ℚ
  | a :: as, b :: bs => a * b + dot as bs
  | _, _ => 0

/-- `interpolate_1d_with_x`, 133-171. -/
def interp1d (k : Kern) (mode ctm : Nat) (exclude : Bool) (width : Nat) (data : List ℚ) (scale x : ℚ) :
    Option ℚ :=
  (xOri ctm scale x).bind fun xo =>
    let ratio := xo - ⌊xo⌋
    let ratio := if ratio = 0 then 1 else ratio
    (coeffs k mode ratio).bind fun cs =>
      (getNeighbor xo (taps k) width data exclude).bind fun ps =>
        if ps.length < taps k then none else some (dot cs ps)

/-- `interpolate_nd_with_x`, 172-209; the shape is what is found from the pointer passed on. `n = 0`
does not happen. -/
def interpNd (k : Kern) (mode ctm : Nat) (exclude : Bool) :
    Nat → List Nat → List ℚ → List ℚ → List ℚ → Option ℚ
  | 0, _, _, _, _ => none
  | 1, shape, data, scales, xs =>
    shape[0]?.bind fun w => scales[0]?.bind fun s => xs[0]?.bind fun x =>
      interp1d k mode ctm exclude w data s x
  | n + 2, shape, data, scales, xs =>
    shape[0]?.bind fun w =>
      ((List.range (n + 1)).mapM fun i => shape[i + 1]?).bind fun ds =>
        ((List.range w).mapM fun i =>
          interpNd k mode ctm exclude (n + 1) (shape.drop 1) (data.drop (i * ds.prod)) (scales.drop 1)
            (xs.drop 1)).bind fun temp =>
          scales[0]?.bind fun s => xs[0]?.bind fun x =>
            interp1d k mode ctm exclude w temp s x

/-- `coordinate_step` and `generate_coordinates`, 211-236: the rows written to `allCoordinates`. -/
def coords : List Nat → List Nat → List (List Nat)
  | [], _ => []
  | [s], cur => (List.range s).map fun i => cur ++ [i]
  | s :: t :: ss, cur => (List.range s).flatMap fun i => coords (t :: ss) (cur ++ [i])

/-- The loop 286-309 of `interpolate_nd_OMTensor`; `n`, `mode`, the transformation mode and
`exclude_outside` are constants. -/
def resizeLoop (k : Kern) (shape : List Nat) (data scales : List ℚ) (sizes : List Nat) : Option (List ℚ) :=
  (coords sizes []).mapM fun c => interpNd k 0 0 false 4 shape data scales (c.map (Nat.cast : Nat → ℚ))

/-- `Resize_Scales`, 324-353 with 263-269. A negative scale is not modelled. -/
def resizeScales (k : Kern) (shape : List Nat) (data scales : List ℚ) : Option (List ℚ) :=
  if scales.any (· < 0) then none
  else resizeLoop k shape data scales (List.zipWith (fun (s : ℚ) (n : Nat) => ⌊s * n⌋.toNat) scales shape)

/-- `Resize_Size`, 356-384 with 256-262. -/
def resizeSizes (k : Kern) (shape : List Nat) (data : List ℚ) (sizes : List Nat) : Option (List ℚ) :=
  if shape.any (· == 0) then none
  else resizeLoop k shape data (List.zipWith (fun (m n : Nat) => (m : ℚ) / n) sizes shape) sizes

end Verif.Resize
