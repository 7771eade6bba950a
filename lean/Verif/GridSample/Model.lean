import Verif.GridSample.Spec
import Verif.Quant.Model

/-!
# Lowering of GridSample

Model of src/Conversion/ONNXToKrnl/NN/GridSample.cpp. Floating-point numbers are elements of an ordered field. A load gives
its value and its address, so that all addresses that an element of the output needs are known; memory has something at
every address. The loops around the element are those of C53.
-/

namespace Verif.GridSample

open Verif.Quant

variable {K : Type} [Field K] [LinearOrder K] [FloorRing K]

/-- `transformCoordinate`: src/Conversion/ONNXToKrnl/NN/GridSample.cpp:34-58. -/
def transformCoordinate (gridCoord : K) (inputSize : ℕ) (align : Bool) : K :=
  if align then ((gridCoord + 1) * ((inputSize : K) - 1)) / 2 else ((gridCoord + 1) * (inputSize : K) - 1) / 2

/-- `isInBounds`: src/Conversion/ONNXToKrnl/NN/GridSample.cpp:61-72. -/
def isInBounds (coord : K) (size : ℕ) : Bool := decide (0 ≤ coord) && decide (coord ≤ (size : K) - 1)

/-- `loadWithPadding`: src/Conversion/ONNXToKrnl/NN/GridSample.cpp:76-113. The element is loaded before it is known whether
it is there. -/
def loadWithPadding (input : List ℤ → K) (indices : List ℤ) (y x : K) (H W : ℕ) (p : Padding) : K × List ℤ :=
  match p with
  | .border =>
    let xC := min (max x 0) ((W : K) - 1)
    let yC := min (max y 0) ((H : K) - 1)
    let full := indices ++ [fpToInt yC, fpToInt xC]
    (input full, full)
  | .zeros =>
    let inBounds := isInBounds x W && isInBounds y H
    let full := indices ++ [fpToInt y, fpToInt x]
    (if inBounds then input full else 0, full)

/-- `loadWithPadding3D`: src/Conversion/ONNXToKrnl/NN/GridSample.cpp:117-166. -/
def loadWithPadding3D (input : List ℤ → K) (indices : List ℤ) (z y x : K) (D H W : ℕ) (p : Padding) : K × List ℤ :=
  match p with
  | .border =>
    let xC := min (max x 0) ((W : K) - 1)
    let yC := min (max y 0) ((H : K) - 1)
    let zC := min (max z 0) ((D : K) - 1)
    let full := indices ++ [fpToInt zC, fpToInt yC, fpToInt xC]
    (input full, full)
  | .zeros =>
    let inBounds := (isInBounds x W && isInBounds y H) && isInBounds z D
    let full := indices ++ [fpToInt z, fpToInt y, fpToInt x]
    (if inBounds then input full else 0, full)

/-- `computeCubicWeight`: src/Conversion/ONNXToKrnl/NN/GridSample.cpp:170-208. -/
def computeCubicWeight (s a : K) : K :=
  let as := |s|
  let s2 := as * as
  let s3 := s2 * as
  let w1 := ((a + 2) * s3 - (a + 3) * s2) + 1
  let w2 := ((a * s3 - 5 * a * s2) + 8 * a * as) - 4 * a
  if as ≤ 1 then w1 else if as ≤ 2 then w2 else 0

/-- What `computeBilinearSamplingPlan` stores for one element of the plan:
src/Conversion/ONNXToKrnl/NN/GridSample.cpp:217-325. -/
structure Plan (K : Type) where
  x0 : ℤ
  x1 : ℤ
  y0 : ℤ
  y1 : ℤ
  w11 : K
  w12 : K
  w21 : K
  w22 : K
  mask : BitVec 8

/-- `computeBilinearSamplingPlan`: see `Plan`. -/
def computePlan (grid : List ℤ → K) (H W : ℕ) (h w n : ℤ) (align : Bool) (p : Padding) : Plan K :=
  let x := transformCoordinate (grid [n, h, w, 0]) W align
  let y := transformCoordinate (grid [n, h, w, 1]) H align
  let x0 : K := ⌊x⌋
  let x1 := x0 + 1
  let y0 : K := ⌊y⌋
  let y1 := y0 + 1
  let wx := x - x0
  let wy := y - y0
  let wx1 := 1 - wx
  let wy1 := 1 - wy
  let cl (v : K) (n : ℕ) : K := match p with
    | .border => min (max v 0) ((n : K) - 1)
    | .zeros => v
  let x0 := cl x0 W
  let x1 := cl x1 W
  let y0 := cl y0 H
  let y1 := cl y1 H
  let bit (b : Bool) (v : BitVec 8) : BitVec 8 := if b then v else 0
  { x0 := fpToInt x0
    x1 := fpToInt x1
    y0 := fpToInt y0
    y1 := fpToInt y1
    w11 := wy1 * wx1
    w12 := wy1 * wx
    w21 := wy * wx1
    w22 := wy * wx
    mask := (bit (isInBounds x0 W && isInBounds y0 H) 1 ||| bit (isInBounds x1 W && isInBounds y0 H) 2) |||
      (bit (isInBounds x0 W && isInBounds y1 H) 4 ||| bit (isInBounds x1 W && isInBounds y1 H) 8) }

/-- The second phase of `lowerGridSample2DBilinearOptimized`: src/Conversion/ONNXToKrnl/NN/GridSample.cpp:400-505. The first
phase has filled the plan of the batch by then (there is a plan for each element, computed right before). -/
def lower2DBilinear (input grid : List ℤ → K) (H W : ℕ) (align : Bool) (p : Padding) (n c h w : ℤ) : K × List (List ℤ) :=
  let pl := computePlan grid H W h w n align p
  let a00 := [n, c, pl.y0, pl.x0]
  let a01 := [n, c, pl.y0, pl.x1]
  let a10 := [n, c, pl.y1, pl.x0]
  let a11 := [n, c, pl.y1, pl.x1]
  let sel (bit : BitVec 8) (v : K) : K := match p with
    | .zeros => if pl.mask &&& bit = 0 then 0 else v
    | .border => v
  let v00 := sel 1 (input a00)
  let v01 := sel 2 (input a01)
  let v10 := sel 4 (input a10)
  let v11 := sel 8 (input a11)
  ((pl.w11 * v00 + pl.w12 * v01) + (pl.w21 * v10 + pl.w22 * v11), [a00, a01, a10, a11])

/-- `lowerGridSample2D`, mode nearest: src/Conversion/ONNXToKrnl/NN/GridSample.cpp:560-590. -/
def lower2DNearest (input grid : List ℤ → K) (H W : ℕ) (align : Bool) (p : Padding) (n c h w : ℤ) : K × List (List ℤ) :=
  let x := transformCoordinate (grid [n, h, w, 0]) W align
  let y := transformCoordinate (grid [n, h, w, 1]) H align
  let r := loadWithPadding input [n, c] (roundEven y) (roundEven x) H W p
  (r.1, [r.2])

/-- `lowerGridSample2D`, mode cubic: src/Conversion/ONNXToKrnl/NN/GridSample.cpp:623-675. -/
def lower2DCubic (input grid : List ℤ → K) (H W : ℕ) (align : Bool) (p : Padding) (n c h w : ℤ) : K × List (List ℤ) :=
  let x := transformCoordinate (grid [n, h, w, 0]) W align
  let y := transformCoordinate (grid [n, h, w, 1]) H align
  let x1 : K := ⌊x⌋
  let y1 : K := ⌊y⌋
  let x0 := x1 - 1
  let x2 := x1 + 1
  let x3 := x2 + 1
  let y0 := y1 - 1
  let y2 := y1 + 1
  let y3 := y2 + 1
  let dx := x - x1
  let dy := y - y1
  let a : K := -3 / 4
  let xs : List (K × K) := [(x0, computeCubicWeight (dx + 1) a), (x1, computeCubicWeight dx a),
    (x2, computeCubicWeight (1 - dx) a), (x3, computeCubicWeight (2 - dx) a)]
  let ys : List (K × K) := [(y0, computeCubicWeight (dy + 1) a), (y1, computeCubicWeight dy a),
    (y2, computeCubicWeight (1 - dy) a), (y3, computeCubicWeight (2 - dy) a)]
  let loads := ys.flatMap fun yw => xs.map fun xw => (yw.2 * xw.2, loadWithPadding input [n, c] yw.1 xw.1 H W p)
  (loads.foldl (fun s l => s + l.1 * l.2.1) 0, loads.map (·.2.2))

/-- `lowerGridSample3D`, mode nearest: src/Conversion/ONNXToKrnl/NN/GridSample.cpp:738-790. -/
def lower3DNearest (input grid : List ℤ → K) (D H W : ℕ) (align : Bool) (p : Padding) (n c d h w : ℤ) : K × List (List ℤ) :=
  let x := transformCoordinate (grid [n, d, h, w, 0]) W align
  let y := transformCoordinate (grid [n, d, h, w, 1]) H align
  let z := transformCoordinate (grid [n, d, h, w, 2]) D align
  let r := loadWithPadding3D input [n, c] (roundEven z) (roundEven y) (roundEven x) D H W p
  (r.1, [r.2])

/-- `lowerGridSample3D`, mode trilinear: src/Conversion/ONNXToKrnl/NN/GridSample.cpp:792-855. -/
def lower3DLinear (input grid : List ℤ → K) (D H W : ℕ) (align : Bool) (p : Padding) (n c d h w : ℤ) : K × List (List ℤ) :=
  let x := transformCoordinate (grid [n, d, h, w, 0]) W align
  let y := transformCoordinate (grid [n, d, h, w, 1]) H align
  let z := transformCoordinate (grid [n, d, h, w, 2]) D align
  let x0 : K := ⌊x⌋
  let x1 := x0 + 1
  let y0 : K := ⌊y⌋
  let y1 := y0 + 1
  let z0 : K := ⌊z⌋
  let z1 := z0 + 1
  let wx := x - x0
  let wy := y - y0
  let wz := z - z0
  let wx1 := 1 - wx
  let wy1 := 1 - wy
  let wz1 := 1 - wz
  let ld (z y x : K) := loadWithPadding3D input [n, c] z y x D H W p
  let v000 := ld z0 y0 x0
  let v001 := ld z0 y0 x1
  let v010 := ld z0 y1 x0
  let v011 := ld z0 y1 x1
  let v100 := ld z1 y0 x0
  let v101 := ld z1 y0 x1
  let v110 := ld z1 y1 x0
  let v111 := ld z1 y1 x1
  let t0 := wz1 * wy1 * wx1 * v000.1
  let t1 := wz1 * wy1 * wx * v001.1
  let t2 := wz1 * wy * wx1 * v010.1
  let t3 := wz1 * wy * wx * v011.1
  let t4 := wz * wy1 * wx1 * v100.1
  let t5 := wz * wy1 * wx * v101.1
  let t6 := wz * wy * wx1 * v110.1
  let t7 := wz * wy * wx * v111.1
  (((t0 + t1) + (t2 + t3)) + ((t4 + t5) + (t6 + t7)),
    [v000.2, v001.2, v010.2, v011.2, v100.2, v101.2, v110.2, v111.2])

/-- The names of the modes (src/Dialect/ONNX/ONNXOps/Tensor/GridSample.cpp:70-82). -/
inductive Mode | nearest | linear | bilinear | trilinear | cubic
  deriving DecidableEq

inductive Pad | zeros | border | reflection
  deriving DecidableEq

/-- The padding that the lowering accepts: src/Conversion/ONNXToKrnl/NN/GridSample.cpp:882-887. -/
def acceptPad : Pad → Option Padding
  | .zeros => some .zeros
  | .border => some .border
  | .reflection => none

/-- `ONNXGridSampleOpLowering`: src/Conversion/ONNXToKrnl/NN/GridSample.cpp:872-950. Element at `o` of the output; `none` is
an error at compile time. For three axes, bilinear is not refused and reaches the branch that gives zero (856-859). -/
def lower (m : Mode) (p : Pad) (align : Bool) (dims : List ℕ) (input grid : List ℤ → K) (n c : ℤ) (o : List ℤ) :
    Option (K × List (List ℤ)) :=
  (acceptPad p).bind fun p =>
    match dims, o, m with
    | [H, W], [h, w], .nearest => some (lower2DNearest input grid H W align p n c h w)
    | [H, W], [h, w], .linear => some (lower2DBilinear input grid H W align p n c h w)
    | [H, W], [h, w], .bilinear => some (lower2DBilinear input grid H W align p n c h w)
    | [H, W], [h, w], .cubic => some (lower2DCubic input grid H W align p n c h w)
    | [D, H, W], [d, h, w], .nearest => some (lower3DNearest input grid D H W align p n c d h w)
    | [D, H, W], [d, h, w], .linear => some (lower3DLinear input grid D H W align p n c d h w)
    | [D, H, W], [d, h, w], .trilinear => some (lower3DLinear input grid D H W align p n c d h w)
    | [_, _, _], [_, _, _], .bilinear => some (0, [])
    | _, _, _ => none

end Verif.GridSample
