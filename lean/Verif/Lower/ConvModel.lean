import Verif.Lower.SelectModel

/-!
Model of the lowerings of Conv, MaxPool and AveragePool, and of their shape inference.

Source:
* /repo/src/Conversion/ONNXToKrnl/NN/Conv.cpp 33-230
* /repo/src/Conversion/ONNXToKrnl/NN/Pooling.cpp 23-490
* /repo/src/Dialect/ONNX/ONNXOps/NN/NNHelper.cpp.inc 27-150
* /repo/src/Dialect/ONNX/ONNXOps/NN/Conv.cpp 96-192
* /repo/src/Dialect/ONNX/ONNXOps/OpHelper.cpp 292-363

Elements belong to an arbitrary semiring (Conv) or type (pooling): rounding is not modelled.
-/

namespace Verif.Lower

variable {R : Type*}

/-- `ceildiv` by a positive number. -/
def cdiv (a b : ℤ) : ℤ := -((-a) / b)

/-- Parameters along one spatial dimension: size of the input and of the kernel, padding
before the data, stride, dilation. -/
structure WinDim where
  input : ℤ
  kernel : ℤ
  pad : ℤ
  stride : ℤ
  dil : ℤ
  deriving DecidableEq, Repr

/-! ### Shape inference -/

/-- `auto_pad`. -/
inductive AutoPad where
  | notset | valid | sameUpper | sameLower
  deriving DecidableEq, Repr

/-- Output size and both paddings along one dimension (NNHelper.cpp.inc 92-145): `pb` and
`pe` are the values of the attribute. -/
def convShapeDim (mode : AutoPad) (ceilMode : Bool) (I K s d pb pe : ℤ) : ℤ × ℤ × ℤ :=
  let kd := (K - 1) * d + 1
  match mode with
  | .notset =>
    let t := I + (pb + pe) - kd
    ((if ceilMode then cdiv t s else t / s) + 1, pb, pe)
  | .valid =>
    let t := I - kd
    ((if ceilMode then cdiv t s else t / s) + 1, pb, pe)
  | .sameUpper =>
    let O := cdiv I s
    let sum := max ((O - 1) * s + kd - I) 0
    let inc := if sum % 2 ≠ 0 then 1 else 0
    (O, sum / 2, sum / 2 + inc)
  | .sameLower =>
    let O := cdiv I s
    let sum := max ((O - 1) * s + kd - I) 0
    let inc := if sum % 2 ≠ 0 then 1 else 0
    (O, sum / 2 + inc, sum / 2)

/-- `processConvPadParam` for one dimension (Conv.cpp 96-192): the paddings stored in the
attribute.  The quotient is computed there in double precision, which is exact for sizes
below 2^53. -/
def convPadParam (mode : AutoPad) (I K s d : ℤ) (pads : Option (ℤ × ℤ)) : Option (ℤ × ℤ) :=
  match mode with
  | .notset =>
    match pads with
    | some (pb, pe) => if pb < 0 ∨ pe < 0 then none else some (pb, pe)
    | none => some (0, 0)
  | .valid => some (0, 0)
  | .sameUpper =>
    if I < 0 then none
    else
      let O := cdiv I s
      let sum := (O - 1) * s + ((K - 1) * d + 1) - I
      let sum := if sum < 0 then 0 else sum
      some (sum / 2, if sum % 2 ≠ 0 then sum / 2 + 1 else sum / 2)
  | .sameLower =>
    if I < 0 then none
    else
      let O := cdiv I s
      let sum := (O - 1) * s + ((K - 1) * d + 1) - I
      let sum := if sum < 0 then 0 else sum
      some (if sum % 2 ≠ 0 then sum / 2 + 1 else sum / 2, sum / 2)

/-! ### Conv -/

/-- Bounds of a reduction loop (Conv.cpp 138-152): `lb = max(ceil((p - o*s)/d), 0)`,
`ub = min(ceil((I + p - o*s)/d), K)`. -/
def convLb (w : WinDim) (o : ℤ) : ℤ := max (cdiv (w.pad - o * w.stride) w.dil) 0

def convUb (w : WinDim) (o : ℤ) : ℤ :=
  min (cdiv (w.input + (w.pad - o * w.stride)) w.dil) w.kernel

/-- Values of a loop from `lb` to `ub`. -/
def rangeList (lb ub : ℤ) : List ℤ := (upto (ub - lb)).map fun t => lb + t

/-- Values visited by a nest of loops. -/
def cart : List (List ℤ) → List Idx
  | [] => [[]]
  | L :: Ls => L.flatMap fun x => (cart Ls).map (x :: ·)

/-- Spatial part of the access to the image (Conv.cpp 180-188):
`k*d - (p - o*s)`. -/
def accPos : List WinDim → Idx → Idx → Idx
  | w :: ws, o :: os, k :: ks => (k * w.dil - (w.pad - o * w.stride)) :: accPos ws os ks
  | _, _, _ => []

/-- The body of the reduction loops (Conv.cpp 160-206). -/
def convStep [Mul R] [Add R] (X W : Mem R) (ws : List WinDim) (n co gci : ℤ) (o r : Idx) (acc : R) :
    Option R :=
  (X.load ([n, gci + r.getD 0 0] ++ accPos ws o r.tail)).bind fun image =>
    (W.load ([co, r.getD 0 0] ++ r.tail)).map fun filter => acc + image * filter

/-- Parameters of the spatial dimensions (Conv.cpp 126-137). -/
def winDims (inputs kernels pads strides dils : List ℤ) : List WinDim :=
  (List.range inputs.length).map fun i =>
    ⟨inputs.getD i 0, kernels.getD i 0, pads.getD i 0, strides.getD i 0, dils.getD i 0⟩

/-- Addition of the bias and store of the result (Conv.cpp 208-220). -/
def convStore [Add R] (B : Option (Mem R)) (co : ℤ) (at' : Idx) (res : R) (out : Mem R) : Option (Mem R) :=
  match B with
  | none => out.store at' res
  | some b => (b.load [co]).bind fun bv => out.store at' (res + bv)

/-- Body of the outer loops (Conv.cpp 95-222): `i` is batch, group, channel inside the
group and output position. -/
def convBody [Mul R] [Add R] [Zero R] (X W : Mem R) (B : Option (Mem R)) (ws : List WinDim) (COg CIg : ℤ) (i : Idx)
    (out : Mem R) : Option (Mem R) :=
  ((cart (rangeList 0 CIg ::
      List.zipWith (fun w x => rangeList (convLb w x) (convUb w x)) ws (i.drop 3))).foldlM
    (fun acc r => convStep X W ws (i.getD 0 0) (i.getD 1 0 * COg + i.getD 2 0) (i.getD 1 0 * CIg) (i.drop 3) r acc)
      0).bind fun res =>
    convStore B (i.getD 1 0 * COg + i.getD 2 0) ([i.getD 0 0, i.getD 1 0 * COg + i.getD 2 0] ++ i.drop 3) res out

/-- `convUnoptimized` (Conv.cpp 33-230).  `odims` are the spatial dimensions of the output.
The loops over batch, group, channel and position are one nest here. -/
def conv [Mul R] [Add R] [Zero R] (X W : Mem R) (B : Option (Mem R)) (group : ℤ)
    (pads strides dils : List ℤ) (odims : List ℤ) (junk : Idx → R) : Option (Mem R) :=
  let N := X.shape.getD 0 0
  let CO := W.shape.getD 0 0
  let COg := cdiv CO group
  let CIg := W.shape.getD 1 0
  let ws := winDims (X.shape.drop 2) (W.shape.drop 2) pads strides dils
  iterate ([N, group, COg] ++ odims) (convBody X W B ws COg CIg) ⟨[N, CO] ++ odims, junk⟩

/-! ### Pooling -/

/-- Start and end of the window (OpHelper.cpp 292-324). -/
def poolStart (w : WinDim) (o : ℤ) : ℤ :=
  max (cdiv w.pad w.dil * w.dil - w.pad) (o * w.stride - w.pad)

def poolEnd (w : WinDim) (o : ℤ) : ℤ :=
  min w.input (o * w.stride + (w.kernel - 1) * w.dil + 1 - w.pad)

/-- One of the four expressions of the window size (OpHelper.cpp 355-361). -/
def poolDimExpr (ceilMode isDilated : Bool) (d e : ℤ) : ℤ :=
  if isDilated then (if ceilMode then cdiv (e + 1) d else (e + 1) / d) else e

/-- Number of iterations of a pooling loop (OpHelper.cpp 326-363): the minimum of four
expressions. -/
def poolCount (ceilMode isDilated : Bool) (w : WinDim) (o : ℤ) : ℤ :=
  let start1 := cdiv w.pad w.dil * w.dil - w.pad
  let start2 := o * w.stride - w.pad
  let end1 := w.input
  let end2 := o * w.stride + (w.kernel - 1) * w.dil + 1 - w.pad
  min (min (poolDimExpr ceilMode isDilated w.dil (end1 - start1))
      (poolDimExpr ceilMode isDilated w.dil (end1 - start2)))
    (min (poolDimExpr ceilMode isDilated w.dil (end2 - start1))
      (poolDimExpr ceilMode isDilated w.dil (end2 - start2)))

/-- Size of the window used for the average (Pooling.cpp 388-411). -/
def poolFull (ceilMode isDilated : Bool) (w : WinDim) (o : ℤ) : ℤ :=
  let dim := poolEnd w o - poolStart w o
  if isDilated then
    let q := Int.tdiv (dim + 1) w.dil
    if ceilMode then (if Int.tmod (dim + 1) w.dil = 0 then q else q + 1) else q
  else dim

/-- Spatial part of the access to the input (Pooling.cpp 449-463). -/
def poolPos (isDilated : Bool) : List WinDim → Idx → Idx → Idx
  | w :: ws, o :: os, h :: hs =>
    (if isDilated then h * w.dil + poolStart w o else h + poolStart w o) :: poolPos isDilated ws os hs
  | _, _, _ => []

/-- Pooling (Pooling.cpp 179-489): `op` and `ident` are the operation and its start value,
`post` the processing after the window, given the sizes of the window. -/
def pool (op : R → R → R) (ident : R) (post : R → List ℤ → R) (ceilMode : Bool) (X : Mem R)
    (kernel pads strides dils : List ℤ) (odims : List ℤ) (junk : Idx → R) : Option (Mem R) :=
  let ws := winDims (X.shape.drop 2) kernel pads strides dils
  let isDilated := ws.any fun w => decide (w.dil > 1)
  iterate (X.shape.take 2 ++ odims) (fun i out =>
    let o := i.drop 2
    ((cart (List.zipWith (fun w x => upto (poolCount ceilMode isDilated w x)) ws o)).foldlM
      (fun acc h => (X.load (i.take 2 ++ poolPos isDilated ws o h)).map fun v => op acc v) ident).bind fun res =>
        out.store i (post res (List.zipWith (fun w x => poolFull ceilMode isDilated w x) ws o)))
    ⟨X.shape.take 2 ++ odims, junk⟩

/-- Product of the sizes. -/
def prodSizes : List ℤ → ℤ
  | [] => 1
  | x :: xs => xs.foldl (· * ·) x

/-- `postProcessPoolingWindow` for AveragePool (Pooling.cpp 137-177). -/
def avgPost [Field R] (countIncludePad : Bool) (kernel : List ℤ) (num : R) (full : List ℤ) : R :=
  num / ((if countIncludePad then kernel.foldl (· * ·) 1 else prodSizes full : ℤ) : R)

end Verif.Lower
