import Verif.Quant.Spec
import Mathlib.Data.BitVec

/-!
# Lowering of quantised operators

Model of src/Conversion/ONNXToKrnl/Quantization, of the lowering of DequantizeLinear, MatMulInteger and QLinearMatMul and
of the recomposition of QLinearMatMul. Floating-point numbers are elements of an ordered field: their rounding, infinities
and NaN are not modelled. Loops and SIMD are those of C57; here is what happens to each element.
-/

namespace Verif.Quant

variable {K : Type} [Field K] [LinearOrder K] [FloorRing K]

/-- `MathBuilder::roundEvenEmulation`: src/Dialect/Mlir/DialectBuilder.cpp:291-330 (`KrnlBuilder::roundEven` uses it, or
an instruction that does the same, src/Dialect/Krnl/DialectBuilder.cpp:460-490). -/
def roundEven (x : K) : K :=
  let y : K := ⌊x⌋
  let r := x - y
  let y1 := if r > 1 / 2 then y + 1 else y
  let y2 : K := (⌊1 / 2 * y⌋ : K) * 2
  let rr := y - y2
  let y2 := if rr = 1 then y + 1 else y
  if r = 1 / 2 then y2 else y1

/-- `MathBuilder::clip`: src/Dialect/Mlir/DialectBuilder.cpp:355-360. -/
def clipK (v lb ub : K) : K := min (max v lb) ub

/-- A conversion of a float to an integer drops the fraction: `arith.fptosi` and `arith.fptoui`. -/
def fpToInt (v : K) : ℤ := if 0 ≤ v then ⌊v⌋ else ⌈v⌉

/-- `MathBuilder::cast` of a float of 32 bits to an integer of 8 bits goes through 32 bits:
src/Dialect/Mlir/DialectBuilder.cpp:951-967, 1024-1040, 1052-1100. -/
def castTo8 (v : K) : BitVec 8 := (BitVec.ofInt 32 (fpToInt v)).setWidth 8

/-- `MathBuilder::cast` of an integer of 8 bits to a float: src/Dialect/Mlir/DialectBuilder.cpp:968-984, 1042-1050. -/
def castFrom8 (signed : Bool) (v : BitVec 8) : K := (val8 signed v : K)

/-- The bounds: src/Conversion/ONNXToKrnl/Quantization/QuantizeLinear.cpp:205-212. -/
def qMax (signed : Bool) : K := if signed then 127 else 255

/-- See `qMax`. -/
def qMin (signed : Bool) : K := if signed then -128 else 0

/-- The scaling step: src/Conversion/ONNXToKrnl/Quantization/QuantizeLinear.cpp:53-60, 118-131. -/
def scaleBy (useReciprocal : Bool) (x scale : K) : K :=
  if useReciprocal then x * (1 / scale) else x / scale

/-- One element of `emitQuantizationLinearScalarParameters`:
src/Conversion/ONNXToKrnl/Quantization/QuantizeLinear.cpp:29-147. -/
def quantizeElem (useReciprocal : Bool) (qmin qmax scale : K) (zeroPoint : Option K) (x : K) : BitVec 8 :=
  let roundX := roundEven (scaleBy useReciprocal x scale)
  let adjustX := match zeroPoint with
    | some z => roundX + z
    | none => roundX
  castTo8 (clipK adjustX qmin qmax)

/-- `ONNXQuantizeLinearOpLowering` on one element; the assertion wants a scale of rank 0:
src/Conversion/ONNXToKrnl/Quantization/QuantizeLinear.cpp:165-245. `noZero` is the option `disableQuantZeroPoint`. -/
def quantizeLinear (fast noZero signed : Bool) (scaleRank : ℕ) (scale : K) (zp : Option (BitVec 8)) (x : K) :
    Option (BitVec 8) :=
  if scaleRank = 0 then
    some (quantizeElem fast (qMin signed) (qMax signed) scale (if noZero then none else zp.map (castFrom8 signed)) x)
  else none

/-- `emitScalarOpFor<ONNXDequantizeLinearOp>`: src/Conversion/ONNXToKrnl/Math/Elementwise.cpp:1438-1462, on an operation
whose scale and zero point are scalars (assertion at 2175). -/
def dequantizeElem (noZero signed : Bool) (scalar : Bool) (scale : K) (zp : Option (BitVec 8)) (x : BitVec 8) : Option K :=
  if scalar then
    some ((match (if noZero then none else zp) with
      | some z => (castFrom8 signed x : K) - castFrom8 signed z
      | none => castFrom8 signed x) * scale)
  else none

/-- The largest element; a reduction starts at minus infinity, here at `none`
(`emitMinMaxReductionToScalar`, src/Conversion/ONNXToKrnl/Math/Reduction.cpp). -/
def reduceMax (xs : List K) : Option K :=
  xs.foldl (fun m x => some (match m with | none => x | some m => max m x)) none

/-- See `reduceMax`. -/
def reduceMin (xs : List K) : Option K :=
  xs.foldl (fun m x => some (match m with | none => x | some m => min m x)) none

/-- The maximum with zero: src/Conversion/ONNXToKrnl/Quantization/DynamicQuantizeLinear.cpp:66. -/
def inputMax (xs : List K) : K := match reduceMax xs with | none => 0 | some m => max m 0

/-- The minimum with zero: src/Conversion/ONNXToKrnl/Quantization/DynamicQuantizeLinear.cpp:67. -/
def inputMin (xs : List K) : K := match reduceMin xs with | none => 0 | some m => min m 0

/-- `scale` of `emitDynamicQuantizationLinearScalarParametersFromMinMax`:
src/Conversion/ONNXToKrnl/Quantization/DynamicQuantizeLinear.cpp:69-71. -/
def dynScale (xs : List K) : K := (inputMax xs - inputMin xs) / (qMax false - qMin false)

/-- `zeroPoint`: src/Conversion/ONNXToKrnl/Quantization/DynamicQuantizeLinear.cpp:74-83. -/
def dynZero (xs : List K) : K :=
  roundEven (clipK (qMin false - inputMin xs / dynScale xs) (qMin false) (qMax false))

/-- `ONNXDynamicQuantizeLinearOpLowering` (with zero points):
src/Conversion/ONNXToKrnl/Quantization/DynamicQuantizeLinear.cpp:104-157. Quantised elements, scale and zero point. -/
def dynamicQuantize (fast : Bool) (xs : List K) : List (BitVec 8) × K × BitVec 8 :=
  (xs.map (quantizeElem fast (qMin false) (qMax false) (dynScale xs) (some (dynZero xs))), dynScale xs, castTo8 (dynZero xs))

/-- A tensor of rank at most two, as an operand of a broadcast against a matrix. -/
inductive T2 (α : Type)
  | rank0 (v : α)
  | rank1 (n : ℕ) (f : ℕ → α)
  | rank2 (n m : ℕ) (f : ℕ → ℕ → α)

/-- The element that a broadcast against a matrix reads. -/
def T2.read {α : Type} : T2 α → ℕ → ℕ → α
  | .rank0 v, _, _ => v
  | .rank1 n f, _, j => f (if n = 1 then 0 else j)
  | .rank2 n m f, i, j => f (if n = 1 then 0 else i) (if m = 1 then 0 else j)

/-- A zero point as the tensor it is: one number has rank 0, or is a vector of one element. -/
def Par.toT2 {α : Type} : Par α → T2 α
  | .scalar v => .rank0 v
  | .each n f => .rank1 n f

/-- The zero point of the left matrix is turned into a column unless it has one element:
src/Conversion/ONNXToKrnl/Math/MatMulInteger.cpp:62-77, src/Conversion/ONNXToKrnl/Math/QLinearMatMul.cpp:92-106. -/
def unsqueezeRows {α : Type} : T2 α → T2 α
  | .rank1 n f => if n ≠ 1 then .rank2 n 1 (fun i _ => f i) else .rank1 n f
  | t => t

/-- A product of matrices of 32-bit integers. -/
def matmul32 (k : ℕ) (a b : ℕ → ℕ → BitVec 32) (i j : ℕ) : BitVec 32 := ∑ l : Fin k, a i l * b l j

/-- A cast of 8 bits to 32 bits (src/Dialect/Mlir/DialectBuilder.cpp:1052-1100). -/
def cast32 (signed : Bool) (v : BitVec 8) : BitVec 32 := if signed then v.signExtend 32 else v.setWidth 32

/-- `ONNXMatMulIntegerOpLowering`, element `(i, j)`: src/Conversion/ONNXToKrnl/Math/MatMulInteger.cpp:32-99. -/
def matMulInteger (sa sb : Bool) (k : ℕ) (a b : ℕ → ℕ → BitVec 8) (za zb : Option (T2 (BitVec 8))) (i j : ℕ) : BitVec 32 :=
  let a32 := match za with
    | some z => fun i l => cast32 sa (a i l) - cast32 sa ((unsqueezeRows z).read i l)
    | none => fun i l => cast32 sa (a i l)
  let b32 := match zb with
    | some z => fun l j => cast32 sb (b l j) - cast32 sb (z.read l j)
    | none => fun l j => cast32 sb (b l j)
  matmul32 k a32 b32 i j

/-- `OnnxBuilder::getOrCastToI8` (without `simpleCast`): src/Dialect/ONNX/DialectBuilder.cpp:916-933. -/
def getOrCastToI8 (signed : Bool) (v : BitVec 8) : BitVec 8 :=
  if signed then v else ((v.setWidth 16) - 128#16).setWidth 8

/-- The scale: the tensors of the scales are multiplied and divided, with broadcasting between vectors
(src/Conversion/ONNXToKrnl/Math/QLinearMatMul.cpp:126). -/
def scaleTensor (sa sb : T2 K) (sy : K) : T2 K :=
  match sa, sb with
  | .rank0 x, .rank0 y => .rank0 (x * y / sy)
  | .rank1 n f, .rank0 y => .rank1 n fun i => f i * y / sy
  | .rank0 x, .rank1 n f => .rank1 n fun i => x * f i / sy
  | .rank1 n f, .rank1 m g => .rank1 (max n m) fun i => f (if n = 1 then 0 else i) * g (if m = 1 then 0 else i) / sy
  | a, _ => a

/-- `ONNXQLinearMatMulOpLowering`, element `(i, j)`: src/Conversion/ONNXToKrnl/Math/QLinearMatMul.cpp:33-141. The type
of an operand is that of its zero point. -/
def qLinearMatMul (sgnA sgnB sgnY : Bool) (k : ℕ) (a b : ℕ → ℕ → BitVec 8) (za zb : T2 (BitVec 8)) (sa sb : T2 K) (sy : K)
    (zy : BitVec 8) (i j : ℕ) : BitVec 8 :=
  let a32 := fun i l => cast32 true (getOrCastToI8 sgnA (a i l)) -
    cast32 true (getOrCastToI8 sgnA ((unsqueezeRows za).read i l))
  let b32 := fun l j => cast32 true (getOrCastToI8 sgnB (b l j)) - cast32 true (getOrCastToI8 sgnB (zb.read l j))
  let resF := ((matmul32 k a32 b32 i j).toInt : K) * (scaleTensor sa sb sy).read i j
  let res32 := BitVec.ofInt 32 (fpToInt (roundEven resF)) + cast32 true (getOrCastToI8 sgnY zy)
  if sgnY then res32.setWidth 8 else (res32 + 128#32).setWidth 8

/-- A DequantizeLinear: its scale and zero point, and the axis they go along if there is more than one. -/
structure DQ (K : Type) where
  scale : Par K
  zp : Option (Par (BitVec 8))
  axis : ℕ

/-- The operands of a QLinearMatMul. -/
structure QL (K : Type) where
  scaleA : Par K
  zpA : Option (Par (BitVec 8))
  scaleB : Par K
  zpB : Option (Par (BitVec 8))
  scaleY : K
  zpY : Option (BitVec 8)

/-- `matchQLinearMatMulPattern`: src/Dialect/ONNX/Transforms/Recompose.cpp:617-648. Neither the axes nor the presence of
zero points are looked at. -/
def recompose (da db : DQ K) (sy : K) (zy : Option (BitVec 8)) : Option (QL K) :=
  some ⟨da.scale, da.zp, db.scale, db.zp, sy, zy⟩

/-- The lowering of what `recompose` makes: a missing zero point is a value of type `none`, which has no element type
(src/Conversion/ONNXToKrnl/Math/QLinearMatMul.cpp:65-70). -/
def lowerQL (sgnA sgnB sgnY : Bool) (k : ℕ) (a b : ℕ → ℕ → BitVec 8) (q : QL K) (i j : ℕ) : Option (BitVec 8) :=
  match q.zpA, q.zpB, q.zpY with
  | some za, some zb, some zy =>
    some (qLinearMatMul sgnA sgnB sgnY k a b za.toT2 zb.toT2 q.scaleA.toT2 q.scaleB.toT2 q.scaleY zy i j)
  | _, _, _ => none

end Verif.Quant
