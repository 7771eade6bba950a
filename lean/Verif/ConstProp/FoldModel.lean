import Verif.ConstProp.FoldSpec
import Verif.Float.Model

/-!
# Folding of integer constants

Model of the element functions of src/Dialect/ONNX/Transforms/ConstProp.cpp and of how
src/Dialect/ONNX/ElementsAttr stores their results: every number is widened to 64 bits, functions are composed on the wide
numbers, and the element is cut to its type when the constant is finally read.
-/

namespace Verif.ConstProp

open Verif.Float

/-- `WideNum::widen`: src/Dialect/ONNX/ElementsAttr/WideNum.hpp:91-116, 127-129. -/
def widen : (t : IT) → BitVec t.bits → BitVec 64
  | .int true _, v => v.signExtend 64
  | .int false _, v => v.setWidth 64
  | .bool, v => v.setWidth 64

/-- `WideNum::narrow`: src/Dialect/ONNX/ElementsAttr/WideNum.hpp:61-89, 121-124. The conversion to `bool` is true of
every number but zero. -/
def narrow : (t : IT) → BitVec 64 → BitVec t.bits
  | .int _ n, w => w.setWidth n
  | .bool, w => if w = 0 then 0 else 1

/-- A constant under construction: its element as a wide number, whether it has a transformer, and whether the wide type
of its buffer is `uint64_t` (src/Dialect/ONNX/ElementsAttr/DisposableElementsAttr.hpp). -/
structure Wide where
  num : BitVec 64
  transformed : Bool
  unsignedBuffer : Bool

/-- The wide type of an element type is `uint64_t`: src/Dialect/ONNX/ElementsAttr/BType.hpp:103-117. -/
def isUnsignedWide : IT → Bool
  | .int s _ => !s
  | .bool => true

/-- The truth value `detail::unpack<bool>`: src/Dialect/ONNX/ElementsAttr/WideNum.hpp.inc:14-18. -/
def truth (w : BitVec 64) : Bool := w ≠ 0

/-- `detail::pack<bool>`: src/Dialect/ONNX/ElementsAttr/WideNum.hpp.inc:21-25. -/
def packBool (b : Bool) : BitVec 64 := if b then 1 else 0

/-- The quotient of two `int64_t` that C++ does not define, besides that by zero. -/
def quotOverflows (a b : BitVec 64) : Bool := a = BitVec.intMin 64 ∧ b = -1

/-- `ElementWiseBinaryOpImpl` at `int64_t`: src/Dialect/ONNX/Transforms/ConstProp.cpp:220-343. `none` is behaviour that
C++ does not define (an overflow of `int64_t`, a quotient that the processor traps) or `llvm_unreachable`. Mod does not
read its attribute. Not modelled: `ONNXPowOp`, which goes through `std::pow`. -/
def wideSigned : IBin → BitVec 64 → BitVec 64 → Option (BitVec 64)
  | .add, a, b => if a.saddOverflow b then none else some (a + b)
  | .sub, a, b => if a.ssubOverflow b then none else some (a - b)
  | .mul, a, b => if a.smulOverflow b then none else some (a * b)
  | .div, a, b => if b = 0 then some a else if quotOverflows a b then none else some (a.sdiv b)
  | .mod, a, b | .fmod, a, b =>
    if b = 0 then none else if quotOverflows a b then none
    else if a.srem b ≠ 0 ∧ (a.slt 0 ^^ b.slt 0) then some (a.srem b + b) else some (a.srem b)
  | .min, a, b => some (if b.slt a then b else a)
  | .max, a, b => some (if a.slt b then b else a)
  | .band, a, b => some (a &&& b)
  | .bor, a, b => some (a ||| b)
  | _, _, _ => none

/-- `ElementWiseBinaryOpImpl` at `uint64_t`: src/Dialect/ONNX/Transforms/ConstProp.cpp:220-343; there is no instance for
Mod. -/
def wideUnsigned : IBin → BitVec 64 → BitVec 64 → Option (BitVec 64)
  | .add, a, b => some (a + b)
  | .sub, a, b => some (a - b)
  | .mul, a, b => some (a * b)
  | .div, a, b => if b = 0 then some a else some (a.udiv b)
  | .min, a, b => some (if b.ult a then b else a)
  | .max, a, b => some (if a.ult b then b else a)
  | .band, a, b => some (a &&& b)
  | .bor, a, b => some (a ||| b)
  | _, _, _ => none

/-- `ElementWiseBinaryOpImpl` at `bool`: src/Dialect/ONNX/Transforms/ConstProp.cpp:264-287. -/
def wideBool : IBin → Bool → Bool → Option Bool
  | .min, a, b => some (if !b && a then b else a)
  | .max, a, b => some (if !a && b then b else a)
  | .land, a, b => some (a && b)
  | .lor, a, b => some (a || b)
  | .lxor, a, b => some (a != b)
  | _, _, _ => none

/-- `elementwiseBinaryOpCombiner`: src/Dialect/ONNX/Transforms/ConstProp.cpp:345-350. -/
def wideBin : IT → IBin → BitVec 64 → BitVec 64 → Option (BitVec 64)
  | .int true _, o, a, b => wideSigned o a b
  | .int false _, o, a, b => wideUnsigned o a b
  | .bool, o, a, b => (wideBool o (truth a) (truth b)).map packBool

/-- The nearest double of a natural number, ties to even (a conversion of C++). -/
def toDouble (m : ℕ) : ℕ :=
  if m < 2 ^ 53 then m else rhe m (2 ^ (m.log2 - 52)) * 2 ^ (m.log2 - 52)

/-- `ElementWiseUnaryOpImpl` at integers and `bool`: src/Dialect/ONNX/Transforms/ConstProp.cpp:409-481. The absolute value
goes through `double`; a double that does not fit back is behaviour that C++ does not define. Not modelled: the
operators that ONNX has for floating-point numbers only. -/
def wideUn : IT → IUn → BitVec 64 → Option (BitVec 64)
  | .int true _, .neg, a => if a = BitVec.intMin 64 then none else some (-a)
  | .int false _, .neg, a => some (-a)
  | .int _ _, .bnot, a => some (~~~ a)
  | .int true _, .abs, a => if toDouble a.toInt.natAbs < 2 ^ 63 then some (BitVec.ofNat 64 (toDouble a.toInt.natAbs)) else none
  | .int false _, .abs, a => if toDouble a.toNat < 2 ^ 64 then some (BitVec.ofNat 64 (toDouble a.toNat)) else none
  | .int true _, .relu, a => some (if a.slt 0 then 0 else a)
  | .int false _, .relu, a => some a
  | .bool, .lnot, a => some (packBool (!truth a))
  | _, _, _ => none

/-- The comparisons of `ElementWiseBinaryOpImpl`: src/Dialect/ONNX/Transforms/ConstProp.cpp:311-334. -/
def wideCmp : IT → ICmp → BitVec 64 → BitVec 64 → Option Bool
  | .bool, .eq, a, b => some (truth a == truth b)
  | .int _ _, .eq, a, b => some (a == b)
  | .int true _, .lt, a, b => some (a.slt b)
  | .int true _, .gt, a, b => some (b.slt a)
  | .int true _, .le, a, b => some (a.sle b)
  | .int true _, .ge, a, b => some (b.sle a)
  | .int false _, .lt, a, b => some (a.ult b)
  | .int false _, .gt, a, b => some (b.ult a)
  | .int false _, .le, a, b => some (a.ule b)
  | .int false _, .ge, a, b => some (b.ule a)
  | .bool, _, _, _ => none

/-- A result of an operator with two operands: a transformer on the buffer of one operand, or a new buffer of wide numbers
(`ElementsAttrBuilder::combine` and `fromWideNums`, src/Dialect/ONNX/ElementsAttr/ElementsAttrBuilder.cpp:172-221). -/
def result (s : Store) (x y : Wide) (t : IT) (w : BitVec 64) : Wide :=
  match s with
  | .fresh => ⟨w, false, isUnsignedWide t⟩
  | .first => ⟨w, true, x.unsignedBuffer⟩
  | .second => ⟨w, true, y.unsignedBuffer⟩

/-- `ElementsAttrBuilder::where`: src/Dialect/ONNX/ElementsAttr/ElementsAttrBuilder.cpp:223-271. -/
def whereWide (s : Store) (t : IT) (c x y : Wide) : Wide :=
  match s with
  | .fresh => ⟨if c.num ≠ 0 then x.num else y.num, false, isUnsignedWide t⟩
  | .first => ⟨if c.num ≠ 0 then x.num else y.num, true, c.unsignedBuffer⟩
  | .second => if c.num ≠ 0 then x else y

/-- Not `IntegerType::isUnsigned`: the types of ONNX without `u` are signless in MLIR, also `bool`. -/
def isSigned : IT → Bool
  | .int s _ => s
  | .bool => true

/-- `ElementsAttrBuilder::castToIntElementType` for integers
(src/Dialect/ONNX/ElementsAttr/ElementsAttrBuilder.cpp:369-424). The number is not cut to the new type. A cast that keeps the sign
makes a new attribute on the same buffer, which has to have the wide type of the new type unless there is a transformer
(assertion in src/Dialect/ONNX/ElementsAttr/DisposableElementsAttr.cpp:62-65). `bool` is a signless type, so it counts
as signed here. -/
def castWide (t t' : IT) (x : Wide) : Option Wide :=
  if t = t' then some x
  else match t' with
    | .bool => some ⟨packBool (x.num ≠ 0), true, x.unsignedBuffer⟩
    | .int s' _ =>
      if isSigned t = s' then
        if x.transformed || x.unsignedBuffer = isUnsignedWide t' then some x else none
      else some ⟨x.num, true, x.unsignedBuffer⟩

/-- The wide number of an element of a folded expression: src/Dialect/ONNX/Transforms/ConstProp.cpp:362-400, 496-515,
520-545. -/
def FE.wide : {t : IT} → FE t → Option Wide
  | t, .lit v => some ⟨widen t v, false, isUnsignedWide t⟩
  | t, .bin o s x y => x.wide.bind fun a => y.wide.bind fun b => (wideBin t o a.num b.num).map (result s a b t)
  | t, .un o x => x.wide.bind fun a => (wideUn t o a.num).map fun w => ⟨w, true, a.unsignedBuffer⟩
  | _, .cmp (t := t) o s x y => x.wide.bind fun a => y.wide.bind fun b =>
      (wideCmp t o a.num b.num).map fun c => result s a b .bool (packBool c)
  | t', .cast (t := t) _ x => x.wide.bind (castWide t t')
  | t, .sel s c x y => c.wide.bind fun k => x.wide.bind fun a => y.wide.map fun b => whereWide s t k a b

/-- The element that ends up in the constant: `DisposableElementsAttr::readArray` narrows it,
src/Dialect/ONNX/ElementsAttr/DisposableElementsAttr.cpp:280-300. -/
def FE.folded {t : IT} (e : FE t) : Option (BitVec t.bits) := e.wide.map fun w => narrow t w.num

/-- The bound that `createMaximumValueForClip` uses where there is none (`APInt::getMaxValue`, all bits set):
src/Dialect/ONNX/Transforms/ConstProp.cpp:168-177. -/
def clipMax (t : IT) : FE t := .lit (BitVec.allOnes t.bits)

/-- The bound that `createMinimumValueForClip` uses where there is none (`APInt::getMinValue`, zero):
src/Dialect/ONNX/Transforms/ConstProp.cpp:179-188. -/
def clipMin (t : IT) : FE t := .lit 0

/-- `ClipConstProp`: src/Dialect/ONNX/Transforms/ConstProp.td:850-862. -/
def clip {t : IT} (x : FE t) (mn mx : Option (FE t)) : FE t :=
  .bin .min .first (.bin .max .first x (mn.getD (clipMin t))) (mx.getD (clipMax t))

end Verif.ConstProp
