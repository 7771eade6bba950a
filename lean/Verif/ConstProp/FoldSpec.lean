import Mathlib.Algebra.Order.Group.Abs
import Mathlib.Algebra.Order.Ring.Int

/-!
# Integer operators of ONNX

Vocabulary for the folding of integer constants: expressions over integer and boolean tensors, element by element, and
what the generated code computes, where every operator works at the width of its type. Nothing here models code.
-/

namespace Verif.ConstProp

/-- Integer element types. -/
inductive IT
  | bool
  | int (signed : Bool) (bits : ℕ)
deriving DecidableEq

/-- Bits of an element. -/
@[reducible] def IT.bits : IT → ℕ
  | .bool => 1
  | .int _ n => n

/-- The types have at most 64 bits, and the one with one bit is `bool`. -/
def IT.Ok : IT → Prop
  | .bool => True
  | .int _ n => 1 < n ∧ n ≤ 64

/-- Operators with two operands; `mod` is Mod with `fmod = 0`, `fmod` is Mod with `fmod = 1`. -/
inductive IBin
  | add | sub | mul | div | mod | fmod | min | max | band | bor | land | lor | lxor
deriving DecidableEq

/-- Operators with one operand. -/
inductive IUn
  | neg | abs | relu | bnot | lnot
deriving DecidableEq

/-- Comparisons. -/
inductive ICmp
  | eq | lt | gt | le | ge
deriving DecidableEq

/-- Where the compiler keeps the result of an operator with several operands: in a new array, or as a function on the array
of the first or of the second operand (when the other one is one number repeated). For Where, `first` is the condition
(both branches being one number repeated), and with `second` (the condition being one number repeated) the result is
the chosen branch. -/
inductive Store
  | fresh | first | second
deriving DecidableEq

/-- An element of a constant expression; `s` has no effect on what the generated code computes. -/
inductive FE : IT → Type
  | lit {t : IT} (v : BitVec t.bits) : FE t
  | bin {t : IT} (o : IBin) (s : Store) (x y : FE t) : FE t
  | un {t : IT} (o : IUn) (x : FE t) : FE t
  | cmp {t : IT} (o : ICmp) (s : Store) (x y : FE t) : FE .bool
  | cast {t : IT} (t' : IT) (x : FE t) : FE t'
  | sel {t : IT} (s : Store) (c : FE .bool) (x y : FE t) : FE t

/-- An operator of ONNX at the width of its type: sums, differences and products wrap around; a quotient is rounded
towards zero; the remainder has the sign of the divisor, or with `fmod` that of the dividend; there is no quotient or
remainder by zero. -/
def specBin : (t : IT) → IBin → BitVec t.bits → BitVec t.bits → Option (BitVec t.bits)
  | .bool, .min, a, b => some (a &&& b)
  | .bool, .max, a, b => some (a ||| b)
  | .bool, .land, a, b => some (a &&& b)
  | .bool, .lor, a, b => some (a ||| b)
  | .bool, .lxor, a, b => some (a ^^^ b)
  | .int _ _, .add, a, b => some (a + b)
  | .int _ _, .sub, a, b => some (a - b)
  | .int _ _, .mul, a, b => some (a * b)
  | .int _ _, .band, a, b => some (a &&& b)
  | .int _ _, .bor, a, b => some (a ||| b)
  | .int true _, .div, a, b => if b = 0 then none else some (a.sdiv b)
  | .int true _, .mod, a, b => if b = 0 then none else some (a.smod b)
  | .int true _, .fmod, a, b => if b = 0 then none else some (a.srem b)
  | .int true _, .min, a, b => some (if a.slt b then a else b)
  | .int true _, .max, a, b => some (if a.slt b then b else a)
  | .int false _, .div, a, b => if b = 0 then none else some (a.udiv b)
  | .int false _, .mod, a, b => if b = 0 then none else some (a.umod b)
  | .int false _, .fmod, a, b => if b = 0 then none else some (a.umod b)
  | .int false _, .min, a, b => some (if a.ult b then a else b)
  | .int false _, .max, a, b => some (if a.ult b then b else a)
  | _, _, _, _ => none

/-- Operators with one operand. -/
def specUn : (t : IT) → IUn → BitVec t.bits → Option (BitVec t.bits)
  | .bool, .lnot, a => some (~~~ a)
  | .int _ _, .neg, a => some (-a)
  | .int _ _, .bnot, a => some (~~~ a)
  | .int true _, .abs, a => some a.abs
  | .int true _, .relu, a => some (if a.slt 0 then 0 else a)
  | .int false _, .abs, a => some a
  | .int false _, .relu, a => some a
  | _, _, _ => none

/-- Comparisons. -/
def specCmp : (t : IT) → ICmp → BitVec t.bits → BitVec t.bits → Option Bool
  | _, .eq, a, b => some (a == b)
  | .int true _, .lt, a, b => some (a.slt b)
  | .int true _, .gt, a, b => some (b.slt a)
  | .int true _, .le, a, b => some (a.sle b)
  | .int true _, .ge, a, b => some (b.sle a)
  | .int false _, .lt, a, b => some (a.ult b)
  | .int false _, .gt, a, b => some (b.ult a)
  | .int false _, .le, a, b => some (a.ule b)
  | .int false _, .ge, a, b => some (b.ule a)
  | .bool, _, _, _ => none

/-- Cast: to bool everything but zero is true; between integers the low bits are kept, and missing bits are copies of the
sign, or zeros. -/
def specCast : (t t' : IT) → BitVec t.bits → BitVec t'.bits
  | _, .bool, a => if a = 0 then 0 else 1
  | .int true _, .int _ n, a => a.signExtend n
  | .int false _, .int _ n, a => a.setWidth n
  | .bool, .int _ n, a => a.setWidth n

/-- The element the generated code computes. -/
def FE.spec : {t : IT} → FE t → Option (BitVec t.bits)
  | _, .lit v => some v
  | t, .bin o _ x y => x.spec.bind fun a => y.spec.bind fun b => specBin t o a b
  | t, .un o x => x.spec.bind fun a => specUn t o a
  | _, .cmp (t := t) o _ x y => x.spec.bind fun a => y.spec.bind fun b => (specCmp t o a b).map BitVec.ofBool
  | t', .cast (t := t) _ x => x.spec.map (specCast t t')
  | _, .sel _ c x y => c.spec.bind fun k => x.spec.bind fun a => y.spec.map fun b => if k = 0 then b else a

/-- All types are those of ONNX. -/
def FE.Ok : {t : IT} → FE t → Prop
  | t, .lit _ => t.Ok
  | _, .bin _ _ x y => x.Ok ∧ y.Ok
  | _, .un _ x => x.Ok
  | _, .cmp _ _ x y => x.Ok ∧ y.Ok
  | t', .cast _ x => t'.Ok ∧ x.Ok
  | _, .sel _ c x y => c.Ok ∧ x.Ok ∧ y.Ok

/-- The number an element stands for. -/
def val : (t : IT) → BitVec t.bits → ℤ
  | .int true _, v => v.toInt
  | .int false _, v => v.toNat
  | .bool, v => v.toNat

/-- Operators whose low bits depend on the low bits of the operands only. -/
def IBin.ring : IBin → Bool
  | .add | .sub | .mul | .band | .bor => true
  | _ => false

/-- Operators with one operand whose low bits depend on the low bits of the operand only. -/
def IUn.ring : IUn → Bool
  | .neg | .bnot => true
  | _ => false

/-- The operator gives the mathematical result: it does not wrap around. -/
def exactBin (t : IT) (o : IBin) (a b v : BitVec t.bits) : Prop :=
  match o with
  | .add => val t v = val t a + val t b
  | .sub => val t v = val t a - val t b
  | .mul => val t v = val t a * val t b
  | .div => val t v = (val t a).tdiv (val t b)
  | _ => True

/-- The operator gives the mathematical result: it does not wrap around. -/
def exactUn (t : IT) (o : IUn) (a v : BitVec t.bits) : Prop :=
  match o with
  | .neg => val t v = - val t a
  | .bnot => val t v = - 1 - val t a
  | .abs => val t v = |val t a|
  | _ => True

/-- The two remainders of Mod agree. -/
def needBin (t : IT) (o : IBin) (a b : BitVec t.bits) : Prop :=
  o = .fmod → (val t a).fmod (val t b) = (val t a).tmod (val t b)

/-- The operand of Abs is a number that a double holds. -/
def needUn (t : IT) (o : IUn) (a : BitVec t.bits) : Prop :=
  o = .abs → |val t a| ≤ 2 ^ 53

/-- No operator wraps around before one that does not work on low bits only (types of 64 bits excepted). With `strict`,
no operator wraps around at all. -/
def FE.Tame (strict : Bool) : {t : IT} → FE t → Prop
  | _, .lit _ => True
  | t, .bin o _ x y => x.Tame (strict || !o.ring) ∧ y.Tame (strict || !o.ring) ∧
      ∀ a b v, x.spec = some a → y.spec = some b → specBin t o a b = some v →
        needBin t o a b ∧ (strict = true → t.bits = 64 ∨ exactBin t o a b v)
  | t, .un o x => x.Tame (strict || !o.ring) ∧
      ∀ a v, x.spec = some a → specUn t o a = some v →
        needUn t o a ∧ (strict = true → t.bits = 64 ∨ exactUn t o a v)
  | _, .cmp _ _ x y => x.Tame true ∧ y.Tame true
  | t', .cast (t := t) _ x => x.Tame (strict || t' == .bool || decide (t.bits < t'.bits)) ∧
      ∀ a, x.spec = some a → strict = true → t' = .bool ∨ t'.bits = 64 ∨ val t' (specCast t t' a) = val t a
  | _, .sel _ c x y => c.Tame strict ∧ x.Tame strict ∧ y.Tame strict

/-- An expression of sums, differences, products, negations and operators on bits, and casts to types that are not
wider. -/
def FE.Ring : {t : IT} → FE t → Prop
  | _, .lit _ => True
  | t, .bin o _ x y => o.ring = true ∧ t ≠ .bool ∧ x.Ring ∧ y.Ring
  | t, .un o x => o.ring = true ∧ t ≠ .bool ∧ x.Ring
  | _, .cmp _ _ _ _ => False
  | t', .cast (t := t) _ x => t' ≠ .bool ∧ t'.bits ≤ t.bits ∧ x.Ring
  | _, .sel _ c x y => c.Ring ∧ x.Ring ∧ y.Ring

end Verif.ConstProp
