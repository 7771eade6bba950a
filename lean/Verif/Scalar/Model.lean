import Verif.Scalar.Spec

/-!
# The scalar code of element-wise operators

`MathBuilder` in `/repo/src/Dialect/Mlir/DialectBuilder.cpp` and the specialisations of
`emitScalarOpFor` in `/repo/src/Conversion/ONNXToKrnl/Math/Elementwise.cpp`.  Operations on floats
follow IEEE 754 and are rounded by `rnd`; functions such as `exp` are rounded once.  The sign of zero
is left out, so that a quotient by zero has the sign of the dividend.
-/

namespace Verif.Scalar
open Classical Num

/-! ## Floats -/

/-- The result of an operation is rounded. -/
def rounded (rnd : ℝ → Num) : Num → Num
  | fin r => rnd r
  | v => v

/-- `arith.negf`. -/
def neg : Num → Num
  | nan => nan
  | ninf => pinf
  | pinf => ninf
  | fin r => fin (-r)

noncomputable def addX : Num → Num → Num
  | nan, _ => nan
  | _, nan => nan
  | ninf, pinf => nan
  | pinf, ninf => nan
  | ninf, _ => ninf
  | _, ninf => ninf
  | pinf, _ => pinf
  | _, pinf => pinf
  | fin a, fin b => fin (a + b)

/-- An infinity with the sign of a number, NaN for zero. -/
noncomputable def infSign (r : ℝ) : Num := if 0 < r then pinf else if r < 0 then ninf else nan

noncomputable def mulX : Num → Num → Num
  | nan, _ => nan
  | _, nan => nan
  | fin a, fin b => fin (a * b)
  | fin a, pinf => infSign a
  | fin a, ninf => neg (infSign a)
  | pinf, fin b => infSign b
  | ninf, fin b => neg (infSign b)
  | pinf, pinf => pinf
  | ninf, ninf => pinf
  | pinf, ninf => ninf
  | ninf, pinf => ninf

noncomputable def divX : Num → Num → Num
  | nan, _ => nan
  | _, nan => nan
  | fin a, fin b => if b = 0 then infSign a else fin (a / b)
  | fin _, _ => fin 0
  | pinf, fin b => if b < 0 then ninf else pinf
  | ninf, fin b => if b < 0 then pinf else ninf
  | _, _ => nan

/-- `MathBuilder::add`, `arith.addf` (205–223). -/
noncomputable def add (rnd : ℝ → Num) (a b : Num) : Num := rounded rnd (addX a b)

/-- `MathBuilder::sub`, `arith.subf` (225–233). -/
noncomputable def sub (rnd : ℝ → Num) (a b : Num) : Num := rounded rnd (addX a (neg b))

/-- `MathBuilder::mul`, `arith.mulf` (235–253). -/
noncomputable def mul (rnd : ℝ → Num) (a b : Num) : Num := rounded rnd (mulX a b)

/-- `MathBuilder::div`, `arith.divf` (255–265). -/
noncomputable def div (rnd : ℝ → Num) (a b : Num) : Num := rounded rnd (divX a b)

/-- `MathBuilder::exp` (394–398). -/
noncomputable def exp (rnd : ℝ → Num) : Num → Num
  | nan => nan
  | ninf => rnd 0
  | pinf => pinf
  | fin r => rnd (Real.exp r)

/-- `MathBuilder::log` (406–410). -/
noncomputable def log (rnd : ℝ → Num) : Num → Num
  | nan => nan
  | ninf => nan
  | pinf => pinf
  | fin r => if 0 < r then rnd (Real.log r) else if r = 0 then ninf else nan

/-- `MathBuilder::tanh` (456–460). -/
noncomputable def tanh (rnd : ℝ → Num) : Num → Num
  | nan => nan
  | ninf => rnd (-1)
  | pinf => rnd 1
  | fin r => rnd (Real.tanh r)

/-- `MathBuilder::erf` (390–392). -/
noncomputable def erfOp (rnd : ℝ → Num) (erf : ℝ → ℝ) : Num → Num
  | nan => nan
  | ninf => rnd (-1)
  | pinf => rnd 1
  | fin r => rnd (erf r)

/-- `MathBuilder::pow` with the exponent 3 (424–433). -/
noncomputable def cube (rnd : ℝ → Num) : Num → Num
  | nan => nan
  | ninf => ninf
  | pinf => pinf
  | fin r => rnd (r ^ 3)

/-- `MathBuilder::abs`, `math.absf` (173–179). -/
noncomputable def absF : Num → Num
  | nan => nan
  | ninf => pinf
  | pinf => pinf
  | fin r => fin |r|

/-- `arith.cmpf olt`: false if one is NaN. -/
noncomputable def olt : Num → Num → Bool
  | nan, _ => false
  | _, nan => false
  | fin a, fin b => decide (a < b)
  | ninf, ninf => false
  | ninf, _ => true
  | _, ninf => false
  | pinf, _ => false
  | _, pinf => true

/-- `arith.cmpf oeq`. -/
noncomputable def oeq : Num → Num → Bool
  | fin a, fin b => decide (a = b)
  | ninf, ninf => true
  | pinf, pinf => true
  | _, _ => false

/-- `MathBuilder::slt` (506–514). -/
noncomputable def slt (a b : Num) : Bool := olt a b

/-- `MathBuilder::sgt` (486–494). -/
noncomputable def sgt (a b : Num) : Bool := olt b a

/-- `MathBuilder::max`, `arith.maxnumf` (474–484): the other operand if one is NaN. -/
noncomputable def max' (a b : Num) : Num :=
  match a, b with
  | nan, b => b
  | a, nan => a
  | a, b => if olt a b then b else a

/-- `MathBuilder::min`, `arith.minnumf` (462–472). -/
noncomputable def min' (a b : Num) : Num :=
  match a, b with
  | nan, b => b
  | a, nan => a
  | a, b => if olt b a then b else a

/-- `MathBuilder::select` (640–644). -/
def select {α : Type} (c : Bool) (a b : α) : α := if c then a else b

/-- The specialisations of `emitScalarOpFor` for operators with one input
(Elementwise.cpp 359–1140, 1414–1427). -/
noncomputable def emit (rnd : ℝ → Num) (erf : ℝ → ℝ) : Fn → Num → Num
  | .sinh, x => -- 523–537
    div rnd (sub rnd (exp rnd x) (exp rnd (sub rnd (fin 0) x))) (fin 2)
  | .cosh, x => -- 550–564
    div rnd (add rnd (exp rnd x) (exp rnd (sub rnd (fin 0) x))) (fin 2)
  | .sigmoid, x => -- 577–589
    div rnd (fin 1) (add rnd (fin 1) (exp rnd (sub rnd (fin 0) x)))
  | .shrink lambd bias, x => -- 603–623
    select (slt x (sub rnd (fin 0) (rnd lambd))) (add rnd x (rnd bias))
      (select (sgt x (rnd lambd)) (sub rnd x (rnd bias)) (fin 0))
  | .hardSigmoid alpha beta, x => -- 636–661
    min' (max' (add rnd (mul rnd (rnd alpha) x) (rnd beta)) (fin 0)) (fin 1)
  | .hardSwish, x => -- 675–704
    mul rnd x (max' (min' (add rnd (mul rnd x (rnd (1 / 6))) (fin (1 / 2))) (fin 1)) (fin 0))
  | .elu alpha, x => -- 717–732
    select (slt x (fin 0)) (mul rnd (rnd alpha) (sub rnd (exp rnd x) (fin 1))) x
  | .relu, x => max' (fin 0) x -- 746–754
  | .celu alpha, x => -- 769–797
    add rnd (max' (fin 0) x)
      (min' (fin 0) (mul rnd (rnd alpha) (sub rnd (exp rnd (div rnd x (rnd alpha))) (fin 1))))
  | .leakyRelu alpha, x => -- 833–849
    select (slt x (fin 0)) (mul rnd (rnd alpha) x) x
  | .thresholdedRelu alpha, x => select (sgt x (rnd alpha)) x (fin 0) -- 885–897
  | .selu alpha gamma, x => -- 912–934
    mul rnd (rnd gamma)
      (select (sgt x (fin 0)) x (sub rnd (mul rnd (rnd alpha) (exp rnd x)) (rnd alpha)))
  | .reciprocal, x => div rnd (fin 1) x -- 945–953
  | .softplus, x => log rnd (add rnd (exp rnd x) (fin 1)) -- 967–977
  | .softsign, x => div rnd x (add rnd (absF x) (fin 1)) -- 991–1002
  | .sign, x => -- 1014–1042
    select (oeq x (fin 0)) (fin 0) (select (sgt x (fin 0)) (fin 1) (fin (-1)))
  | .mish, x => mul rnd x (tanh rnd (log rnd (add rnd (exp rnd x) (fin 1)))) -- 1109–1121
  | .neg, x => neg x -- 1133–1140
  | .binarizer t, x => select (sgt x (rnd t)) (fin 1) (fin 0) -- 498–510
  | .gelu, x => -- 359–386
    mul rnd (mul rnd (fin (1 / 2)) x)
      (add rnd (fin 1) (erfOp rnd erf (mul rnd x (rnd (1 / √2)))))
  | .geluTanh, x => -- 387–400
    mul rnd (mul rnd (fin (1 / 2)) x)
      (add rnd (fin 1) (tanh rnd (mul rnd (rnd √(2 / Real.pi))
        (add rnd x (mul rnd (rnd 0.044715) (cube rnd x))))))
  | .clip lo hi, x => -- 1414–1427
    let y := match lo with | some l => max' (fin l) x | none => x
    match hi with | some h => min' (fin h) y | none => y

/-- `MathBuilder::floor` (450–454). -/
noncomputable def floor : Num → Num
  | fin r => fin ⌊r⌋
  | v => v

/-- `MathBuilder::roundEvenEmulation` (DialectBuilder.cpp 291–335), which Round uses unless the
machine has an instruction for it (Elementwise.cpp 1395–1402). -/
noncomputable def emitRound (rnd : ℝ → Num) (x : Num) : Num :=
  let y := floor x
  let r := sub rnd x y
  let y1 := select (sgt r (fin (1 / 2))) (add rnd y (fin 1)) y
  let rr := sub rnd y (mul rnd (floor (mul rnd (fin (1 / 2)) y)) (fin 2))
  let y2 := select (oeq rr (fin 1)) (add rnd y (fin 1)) y
  select (oeq r (fin (1 / 2))) y2 y1

/-- PRelu (861–873). -/
noncomputable def emitPRelu (rnd : ℝ → Num) (x slope : Num) : Num :=
  select (slt x (fin 0)) (mul rnd slope x) x

/-- IsInf (438–471): `none` is `llvm_unreachable`. -/
noncomputable def emitIsInf (detectNeg detectPos : Bool) (x : Num) : Option Bool :=
  match detectPos, detectNeg with
  | true, true => some (oeq x pinf || oeq x ninf)
  | true, false => some (oeq x pinf)
  | false, true => some (oeq x ninf)
  | false, false => none

/-- The loop over the operands of a variadic operator: the first one, and the others one by one
(1624–1632); nothing is emitted without operands. -/
def emitVariadic {α : Type} (op : α → α → α) : List α → Option α
  | [] => none
  | x :: xs => some (xs.foldl op x)

/-- Mean divides by the number of operands at the end (1359–1365). -/
noncomputable def emitMean (rnd : ℝ → Num) (xs : List Num) : Option Num :=
  (emitVariadic (add rnd) xs).map fun s => div rnd s (rnd xs.length)

/-! ## Integers -/

section Integers
variable {w : ℕ}

/-- `arith.remsi`: undefined for a zero divisor and for the one quotient that overflows. -/
def remSI (a b : BitVec w) : Option (BitVec w) :=
  if b = 0 ∨ (a = BitVec.intMin w ∧ b = -1) then none else some (a.srem b)

/-- Mod on signed integers (1303–1346).  The attribute `fmod` is not looked at. -/
def emitMod (_fmod : Bool) (a b : BitVec w) : Option (BitVec w) :=
  (remSI a b).map fun r =>
    let adjusted := r + b
    let isNonZero := (r == 0) == false
    let differ := (a.slt 0 == b.slt 0) == false
    select (isNonZero && differ) adjusted r

/-- `arith.divsi` for Div (Elementwise.hpp 306–310). -/
def emitDiv (a b : BitVec w) : Option (BitVec w) :=
  if b = 0 ∨ (a = BitVec.intMin w ∧ b = -1) then none else some (a.sdiv b)

/-- Neg: `0 - x` (DialectBuilder.cpp 435–442). -/
def emitNeg (x : BitVec w) : BitVec w := 0 - x

/-- Abs: `math.absi` (Elementwise.hpp 169–173). -/
def emitAbs (x : BitVec w) : BitVec w := if x.slt 0 then -x else x

/-- `arith.maxsi`, `arith.minsi` (DialectBuilder.cpp 462–484). -/
def maxSI (a b : BitVec w) : BitVec w := if a.slt b then b else a
def minSI (a b : BitVec w) : BitVec w := if b.slt a then b else a

/-- Relu (746–754). -/
def emitReluI (x : BitVec w) : BitVec w := maxSI 0 x

/-- Clip (1414–1427). -/
def emitClipI (lo hi : Option (BitVec w)) (x : BitVec w) : BitVec w :=
  let y := match lo with | some l => maxSI l x | none => x
  match hi with | some h => minSI h y | none => y

/-- Sign on signed integers (1014–1042). -/
def emitSignI (x : BitVec w) : BitVec w :=
  select (x == 0) 0 (select (BitVec.slt 0 x) 1 (-1))

/-- PRelu (861–873). -/
def emitPReluI (x slope : BitVec w) : BitVec w := select (x.slt 0) (slope * x) x

/-- BitwiseNot (810–820). -/
def emitBitwiseNot (x : BitVec w) : BitVec w := x ^^^ BitVec.ofInt w (-1)

/-- BitShift on unsigned integers (316–340, DialectBuilder.cpp 558–590): a shift by the width or more
has no value. -/
def emitShift (left : Bool) (x s : BitVec w) : Option (BitVec w) :=
  if w ≤ s.toNat then none else some (if left then x <<< s.toNat else x >>> s.toNat)

/-- Binarizer on integers (498–510): the threshold must be an integer (DialectBuilder.cpp 664). -/
def emitBinarizerI (threshold : ℚ) (x : BitVec w) : Option (BitVec w) :=
  if threshold.den = 1 then some (select (BitVec.slt (BitVec.ofInt w threshold.num) x) 1 0) else none

end Integers

/-! ## Strings -/

/-- `strncmp` is zero: the first `n` bytes are the same, or the strings end before. -/
def strncmpEq : ℕ → List ℕ → List ℕ → Bool
  | 0, _, _ => true
  | _ + 1, [], [] => true
  | n + 1, a :: as, b :: bs => a == b && strncmpEq n as bs
  | _, _, _ => false

/-- Equal on strings (1228–1253). -/
def emitEqualStr (a b : CStr) : Bool := strncmpEq a.bytes.length a.bytes b.bytes

end Verif.Scalar
