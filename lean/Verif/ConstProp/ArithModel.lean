import Verif.ConstProp.ArithSpec

/-!
# Rearranging arithmetic with constants

Model of src/Dialect/ONNX/Transforms/ConstProp.td: the patterns that move constants to the right of sums and products,
gather them, fold them and drop neutral ones.
-/

namespace Verif.ConstProp

open Verif.Rewrite

variable {V : Type} [Inhabited V] [DecidableEq V]

/-- What the compiler knows about the values of a graph: the types it recorded, which values have one use, which element
types are integers, and which results the expansion bound lets it fold. -/
structure CInfo (V : Type) where
  ty : CE V → CType
  oneUse : CE V → Bool
  intType : CE V → Bool
  bounded : CE V → Bool

/-- `IsNotAConstant`: src/Dialect/ONNX/Transforms/ConstProp.td:50-52. -/
def isConst : CE V → Bool
  | .cst _ _ => true
  | _ => false

/-- `IsFromDenseONNXConstantOp`: src/Dialect/ONNX/Transforms/ConstProp.td:54-57. -/
def dense? : CE V → Option (Tensor V)
  | .cst true t => some t
  | _ => none

/-- The operands of an operator: the DRR source patterns, src/Dialect/ONNX/Transforms/ConstProp.td:309-365. -/
def asBin (b : Bin) : CE V → Option (CE V × CE V)
  | .bin b' x y => if b' = b then some (x, y) else none
  | _ => none

/-- The operands of a MatMul: src/Dialect/ONNX/Transforms/ConstProp.td:940-959. -/
def asMM : CE V → Option (CE V × CE V)
  | .mm x y => some (x, y)
  | _ => none

/-- `isScalarTensor`: src/Dialect/ONNX/ONNXOps/OpHelper.cpp:868-872. -/
def isScalarType : CType → Bool
  | some [] => true
  | some [some 1] => true
  | _ => false

/-- `isConstOf` for a dense constant (src/Dialect/ONNX/ONNXOps/OpHelper.cpp:608-616): all elements are `v`. -/
def allAre (v : V) (t : Tensor V) : Bool := t.data.all (· = v)

/-- `AddConstCommutative1`, `MulConstCommutative1`: src/Dialect/ONNX/Transforms/ConstProp.td:309-315, 598-604. -/
def constCommutative (b : Bin) (e : CE V) : Option (CE V) :=
  (asBin b e).bind fun (c, x) => if isConst c && !isConst x then some (.bin b x c) else none

/-- `AddConstAssociative1`, `MulConstAssociative1`: src/Dialect/ONNX/Transforms/ConstProp.td:318-327, 607-616. -/
def constAssociative1 (I : CInfo V) (b : Bin) (e : CE V) : Option (CE V) :=
  (asBin b e).bind fun (lhs, c2) => (asBin b lhs).bind fun (x, c1) =>
    if isConst c1 && isConst c2 && !isConst x && I.oneUse lhs then some (.bin b x (.bin b c1 c2)) else none

/-- `AddConstAssociative2`, `MulConstAssociative2`: src/Dialect/ONNX/Transforms/ConstProp.td:330-340, 619-629. -/
def constAssociative2 (I : CInfo V) (b : Bin) (e : CE V) : Option (CE V) :=
  (asBin b e).bind fun (lhs, y) => (asBin b lhs).bind fun (x, c) =>
    if isConst c && !isConst x && !isConst y && I.oneUse lhs && !isScalarType (I.ty x) && !isScalarType (I.ty c) then
      some (.bin b (.bin b x y) c)
    else none

/-- `AddConstAssociative3`, `MulConstAssociative3`: src/Dialect/ONNX/Transforms/ConstProp.td:343-353, 632-642. -/
def constAssociative3 (I : CInfo V) (b : Bin) (e : CE V) : Option (CE V) :=
  (asBin b e).bind fun (x, rhs) => (asBin b rhs).bind fun (y, c) =>
    if isConst c && !isConst x && !isConst y && I.oneUse rhs && !isScalarType (I.ty y) && !isScalarType (I.ty c) then
      some (.bin b (.bin b x y) c)
    else none

/-- `AddConstAssociative4`, `MulConstAssociative4`: src/Dialect/ONNX/Transforms/ConstProp.td:355-364, 644-653. -/
def constAssociative4 (I : CInfo V) (b : Bin) (e : CE V) : Option (CE V) :=
  (asBin b e).bind fun (lhs, rhs) => (asBin b lhs).bind fun (x, c1) => (asBin b rhs).bind fun (y, c2) =>
    if isConst c1 && isConst c2 && !isConst x && !isConst y && I.oneUse lhs && I.oneUse rhs then
      some (.bin b (.bin b x y) (.bin b c1 c2))
    else none

/-- `AddConstProp`, `SubConstProp`, `MulConstProp`, `DivConstProp` and the comparisons and connectives
(src/Dialect/ONNX/Transforms/ConstProp.td:367-375, 393-400, 656-664, 681-689, 733-804): two dense constants are
combined with the operation of the machine. `expansionBound` is part of the recorded knowledge. What the operation does
to numbers of each type is not part of this definition: it is the `Alg`. -/
def constProp (A : Alg V) (I : CInfo V) (b : Bin) (e : CE V) : Option (CE V) :=
  (asBin b e).bind fun (x, y) => (dense? x).bind fun s => (dense? y).bind fun t =>
    if I.bounded e then (binary (A.bin b) s t).map (.cst true) else none

/-- `AddZerosOnRhs`, `SubZerosOnRhs`, `MulOnesOnRhs`, `DivOnesOnRhs`:
src/Dialect/ONNX/Transforms/ConstProp.td:378-386, 403-411, 667-678, 692-703. -/
def neutralOnRhs (I : CInfo V) (b : Bin) (v : V) (e : CE V) : Option (CE V) :=
  (asBin b e).bind fun (x, c) => (dense? c).bind fun t =>
    if !isConst x && decide (I.ty e = I.ty x) && allAre v t then some x else none

/-- `SubConstToNeg`: src/Dialect/ONNX/Transforms/ConstProp.td:519-524. -/
def subConstToNeg (A : Alg V) (e : CE V) : Option (CE V) :=
  (asBin .sub e).bind fun (x, c) => (dense? c).bind fun t =>
    if !isConst x then some (.bin .add x (.cst true (t.map (A.un "Neg" [])))) else none

/-- The extents of a type all of whose extents are known (`hasStaticShape`). -/
def staticShape : CType → Option (List ℕ)
  | none => none
  | some ds => ds.mapM id

/-- `ConstZeroTensor`: src/Dialect/ONNX/Transforms/ConstProp.cpp:142-147. -/
def constZeroTensor (A : Alg V) (s : List ℕ) : CE V := .cst true (build s fun _ => A.ofInt 0)

/-- `MatMulZerosOnLhs`: src/Dialect/ONNX/Transforms/ConstProp.td:940-948. -/
def matMulZerosOnLhs (A : Alg V) (I : CInfo V) (e : CE V) : Option (CE V) :=
  (asMM e).bind fun (a, b) => (dense? a).bind fun t => (staticShape (I.ty e)).bind fun s =>
    if !isConst b && I.intType e && allAre (A.ofInt 0) t then some (constZeroTensor A s) else none

/-- `MatMulZerosOnRhs`: src/Dialect/ONNX/Transforms/ConstProp.td:951-959. -/
def matMulZerosOnRhs (A : Alg V) (I : CInfo V) (e : CE V) : Option (CE V) :=
  (asMM e).bind fun (a, b) => (dense? b).bind fun t => (staticShape (I.ty e)).bind fun s =>
    if !isConst a && I.intType e && allAre (A.ofInt 0) t then some (constZeroTensor A s) else none

/-- `MatMulOfConsts`: src/Dialect/ONNX/Transforms/ConstProp.td:961-970. -/
def matMulOfConsts (A : Alg V) (I : CInfo V) (e : CE V) : Option (CE V) :=
  (asMM e).bind fun (a, b) => (dense? a).bind fun s => (dense? b).bind fun t =>
    if I.bounded e then (matmul A s t).map (.cst true) else none

/-- The patterns: src/Dialect/ONNX/Transforms/ConstProp.td:309-411, 519-524, 598-804, 940-970. Any of them can be
disabled. -/
inductive CRule
  | commutative (b : Bin) | associative1 (b : Bin) | associative2 (b : Bin) | associative3 (b : Bin)
  | associative4 (b : Bin) | fold (b : Bin) | addZeros | subZeros | mulOnes | divOnes | subToNeg
  | mmZerosLhs | mmZerosRhs | mmFold

/-- The pattern exists: the rearrangements are for Add and Mul only. -/
def CRule.exists? : CRule → Bool
  | .commutative b | .associative1 b | .associative2 b | .associative3 b | .associative4 b => b = .add || b = .mul
  | _ => true

/-- A pattern applied to a value. -/
def CRule.apply (A : Alg V) (I : CInfo V) : CRule → CE V → Option (CE V)
  | .commutative b => constCommutative b
  | .associative1 b => constAssociative1 I b
  | .associative2 b => constAssociative2 I b
  | .associative3 b => constAssociative3 I b
  | .associative4 b => constAssociative4 I b
  | .fold b => constProp A I b
  | .addZeros => neutralOnRhs I .add (A.ofInt 0)
  | .subZeros => neutralOnRhs I .sub (A.ofInt 0)
  | .mulOnes => neutralOnRhs I .mul (A.ofRat 1)
  | .divOnes => neutralOnRhs I .div (A.ofRat 1)
  | .subToNeg => subConstToNeg A
  | .mmZerosLhs => matMulZerosOnLhs A I
  | .mmZerosRhs => matMulZerosOnRhs A I
  | .mmFold => matMulOfConsts A I

/-- One application of one pattern anywhere in the graph: the greedy driver called at
src/Dialect/ONNX/Transforms/ConstProp.cpp (`applyPatternsGreedily`) picks pattern and place in an order of its own.
Simplification: expressions are trees, so a shared value appears once per use. -/
inductive CStep (A : Alg V) (I : CInfo V) : CE V → CE V → Prop
  | root (r : CRule) (hr : r.exists?) {e e' : CE V} (h : r.apply A I e = some e') : CStep A I e e'
  | binL {b : Bin} {x x' y : CE V} : CStep A I x x' → CStep A I (.bin b x y) (.bin b x' y)
  | binR {b : Bin} {x y y' : CE V} : CStep A I y y' → CStep A I (.bin b x y) (.bin b x y')
  | mmL {x x' y : CE V} : CStep A I x x' → CStep A I (.mm x y) (.mm x' y)
  | mmR {x y y' : CE V} : CStep A I y y' → CStep A I (.mm x y) (.mm x y')
  | otherL {n : ℕ} {x x' y : CE V} : CStep A I x x' → CStep A I (.other n x y) (.other n x' y)
  | otherR {n : ℕ} {x y y' : CE V} : CStep A I y y' → CStep A I (.other n x y) (.other n x y')

end Verif.ConstProp
