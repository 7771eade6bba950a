import Mathlib.Data.List.Nodup
import Mathlib.Logic.Function.Basic

/-!
# Specification: blocks of element-wise operations on tensors

What the operations of ONNX compute, with broadcasting of their operands as numpy does it, and what it
means to run a block of operations: one after another, each reading values that have been computed.
-/

namespace Verif.Fusion

/-- The operations on elements. The families stand for the operations listed in `Kind`. -/
structure Sem (α : Type) where
  un : Nat → α → α
  bin : Nat → α → α → α
  add : α → α → α
  max : α → α → α
  min : α → α → α
  /-- The quotient by a number, for the mean. -/
  over : α → Nat → α
  /-- `(x - zero point) * scale`. -/
  deq : α → α → α → α

/-- The element-wise operations: those of one operand (Relu, Sqrt, Cast, ...), those of two operands
with their own code (comparisons, Mod, Pow, BitShift; PRelu) or with one instruction (Add, Sub, Mul,
Div, And, Or, Xor), those of any number of operands, and DequantizeLinear with its axis. -/
inductive Kind where
  | unary (k : Nat)
  | custom (k : Nat)
  | instr (k : Nat)
  | prelu
  | sum
  | mean
  | max
  | min
  | deq (axis : Nat)
deriving DecidableEq

/-- A tensor: its shape and the elements inside; an element may have no value. -/
structure Tensor (α : Type) where
  shape : List Nat
  data : List Nat → Option α

/-- Is the index inside? -/
def inside (shape idx : List Nat) : Bool :=
  decide (idx.length = shape.length) &&
    (List.range shape.length).all fun r => decide (idx.getD r 0 < shape.getD r 0)

/-- Reading an element; there is no value outside. -/
def Tensor.read {α : Type} (t : Tensor α) (idx : List Nat) : Option α :=
  if inside t.shape idx then t.data idx else none

/-- The extent at position `j` of `n`, with ones in front. -/
def padDim (n : Nat) (s : List Nat) (j : Nat) : Nat :=
  if j < n - s.length then 1 else s.getD (j - (n - s.length)) 1

/-- The number of dimensions of the result of broadcasting. -/
def bRank (ss : List (List Nat)) : Nat := (ss.map List.length).foldl Nat.max 0

/-- The extent of the result at position `j`: the one that is not 1, if any. -/
def bDim (ss : List (List Nat)) (j : Nat) : Nat :=
  ((ss.map fun s => padDim (bRank ss) s j).find? fun d => d != 1).getD 1

/-- The shape of the result of broadcasting; `none` if the shapes do not fit. -/
def bShape (ss : List (List Nat)) : Option (List Nat) :=
  if ss.all fun s => (List.range (bRank ss)).all fun j =>
      decide (padDim (bRank ss) s j = 1) || decide (padDim (bRank ss) s j = bDim ss j)
  then some ((List.range (bRank ss)).map (bDim ss)) else none

/-- The index in an operand of shape `s` for index `idx` of the result. -/
def bIndex (s idx : List Nat) : List Nat :=
  (List.range s.length).map fun r =>
    if s.getD r 0 = 1 then 0 else idx.getD (idx.length - s.length + r) 0

/-- The value of an operation on elements; `none` if the number of operands is wrong. -/
def Sem.eval {α : Type} (sem : Sem α) : Kind → List α → Option α
  | .unary k, [x] => some (sem.un k x)
  | .custom k, [x, y] => some (sem.bin (3 * k) x y)
  | .instr k, [x, y] => some (sem.bin (3 * k + 1) x y)
  | .prelu, [x, y] => some (sem.bin 2 x y)
  | .sum, x :: xs => some (xs.foldl sem.add x)
  | .mean, x :: xs => some (sem.over (xs.foldl sem.add x) (xs.length + 1))
  | .max, x :: xs => some (xs.foldl sem.max x)
  | .min, x :: xs => some (xs.foldl sem.min x)
  | .deq _, [x, s, z] => some (sem.deq x s z)
  | _, _ => none

/-- The numbers of operands an operation may have. -/
def arity : Kind → Nat → Bool
  | .unary _, n => n == 1
  | .custom _, n => n == 2
  | .instr _, n => n == 2
  | .prelu, n => n == 2
  | .deq _, n => n == 3
  | _, n => n != 0

/-- The scale or zero point of DequantizeLinear is one number or one number for every position along
the axis. -/
def axisIndex (axis : Nat) (s idx : List Nat) : List Nat :=
  if s.length = 0 then [] else [idx.getD axis 0]

/-- The index in every operand. -/
def operandIndex (k : Kind) (s idx : List Nat) (i : Nat) : List Nat :=
  match k, i with
  | .deq _, 0 => idx
  | .deq axis, _ => axisIndex axis s idx
  | _, _ => bIndex s idx

/-- The shape of the result. -/
def opShape (k : Kind) (ss : List (List Nat)) : Option (List Nat) :=
  match k with
  | .deq _ => ss.head?
  | _ => bShape ss

/-- An element-wise operation on tensors. -/
def elementwise {α : Type} (sem : Sem α) (k : Kind) (ts : List (Tensor α)) : Option (Tensor α) :=
  if arity k ts.length then
    (opShape k (ts.map Tensor.shape)).map fun shape =>
      { shape := shape
        data := fun idx =>
          if inside shape idx then
            (ts.zipIdx.mapM fun (ti : Tensor α × Nat) =>
                ti.1.read (operandIndex k ti.1.shape idx ti.2)).bind
              (sem.eval k)
          else none }
  else none

/-- An element-wise operation in a block: the name of its result, and its operands. -/
structure Elt where
  id : Nat
  kind : Kind
  ops : List Nat

/-- The values so far. -/
abbrev Env (α : Type) := Nat → Option (Tensor α)

end Verif.Fusion
