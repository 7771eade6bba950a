import Verif.Rewrite.ArithSem

/-!
# Expressions with constants

Vocabulary for the rearrangement of arithmetic with constants: the expressions, and the tensor that
the ONNX standard says they denote. Nothing here models code.
-/

namespace Verif.ConstProp

open Verif.Rewrite

/-- An expression of a graph. A constant may carry its elements in one dense attribute, or in another form (a list of
numbers, strings, a sparse tensor). Operators that the rearrangement does not know are `other`, with one or two
operands. -/
inductive CE (V : Type) where
  | val (k : ℕ)
  | cst (dense : Bool) (t : Tensor V)
  | bin (b : Bin) (x y : CE V)
  | mm (x y : CE V)
  | other (n : ℕ) (x y : CE V)

variable {V : Type} [Inhabited V]

/-- The tensor an expression denotes, if its operands fit together. -/
def CE.eval (A : Alg V) (F : ℕ → Tensor V → Tensor V → Option (Tensor V)) (env : ℕ → Tensor V) :
    CE V → Option (Tensor V)
  | .val k => some (env k)
  | .cst _ t => some t
  | .bin b x y => (x.eval A F env).bind fun s => (y.eval A F env).bind fun t => binary (A.bin b) s t
  | .mm x y => (x.eval A F env).bind fun s => (y.eval A F env).bind fun t => matmul A s t
  | .other n x y => (x.eval A F env).bind fun s => (y.eval A F env).bind fun t => F n s t

/-- What the four operations need to satisfy: those of a commutative ring (all the integer types, which wrap around, are
such rings; floating-point types are not, because of rounding), and a number divided by one is that number. -/
structure ConstAlg [CommRing V] (A : Alg V) : Prop extends RingAlg A where
  sub : ∀ x y, A.bin .sub x y = x - y
  neg : ∀ x, A.un "Neg" [] x = -x
  div_one : ∀ x, A.bin .div x 1 = x

/-- A tensor type: unknown rank, or an extent for each axis, possibly unknown. -/
abbrev CType := Option (List (Option ℕ))

/-- A tensor has a type. -/
def HasCType (t : Tensor V) : CType → Prop
  | none => True
  | some ds => List.Forall₂ (fun d n => d = none ∨ d = some n) ds t.shape

/-- The type of a broadcast result names what a constant operand settles: it has at least as many axes as the constant,
and an extent other than one of the constant is the extent of the result. -/
def Settled (c : List ℕ) : CType → Prop
  | none => True
  | some ds => c.length ≤ ds.length ∧
      ∀ k, k < c.length → c.getD k 0 ≠ 1 → ds.getD (ds.length - c.length + k) none = some (c.getD k 0)

end Verif.ConstProp
