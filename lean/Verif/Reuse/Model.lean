import Verif.Fusion.Access

/-!
# Model of the reuse of the buffers of operands

Source: `/repo/src/Conversion/ONNXToKrnl/Math/Elementwise.cpp` 36-105.

The specification of element-wise operations is that of `Verif.Fusion.Spec`.
-/

namespace Verif.Reuse
open Verif.Fusion

variable {α : Type}

/-- Where a value comes from. -/
inductive Origin where
  | argument
  | constant
  | result
  | view
deriving DecidableEq

/-- An operand: where it comes from, the number of its uses, the shape and the element of its type, its
shape when the model runs, and its buffer. -/
structure Operand where
  origin : Origin
  uses : Nat
  ty : List (Option Nat)
  elem : Nat
  shape : List Nat
  buf : Nat

/-- `isBufferReusable`, 37-65. -/
def isBufferReusable (x : Operand) (out : List (Option Nat)) : Bool :=
  if x.uses ≠ 1 then false
  else if !x.ty.all Option.isSome then false
  else if !out.all Option.isSome then false
  else if x.ty.length ≠ out.length then false
  else (List.range x.ty.length).all fun i => x.ty[i]? == out[i]?

/-- `whichBufferToReuse`, 69-75; `none` is -1. -/
def whichBufferToReuse (xs : List Operand) (out : List (Option Nat)) : Option Nat :=
  xs.findIdx? fun x => isBufferReusable x out

/-- `allocOrReuse`, 79-105: the buffer of the result; `new` is a buffer that has been allocated. -/
def allocOrReuse (enabled : Bool) (xs : List Operand) (out : List (Option Nat)) (new : Nat) : Nat :=
  if enabled then
    match whichBufferToReuse xs out with
    | some i => (xs[i]?.map Operand.buf).getD new
    | none => new
  else new

/-- The contents of the buffers. -/
abbrev Mem (α : Type) := Nat → List Nat → Option α

/-- An element of the result, read from the buffers as they are now. -/
def eltAt (sem : Sem α) (k : Kind) (xs : List Operand) (m : Mem α) (idx : List Nat) : Option α :=
  (xs.zipIdx.mapM fun (xi : Operand × Nat) =>
    (⟨xi.1.shape, m xi.1.buf⟩ : Tensor α).read (operandIndex k xi.1.shape idx xi.2)).bind (sem.eval k)

/-- One iteration of the loop nest: compute the element and store it, 2318-2341. -/
def body (sem : Sem α) (k : Kind) (xs : List Operand) (out : Nat) (m : Mem α) (idx : List Nat) : Mem α :=
  Function.update m out (Function.update (m out) idx (eltAt sem k xs m idx))

/-- The loop nest, in any order of the iterations. -/
def loop (sem : Sem α) (k : Kind) (xs : List Operand) (out : Nat) (order : List (List Nat)) (m : Mem α) :
    Mem α := order.foldl (body sem k xs out) m

end Verif.Reuse
