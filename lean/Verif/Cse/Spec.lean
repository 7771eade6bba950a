import Mathlib.Data.List.Basic
/-!
# Common subexpressions and node names: specification (C127)

A block of operations with one result each. `id` is the result, and the identity of the operation.
-/
namespace Verif.Cse

/-- An operation: its kind (the name of the operation with its dialect), its attributes without the
node name, its node name and its operands. -/
structure Op where
  id : Nat
  kind : Nat
  attrs : Nat
  nodeName : Option Nat
  operands : List Nat
  deriving DecidableEq

/-- What operations do. Operations without side effects give a value; others also change the state.
The node name is not looked at. -/
structure Semantics (V S : Type) where
  pureOp : Nat → Bool
  value : Nat → Nat → List V → V
  effect : Nat → Nat → List V → S → V × S

/-- One operation. -/
def Semantics.step {V S : Type} (I : Semantics V S) (op : Op) (env : Nat → V) (s : S) :
    (Nat → V) × S :=
  if I.pureOp op.kind then
    (fun v => if v = op.id then I.value op.kind op.attrs (op.operands.map env) else env v, s)
  else
    (fun v => if v = op.id then (I.effect op.kind op.attrs (op.operands.map env) s).1 else env v,
      (I.effect op.kind op.attrs (op.operands.map env) s).2)

/-- A block of operations; what it returns is an effect of its last one. -/
def Semantics.run {V S : Type} (I : Semantics V S) : List Op → (Nat → V) → S → (Nat → V) × S
  | [], env, s => (env, s)
  | op :: ops, env, s => I.run ops (I.step op env s).1 (I.step op env s).2

/-- Static single assignment: operands are defined before, results once. -/
def Ssa : List Nat → List Op → Prop
  | _, [] => True
  | defined, op :: ops => (∀ v ∈ op.operands, v ∈ defined) ∧ op.id ∉ defined ∧
      Ssa (op.id :: defined) ops

/-- Two operations compute the same. -/
def SameWork (a b : Op) : Prop := a.kind = b.kind ∧ a.attrs = b.attrs ∧ a.operands = b.operands

end Verif.Cse
