import Verif.Signature.Spec
/-!
# Statistics of operations: specification (C126)

JSON texts are those of `Verif/Signature/Spec.lean`.
-/
namespace Verif.OpStats

open Verif.Signature (Str lit Json JText decimal PlainChars)

/-- Types of values: none, tensors with a shape, tensors without rank, sequences or optionals, whose
elements have a rank or not, and others. -/
inductive VTy where
  | none
  | tensor (shape : List Int)
  | unranked
  | seq (ranked : Bool)
  | other

/-- An operation. -/
structure Op where
  name : Str
  operands : List VTy
  results : List VTy

/-- What the statistics say of an operand. -/
inductive Kind where
  | none
  | rank (n : Nat)
  | unranked
  deriving DecidableEq

def VTy.kind : VTy → Kind
  | .none => .none
  | .tensor s => .rank s.length
  | .unranked => .unranked
  | .seq _ => .unranked
  | .other => .unranked

/-- The text of a kind, as documented in the source: `.2D.1D.unranked.0D.none`. -/
def Kind.text : Kind → Str
  | .none => lit ".none"
  | .rank n => lit "." ++ decimal n ++ lit "D"
  | .unranked => lit ".unranked"

/-- Nothing, or one element. -/
def VTy.isScalar : VTy → Bool
  | .none => true
  | .tensor s => decide (s = [] ∨ s = [1])
  | _ => false

/-- A scalar operation. -/
def Op.isScalar (op : Op) : Bool := op.operands.all VTy.isScalar && op.results.all VTy.isScalar

/-- The key of an operation. -/
def Op.key (op : Op) : Str :=
  op.name ++ (op.operands.map fun t => t.kind.text).flatten ++
    (if op.isScalar then lit ".scalar" else [])

/-- Operations that are counted. -/
def Op.Counted (op : Op) : Prop :=
  op.name ≠ lit "builtin.module" ∧ op.name ≠ lit "func.func" ∧ op.name ≠ lit "onnx.EntryPoint"

/-- Order of the bytes of texts. -/
def strLt : Str → Str → Prop
  | [], [] => False
  | [], _ :: _ => True
  | _ :: _, [] => False
  | a :: s, b :: t => a.toNat < b.toNat ∨ (a = b ∧ strLt s t)

instance (op : Op) : Decidable op.Counted := by unfold Op.Counted; infer_instance

/-- The number of operations with a key. -/
def howMany (ops : List Op) (k : Str) : Nat :=
  (ops.filter fun op => decide (op.Counted ∧ op.key = k)).length

/-- Operations without values of a type that is not accepted. -/
def Op.Fine (op : Op) : Prop :=
  (∀ t ∈ op.operands, t ≠ .unranked) ∧ (∀ t ∈ op.operands ++ op.results, t ≠ .seq true)

end Verif.OpStats
