import Verif.Signature.Spec
/-!
# Reading signatures at run time: specification (C128)

The text of a signature is the one of `Verif/Signature/Spec.lean`, which C110 shows to be what a
compiled model gives.
-/
namespace Verif.SigParse

open Verif.Signature (Str lit Ty)

/-- What is read for an input: the number of its element type, if there is one, and its dimensions. -/
structure SigEntry where
  type : Option Nat
  dims : List Int
  deriving DecidableEq

/-- The numbers of element types in ONNX (`TensorProto.DataType`). -/
def onnxType : List (Str × Nat) :=
  [(lit "f32", 1), (lit "ui8", 2), (lit "i8", 3), (lit "ui16", 4), (lit "i16", 5), (lit "i32", 6),
   (lit "i64", 7), (lit "i1", 9), (lit "f16", 10), (lit "f64", 11), (lit "ui32", 12),
   (lit "ui64", 13)]

/-- The entry is the one of the input. -/
def Describes (e : SigEntry) : Ty → Prop
  | .tensor elem dims => (∃ n, (elem, n) ∈ onnxType ∧ e.type = some n) ∧ e.dims = dims
  | .strings dims => e.type = some 8 ∧ e.dims = dims
  | .seq _ => False

/-- Dimensions that fit into 64 bits. -/
def Fits (dims : List Int) : Prop := ∀ d ∈ dims, -(2 ^ 63) ≤ d ∧ d < 2 ^ 63

/-- Inputs that can be read: tensors with a known element type. -/
def Readable : Ty → Prop
  | .tensor elem dims => elem ∈ Verif.Signature.elemTypes ∧ Fits dims
  | .strings dims => Fits dims
  | .seq _ => False

end Verif.SigParse
