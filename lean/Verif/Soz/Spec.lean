import Mathlib.Algebra.BigOperators.Group.List.Basic
/-!
# Tensors with rows of ones and zeros: specification (C130)
-/
namespace Verif.Soz

/-- What a call does: it makes a tensor with these elements, it makes none, or it writes outside of the
elements of the tensor. -/
inductive Outcome
  | made (data : List Nat)
  | null
  | fault
  deriving DecidableEq

/-- A row of the data, of `inner` elements: `n` ones, then zeros. -/
def RowIs (data : List Nat) (inner row n : Nat) : Prop :=
  ∀ j, j < inner → data[row * inner + j]? = some (if j < n then 1 else 0)

/-- The element types with numbers, as in ONNX: float, uint8, int8, uint16, int16, int32, int64, bool,
double, uint32 and uint64. -/
def numeric : List Nat := [1, 2, 3, 4, 5, 6, 7, 9, 11, 12, 13]

end Verif.Soz
