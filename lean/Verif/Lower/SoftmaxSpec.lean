import Verif.Lower.Nd
import Mathlib.Analysis.SpecialFunctions.Exp

/-!
Specification of Softmax, independent of the lowering.
-/

namespace Verif.Lower

/-- The exponential of a real number or minus infinity. -/
noncomputable def expE (x : WithBot ℝ) : ℝ :=
  match x with
  | none => 0
  | some x => Real.exp x

/-- The exponential is right for arguments where it cannot overflow; it may fail elsewhere. -/
def ExpOk (ex : ℝ → Option ℝ) : Prop := ∀ x ≤ 0, ex x = some (Real.exp x)

/-- The group of an index from opset 13 on: the indices that differ from it at the axis only. -/
def lineOf (dims : List ℤ) (a : ℕ) (i : Idx) : List Idx :=
  (idxs dims).filter fun j => decide (j.eraseIdx a = i.eraseIdx a)

/-- The group of an index up to opset 11: the indices that agree with it before the axis. -/
def blockOf (dims : List ℤ) (a : ℕ) (i : Idx) : List Idx :=
  (idxs dims).filter fun j => decide (j.take a = i.take a)

/-- `Y` is the Softmax of `X` over the groups `grp`. -/
def IsSoftmax (grp : Idx → List Idx) (X : Mem (WithBot ℝ)) (Y : Mem ℝ) : Prop :=
  Y.shape = X.shape ∧ ∀ i, InShape i X.shape →
    Y.data i = expE (X.data i) / ((grp i).map fun j => expE (X.data j)).sum

end Verif.Lower
