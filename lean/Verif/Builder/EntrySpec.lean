import Verif.Builder.EntryModel
import Verif.Builder.ShapeOptSpec

/-!
What the verification of the inputs is to accept.
-/

namespace Verif.Builder

/-- The bounds an option gives for dimension `d` of input `k`: by the first entry that names the input and by the first entry for all. -/
def BoundFor (es : List ShapeEntry) (k d b : ℕ) : Prop :=
  (∃ e, (es.find? fun e => e.sel.names k) = some e ∧ e.dims[d]? = some (some b)) ∨
  (∃ e, (es.find? fun e => e.sel.isAll) = some e ∧ e.dims[d]? = some (some b))

/-- One tensor has the type, the rank and the dimensions of the signature, sizes are not negative, and bounds hold. -/
structure Matches (ub lb : List ShapeEntry) (k : ℕ) (s : InSig) (t : InTensor) : Prop where
  dtype : ∀ ty, s.dtype = some ty → t.dtype = ty
  rank : t.shape.length = s.dims.length
  static : ∀ (d : ℕ) (x : ℤ) (v : ℕ), t.shape[d]? = some x → s.dims[d]? = some (some v) → x = v
  nonneg : ∀ (d : ℕ) (x : ℤ), t.shape[d]? = some x → 0 ≤ x
  upper : ∀ (d : ℕ) (x : ℤ) (b : ℕ), t.shape[d]? = some x → BoundFor ub k d b → x ≤ b
  lower : ∀ (d : ℕ) (x : ℤ) (b : ℕ), t.shape[d]? = some x → BoundFor lb k d b → (b : ℤ) ≤ x

/-- The tensors are valid inputs of the model. -/
def Accepts (sig : List InSig) (ub lb : List ShapeEntry) (ts : List InTensor) : Prop :=
  ts.length = sig.length ∧ ∀ (k : ℕ) (s : InSig) (t : InTensor), sig[k]? = some s → ts[k]? = some t → Matches ub lb k s t

/-- The bounds are for inputs and dimensions that exist. -/
def BoundsFit (sig : List InSig) (es : List ShapeEntry) : Prop :=
  ∀ e ∈ es, (e.sel.isAll = true → ∀ s ∈ sig, e.dims.length ≤ s.dims.length) ∧
    ∀ k, e.sel.names k = true → ∃ s, sig[k]? = some s ∧ e.dims.length ≤ s.dims.length

end Verif.Builder
