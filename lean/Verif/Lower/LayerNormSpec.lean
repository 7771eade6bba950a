import Verif.Lower.NormSpec
import Verif.Lower.SoftmaxSpec
import Verif.Lower.LayerNormModel

/-!
Specification of LayerNormalization, independent of the lowering.
-/

namespace Verif.Lower

/-- The index of the element of an operand of shape `dims` that ONNX broadcasting pairs with index
`idx`: 0 in the dimensions of size 1. -/
def bcastIdx (dims : List ℤ) (idx : Idx) : Idx := List.zipWith (fun d x => if d = 1 then 0 else x) dims idx

/-- The compile-time knowledge about an operand is right, and the operand can be broadcast to `dims`:
same rank after padding in front with ones, every dimension 1 or that of X. -/
structure OdOk (od : List ODim) (orank : ℕ) (dims : List ℤ) : Prop where
  length : od.length = dims.length
  rank : orank ≤ od.length
  pad : ∀ x ∈ od.take (od.length - orank), x.one = true
  one : ∀ x ∈ od, x.one = true → x.d = 1
  same : ∀ p ∈ od.zip dims, p.1.same = true → p.1.d = p.2
  bcast : ∀ p ∈ od.zip dims, p.1.d = 1 ∨ p.1.d = p.2

end Verif.Lower
