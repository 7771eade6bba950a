import Mathlib.Algebra.BigOperators.Group.Finset.Basic

/-!
# ONNX Reshape, Split and Concat (specification)
-/

namespace Verif.Shape
open Finset

/-- Data of rank `n` with extents `d`, request `s` of length `m`, result `out`: at most one entry of the
request is -1, a 0 copies the extent of the data, positive entries are taken as they are, and the number
of elements stays the same. -/
structure ReshapeTo (n m : Nat) (d s out : Nat → Int) : Prop where
  valid : ∀ i < m, -1 ≤ s i
  one : ∀ i < m, ∀ j < m, s i = -1 → s j = -1 → i = j
  copy : ∀ i < m, s i = 0 → i < n ∧ out i = d i
  keep : ∀ i < m, 0 < s i → out i = s i
  count : ∏ i ∈ range m, out i = ∏ k ∈ range n, d k

end Verif.Shape
