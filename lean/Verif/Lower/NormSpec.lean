import Verif.Lower.Nd
import Mathlib.Analysis.SpecialFunctions.Pow.Real

/-!
Specification of the normalisations, independent of the lowerings.
-/

namespace Verif.Lower

/-- The mean of the values at the indices of a list. -/
noncomputable def meanOf (L : List Idx) (f : Idx → ℝ) : ℝ := (L.map f).sum / L.length

/-- The (population) variance of the values at the indices of a list. -/
noncomputable def varianceOf (L : List Idx) (f : Idx → ℝ) : ℝ := meanOf L fun i => (f i - meanOf L f) ^ 2

/-- The channel of an index: that of dimension 1, channel 0 without such a dimension. -/
def channelOf (i : Idx) : ℤ := i.getD 1 0

/-- The indices of the same batch and channel. -/
def planeOf (dims : List ℤ) (i : Idx) : List Idx := (idxs dims).filter fun j => decide (j.take 2 = i.take 2)

/-- The indices that agree with `i` outside of the axes. -/
def sliceOf (dims : List ℤ) (axes : List ℤ) (i : Idx) : List Idx :=
  (idxs dims).filter fun j => decide (∀ k < dims.length, (k : ℤ) ∉ axes → j.getD k 0 = i.getD k 0)

/-- The channels in the window of LRN around channel `c`:
max(0, c - floor((size - 1) / 2)) <= j <= min(C - 1, c + ceil((size - 1) / 2)). -/
def lrnWindow (size C c : ℤ) : List ℤ :=
  (upto C).filter fun j => decide (max 0 (c - ⌊((size : ℚ) - 1) / 2⌋) ≤ j ∧ j ≤ min (C - 1) (c + ⌈((size : ℚ) - 1) / 2⌉))

end Verif.Lower
