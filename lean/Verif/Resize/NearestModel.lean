import Mathlib.Data.Rat.Floor
import Mathlib.Algebra.Order.Floor.Ring

/-!
# Model of the loops generated for Resize in nearest mode

Source: `/repo/src/Conversion/ONNXToKrnl/Tensor/Resize.cpp`. `float` arithmetic is exact.
-/

namespace Verif.Resize

/-- The values of `nearest_mode`. -/
inductive NearestMode | preferFloor | preferCeil | floor | ceil
  deriving DecidableEq

/-- The operations created in the loop body for one dimension, Resize.cpp 124-192: the index read for
index `i` of the output. -/
def readIndex (asymmetric : Bool) (mode : NearestMode) (scale : ℚ) (dim : Nat) (i : Nat) : Int :=
  let x : ℚ := if asymmetric then i / scale else (i + 1 / 2) / scale - 1 / 2
  let y : ℚ := match mode with
    | .preferFloor => x + 499999 / 1000000
    | .preferCeil => x + 1 / 2
    | .floor => ⌊x⌋
    | .ceil => ⌈x⌉
  let t : Int := if 0 ≤ y then ⌊y⌋ else ⌈y⌉
  let lb := if t < 0 then 0 else t
  if lb < dim then lb else (dim : Int) - 1

end Verif.Resize
