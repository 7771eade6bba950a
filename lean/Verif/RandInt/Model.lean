import Verif.RandInt.Spec
/-!
# Tensors with random integers: the code (C132)

Models `fillBufferWithRandom` for integers, `/repo/src/Runtime/OMTensorHelper.cpp:53-79`. The bounds are
already values of the element type. The random generator is a parameter.
-/
namespace Verif.RandInt

/-- `static_cast` to a type of integers; for booleans it is used with 0 and 1 only. -/
def cast (t : IntTy) (v : Int) : Int :=
  if t.signed then (v + 2 ^ (t.bits - 1)) % 2 ^ t.bits - 2 ^ (t.bits - 1) else v % 2 ^ t.bits

/-- The type of the distribution (OMTensorHelper.cpp:64-65, 70). -/
def distTy (t : IntTy) : IntTy := if t.bits ≤ 32 then ⟨32, true⟩ else ⟨64, true⟩

/-- `std::uniform_int_distribution`, which needs bounds in order, and `std::generate`
(OMTensorHelper.cpp:65-73). -/
def generate (t : IntTy) (n : Nat) (a b : Int) (gen : Nat → Int → Int → Int) : Outcome :=
  if a ≤ b then .values ((List.range n).map fun k => cast t (gen k a b)) else .undefined

/-- `fillBufferWithRandom` (OMTensorHelper.cpp:53-79). -/
def fill (t : IntTy) (n : Nat) (lb ub : Int) (gen : Nat → Int → Int → Int) : Outcome :=
  if lb = ub then .values (List.replicate n lb)
  else generate t n (cast (distTy t) lb) (cast (distTy t) ub) gen

end Verif.RandInt
