/-!
# Tensors with random integers: specification (C132)
-/
namespace Verif.RandInt

/-- A type of integers. -/
structure IntTy where
  bits : Nat
  signed : Bool
  deriving DecidableEq

/-- The types of integers of tensors; booleans have the values 0 and 1. -/
def intTypes : List IntTy :=
  [⟨1, false⟩, ⟨8, true⟩, ⟨8, false⟩, ⟨16, true⟩, ⟨16, false⟩, ⟨32, true⟩, ⟨32, false⟩, ⟨64, true⟩,
   ⟨64, false⟩]

/-- The values of a type. -/
def IntTy.Has (t : IntTy) (v : Int) : Prop :=
  if t.signed then -(2 ^ (t.bits - 1)) ≤ v ∧ v < 2 ^ (t.bits - 1) else 0 ≤ v ∧ v < 2 ^ t.bits

/-- What the filling of a buffer does: the values, or undefined behaviour. -/
inductive Outcome
  | values (vs : List Int)
  | undefined
  deriving DecidableEq

/-- A random generator: the number that it gives in a step lies between the bounds. -/
def Uniform (gen : Nat → Int → Int → Int) : Prop :=
  ∀ k a b, a ≤ b → a ≤ gen k a b ∧ gen k a b ≤ b

end Verif.RandInt
