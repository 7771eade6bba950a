/-!
# Memory of inputs that are made at run time: specification (C133)
-/
namespace Verif.MakeInputs

/-- What is allocated: the array for the inputs, the tensors with their numbers, the list and the array
of the list. -/
inductive Res
  | array
  | tensor (i : Nat)
  | list
  | listArray
  deriving DecidableEq

/-- The result, and what is still allocated. There is a fault when something is released that is not
allocated. -/
inductive Outcome
  | made (live : List Res)
  | null (live : List Res)
  | fault
  deriving DecidableEq

/-- What succeeds: the tensor of an input can be made (its dimensions are known, its type is supported
and there is memory), and the other allocations. -/
structure World where
  tensor : Nat → Bool
  array : Bool
  list : Bool
  listArray : Bool

end Verif.MakeInputs
