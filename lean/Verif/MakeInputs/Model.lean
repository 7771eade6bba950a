import Verif.MakeInputs.Spec
/-!
# Memory of inputs that are made at run time: the code (C133)

Models the part of `omTensorListCreateFromInputSignature` after the options are read,
`/repo/src/Runtime/OMTensorListHelper.cpp:504-565`, and `omTensorListCreate`,
`/repo/src/Runtime/OMTensorList.inc:74-96`. What is in the tensors is not modelled here (C129, C130,
C132); a tensor that cannot be made allocates nothing in the end (OMTensorHelper.cpp:92-101).
-/
namespace Verif.MakeInputs

/-- `free`, `omTensorDestroy`: none when it is not allocated. -/
def release (r : Res) (live : List Res) : Option (List Res) :=
  if r ∈ live then some (live.erase r) else none

/-- The loop of `abortWithCleanup` (OMTensorListHelper.cpp:509-511): `left` tensors, from `k` on. -/
def destroyLoop : Nat → Nat → List Res → Option (List Res)
  | 0, _, live => some live
  | left + 1, k, live =>
    match release (.tensor k) live with
    | none => none
    | some l => destroyLoop left (k + 1) l

/-- The result null after releases. -/
def asNull : Option (List Res) → Outcome
  | none => .fault
  | some l => .null l

/-- `abortWithCleanup` (OMTensorListHelper.cpp:509-514). -/
def abort (count : Nat) (live : List Res) : Outcome :=
  match destroyLoop count 0 live with
  | none => .fault
  | some l => asNull (release .array l)

/-- `omTensorListCreate` (OMTensorList.inc:74-96), for at least one tensor: whether there is a list, and
what is allocated. -/
def listCreate (w : World) (live : List Res) : Option (Bool × List Res) :=
  if w.list then
    if w.listArray then some (true, live ++ [.list, .listArray])
    else (release .list (live ++ [.list])).map fun l => (false, l)
  else some (false, live)

/-- The end of the function (OMTensorListHelper.cpp:562-564). -/
def finish (w : World) (live : List Res) : Outcome :=
  match listCreate w live with
  | none => .fault
  | some p =>
    match release .array p.2 with
    | none => .fault
    | some l => if p.1 then .made l else .null l

/-- The loop over inputs (OMTensorListHelper.cpp:516-560): `left` inputs, from `i` on. -/
def inputLoop (w : World) : Nat → Nat → List Res → Outcome
  | 0, _, live => finish w live
  | left + 1, i, live =>
    if w.tensor i then inputLoop w left (i + 1) (live ++ [.tensor i])
    else abort i live

/-- The function from its first allocation on (OMTensorListHelper.cpp:504-565). -/
def makeInputs (w : World) (n : Nat) : Outcome :=
  if w.array then inputLoop w n 0 [.array] else .null []

end Verif.MakeInputs
