import Mathlib.Logic.Function.Basic
import Mathlib.Data.List.Nodup

/-!
# Model of tensor and tensor-list ownership

Sources: `/repo/src/Runtime/OMTensor.inc` and `/repo/src/Runtime/OMTensorList.inc`.

Allocations and tensor structures are identified by numbers that are never reused, so a stale
pointer is never confused with a new allocation. The `_shape`, `_strides` arrays and the
structure itself are freed together with the handle, so a live handle stands for all three.
-/

namespace Verif.Runtime.Heap

/-- Fields of `struct OMTensor` that matter for ownership, OMTensor.inc 124, 138. `ptr = none`
is a `NULL` data pointer. -/
structure TRec where
  ptr : Option Nat
  owning : Bool
deriving DecidableEq, Repr

/-- Life cycle of a data allocation. -/
inductive Status
  | live
  | freed
deriving DecidableEq, Repr

/-- Program state: data allocations, live tensor structures, live lists. A list holds the
pointer array copied by `omTensorListCreate`; `none` entries are `NULL`. -/
structure State where
  bufs : Nat → Option Status
  tens : Nat → Option TRec
  lists : Nat → Option (List (Option Nat))
  nextBuf : Nat
  nextTen : Nat
  nextList : Nat

def State.init : State := ⟨fun _ => none, fun _ => none, fun _ => none, 0, 0, 0⟩

/-- Undefined behaviour the library could run into. -/
inductive Err
  | badFree
  | useAfterFree
deriving DecidableEq, Repr

/-- `free`: `NULL` is ignored; anything but a live allocation is an error. -/
def freeBuf (s : State) : Option Nat → Except Err State
  | none => .ok s
  | some p =>
    match s.bufs p with
    | some .live => .ok { s with bufs := Function.update s.bufs p (some .freed) }
    | _ => .error .badFree

/-- API calls. `malloc` and `userFree` are the client's own allocations. -/
inductive Op
  | malloc
  | userFree (p : Nat)
  | create (p : Option Nat) (owning : Bool)
  | createEmpty
  | setOwning (h : Nat) (b : Bool)
  | setDataPtr (h : Nat) (owning : Bool) (p : Option Nat)
  | destroy (h : Option Nat)
  | listCreate (hs : List (Option Nat))
  | listDestroy (l : Nat)
  | listDestroyShallow (l : Nat)
deriving DecidableEq, Repr

/-- `if (tensor->_owning) free(tensor->_allocatedPtr)`, OMTensor.inc 262-266 and 298-301. -/
def releaseOld (s : State) (t : TRec) : Except Err State :=
  if t.owning then freeBuf s t.ptr else .ok s

/-- `omTensorDestroy`, OMTensor.inc 259-272. -/
def destroyTensor (s : State) : Option Nat → Except Err State
  | none => .ok s
  | some h =>
    match s.tens h with
    | none => .error .useAfterFree
    | some t =>
      (releaseOld s t).bind fun s1 =>
      .ok { s1 with tens := Function.update s1.tens h none }

/-- Loop of `omTensorListDestroy`, OMTensorList.inc 103-104. -/
def destroyAll (s : State) : List (Option Nat) → Except Err State
  | [] => .ok s
  | h :: hs => (destroyTensor s h).bind fun s1 => destroyAll s1 hs

/-- One API call. -/
def step (s : State) : Op → Except Err State
  | .malloc =>
    .ok { s with bufs := Function.update s.bufs s.nextBuf (some .live), nextBuf := s.nextBuf + 1 }
  | .userFree p => freeBuf s (some p)
  -- omTensorCreate / omTensorCreateWithOwnership, OMTensor.inc 166-206
  | .create p owning =>
    .ok { s with tens := Function.update s.tens s.nextTen (some ⟨p, owning⟩),
                 nextTen := s.nextTen + 1 }
  -- omTensorCreateEmpty, OMTensor.inc 242-256 (successful allocation)
  | .createEmpty =>
    .ok { s with bufs := Function.update s.bufs s.nextBuf (some .live),
                 nextBuf := s.nextBuf + 1,
                 tens := Function.update s.tens s.nextTen (some ⟨some s.nextBuf, true⟩),
                 nextTen := s.nextTen + 1 }
  -- omTensorSetOwning
  | .setOwning h b =>
    match s.tens h with
    | none => .error .useAfterFree
    | some t => .ok { s with tens := Function.update s.tens h (some { t with owning := b }) }
  -- omTensorSetDataPtr, OMTensor.inc 294-308
  | .setDataPtr h owning p =>
    match s.tens h with
    | none => .error .useAfterFree
    | some t =>
      (releaseOld s t).bind fun s1 =>
      .ok { s1 with tens := Function.update s1.tens h (some ⟨p, owning⟩) }
  | .destroy h => destroyTensor s h
  -- omTensorListCreate, OMTensorList.inc 74-96 (successful allocation)
  | .listCreate hs =>
    .ok { s with lists := Function.update s.lists s.nextList (some hs),
                 nextList := s.nextList + 1 }
  -- omTensorListDestroy, OMTensorList.inc 99-108
  | .listDestroy l =>
    match s.lists l with
    | none => .error .useAfterFree
    | some hs =>
      (destroyAll s hs).bind fun s1 =>
      .ok { s1 with lists := Function.update s1.lists l none }
  -- omTensorListDestroyShallow, OMTensorList.inc 112-119
  | .listDestroyShallow l =>
    match s.lists l with
    | none => .error .useAfterFree
    | some _ => .ok { s with lists := Function.update s.lists l none }

/-- A history of calls. -/
def run (s : State) : List Op → Except Err State
  | [] => .ok s
  | op :: ops => (step s op).bind fun s1 => run s1 ops

/-- The live tensor `h` owns allocation `p`. -/
def OwnedBy (s : State) (h p : Nat) : Prop := s.tens h = some ⟨some p, true⟩

/-- The client's side of the contract, as documented for the C API: handles passed are live,
a pointer handed over with ownership is a live allocation that no live tensor owns, and the
client does not free what a tensor owns. -/
def Legal (s : State) : Op → Prop
  | .malloc => True
  | .userFree p => s.bufs p = some .live ∧ ∀ h, ¬ OwnedBy s h p
  | .create p owning =>
    owning = true → ∀ q, p = some q → s.bufs q = some .live ∧ ∀ h, ¬ OwnedBy s h q
  | .createEmpty => True
  | .setOwning h b =>
    ∃ t, s.tens h = some t ∧
      (b = true → ∀ q, t.ptr = some q → s.bufs q = some .live ∧ ∀ h', OwnedBy s h' q → h' = h)
  | .setDataPtr h owning p =>
    (∃ t, s.tens h = some t) ∧
      (owning = true → ∀ q, p = some q → s.bufs q = some .live ∧ ∀ h', ¬ OwnedBy s h' q)
  | .destroy h => ∀ k, h = some k → ∃ t, s.tens k = some t
  | .listCreate _ => True
  | .listDestroy l =>
    ∃ hs, s.lists l = some hs ∧ (hs.filterMap id).Nodup ∧
      ∀ k, some k ∈ hs → ∃ t, s.tens k = some t
  | .listDestroyShallow l => ∃ hs, s.lists l = some hs

/-- Every call in the history is legal in the state it is made in. -/
def LegalRun (s : State) : List Op → Prop
  | [] => True
  | op :: ops => Legal s op ∧ ∀ s', step s op = .ok s' → LegalRun s' ops

/-- `struct OMTensorList`, OMTensorList.inc 34-71: the copied pointer array and its size. -/
structure TList where
  omts : List Nat
  size : Int

/-- `omTensorListCreate`, OMTensorList.inc 74-96 (successful allocation): copies `n` entries
of the caller's array. `none` is a read past the end of that array. -/
def listCreate (arr : List Nat) (n : Int) : Option TList :=
  if n > 0 then
    if n.toNat ≤ arr.length then some ⟨arr.take n.toNat, n⟩ else none
  else some ⟨[], n⟩

/-- `omTensorListGetOmtByIndex`, OMTensorList.inc 136-140. The outer `none` is a read outside
the array; the inner option is the returned pointer, `none` being `NULL`. -/
def listGet (l : TList) (index : Int) : Option (Option Nat) :=
  if index < 0 ∨ index ≥ l.size then some none
  else (l.omts[index.toNat]?).map some

end Verif.Runtime.Heap
