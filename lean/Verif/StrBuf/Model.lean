import Verif.StrBuf.Spec
/-!
# Tensors of strings in one buffer: the code (C131)

Models `omTensorBuildStringBuffer`, `/repo/src/Runtime/OMTensorHelper.cpp:299-317`. The array of
pointers at the beginning of the buffer and the characters after it are apart; pointers are counted
from the first character. Writes outside of the characters are faults, and give none. Memory can always
be allocated.
-/
namespace Verif.StrBuf

/-- `totalStrLen` (OMTensorHelper.cpp:301-303). -/
def totalLen (strings : List (List Nat)) : Nat :=
  strings.foldl (fun n s => n + (s.length + 1)) 0

/-- A write of one character. -/
def poke (mem : Mem) (p c : Nat) : Option Mem :=
  if p < mem.length then some (mem.set p (some c)) else none

/-- `memcpy` (OMTensorHelper.cpp:311). -/
def memcpy (mem : Mem) (p : Nat) : List Nat → Option Mem
  | [] => some mem
  | c :: cs =>
    match poke mem p c with
    | none => none
    | some m => memcpy m (p + 1) cs

/-- The copy of a string with its end (OMTensorHelper.cpp:311-312). -/
def copyStr (mem : Mem) (p : Nat) (s : List Nat) : Option Mem :=
  match memcpy mem p s with
  | none => none
  | some m => poke m (p + s.length) 0

/-- The loop over strings (OMTensorHelper.cpp:309-315). -/
def copyAll : List (List Nat) → Nat → Buffer → Option Buffer
  | [], _, b => some b
  | s :: ss, p, b =>
    match copyStr b.chars p s with
    | none => none
    | some m => copyAll ss (p + (s.length + 1)) { ptrs := b.ptrs ++ [p], chars := m }

/-- `omTensorBuildStringBuffer` (OMTensorHelper.cpp:299-317). -/
def build (strings : List (List Nat)) : Option Buffer :=
  copyAll strings 0 { ptrs := [], chars := List.replicate (totalLen strings) none }

end Verif.StrBuf
