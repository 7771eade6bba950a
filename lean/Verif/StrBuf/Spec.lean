/-!
# Tensors of strings in one buffer: specification (C131)
-/
namespace Verif.StrBuf

/-- Memory for characters, none where nothing has been written yet. -/
abbrev Mem := List (Option Nat)

/-- The string that a C program reads: up to the first character 0. There is none when it reads
characters that nobody has written, or goes on after the end. -/
def cstr : Mem → Option (List Nat)
  | [] => none
  | none :: _ => none
  | some 0 :: _ => some []
  | some (c + 1) :: r =>
    match cstr r with
    | none => none
    | some s => some ((c + 1) :: s)

/-- A buffer: where the strings begin, counted from the first character, and the characters. -/
structure Buffer where
  ptrs : List Nat
  chars : Mem
  deriving DecidableEq

/-- The elements of the tensor, as a C program reads them. -/
def Buffer.Reads (b : Buffer) (i : Nat) (s : List Nat) : Prop :=
  ∃ p, b.ptrs[i]? = some p ∧ cstr (b.chars.drop p) = some s

end Verif.StrBuf
