import Mathlib.Data.List.Basic
import Mathlib.Data.Nat.Basic
/-!
# External commands: specification (C123)
-/
namespace Verif.Command

abbrev Str := List Char

/-- How a process ends. -/
inductive End where
  | exited (code : Nat)
  | signalled (signal : Nat) (core : Bool)

/-- Exit codes are bytes, signals are from 1 to 64. -/
def End.Ok : End → Prop
  | .exited c => c < 256
  | .signalled s _ => 1 ≤ s ∧ s ≤ 64

/-- What happens to a program that is asked for: it runs and ends, or it cannot be started. -/
inductive Ran where
  | ended (e : End)
  | notStarted (errno : Nat)

/-- What is asked of the system: the program, its arguments, and the directory it starts in. -/
structure Launch where
  path : Str
  argv : List Str
  dir : Str

/-- Calls on a command before it is executed. -/
inductive Call where
  | str (s : Str)
  | list (l : List Str)
  | reset

/-- The words of a call that are passed on: those that are not empty. -/
def Call.words : Call → List Str
  | .str s => [s].filter (· ≠ [])
  | .list l => l.filter (· ≠ [])
  | .reset => []

def Call.isReset : Call → Bool
  | .reset => true
  | _ => false

/-- The calls after the last reset. -/
def afterReset (h : List Call) : List Call :=
  (h.reverse.takeWhile fun c => !c.isReset).reverse

/-- The part after the last slash. -/
inductive Basename : Str → Str → Prop
  | plain (b : Str) (hb : '/' ∉ b) : Basename b b
  | dir (d b : Str) (hb : '/' ∉ b) : Basename (d ++ '/' :: b) b

/-- The directory that a name means when the current directory is `cwd`: itself when it is
absolute, the current directory when it is empty, else it is below the current directory. -/
inductive Resolves (cwd : Str) : Str → Str → Prop
  | empty : Resolves cwd [] cwd
  | absolute (r : Str) : Resolves cwd ('/' :: r) ('/' :: r)
  | relative (c : Char) (r : Str) (hc : c ≠ '/') (hcwd : cwd.getLast? ≠ some '/') :
      Resolves cwd (c :: r) (cwd ++ '/' :: c :: r)
  | relativeRoot (c : Char) (r : Str) (hc : c ≠ '/') (hcwd : cwd.getLast? = some '/') :
      Resolves cwd (c :: r) (cwd ++ c :: r)

/-- Error codes for programs that cannot be started. -/
def startError (errno : Nat) : Nat :=
  if errno = 2 then 16 else if errno = 13 then 17 else 18

end Verif.Command
