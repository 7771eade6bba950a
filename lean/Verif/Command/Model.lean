import Verif.Command.Spec
/-!
# External commands: the code (C123)

Models the POSIX branches of `/repo/src/Compiler/Command.cpp`, and
`getAbsolutePathUsingCurrentDir` of `/repo/src/Compiler/CommandUtils.cpp`.

The system is a parameter. Not modelled: Windows, printing, the redirection of the output, and
strings with null characters.
-/
namespace Verif.Command

/-- What the system does during one execution. -/
structure World where
  /-- `fs::current_path()`; none when it throws. -/
  cwd : Option Str
  /-- Whether the process can change to a directory at the beginning. -/
  canEnter : Str → Bool
  /-- Whether it can change to a directory after the command. -/
  canRestore : Str → Bool
  forkOk : Bool
  run : Launch → Ran
  /-- `waitpid` is interrupted by a signal that has a handler. -/
  interrupted : Bool

/-- The exceptions. -/
inductive Exn where
  | fileSystem
  | cannotEnter
  | forkFailed
  | cannotRestore
  | signal (s : Nat) (core : Bool)
  | stopped (s : Nat)
  | unknown

/-- What the caller of `exec` sees; `undefined` when a variable is read that was never set. -/
inductive Outcome where
  | returns (n : Nat)
  | throws (e : Exn)
  | undefined

/-- The members of `Command`. -/
structure Cmd where
  path : Str
  args : List Str

def notSlash (c : Char) : Bool := c != '/'

/-- `fs::path(path).filename()` (Command.cpp:41-43). -/
def getBasename (path : Str) : Str := (path.reverse.takeWhile notSlash).reverse

/-- The constructor (Command.cpp:30-38); none when it throws. -/
def mkCommand (path : Str) : Option Cmd :=
  if path.isEmpty then none else some { path := path, args := [getBasename path] }

/-- `Command::appendStr` (Command.cpp:76-81). -/
def appendStr (c : Cmd) (s : Str) : Cmd :=
  if s.isEmpty then c else { c with args := c.args ++ [s] }

/-- `Command::appendList` (Command.cpp:84-91). -/
def appendList (c : Cmd) : List Str → Cmd
  | [] => c
  | s :: l => appendList (if s.isEmpty then c else { c with args := c.args ++ [s] }) l

/-- `Command::resetArgs` (Command.cpp:94-102). The case without arguments, in which it throws, is
not reachable; the command is left as it is. -/
def resetArgs (c : Cmd) : Cmd :=
  match c.args with
  | [] => c
  | a :: _ => { c with args := [a] }

/-- One call. -/
def call (c : Cmd) : Call → Cmd
  | .str s => appendStr c s
  | .list l => appendList c l
  | .reset => resetArgs c

/-- `getAbsolutePathUsingCurrentDir` (CommandUtils.cpp:130-140). `operator/` adds a separator
unless there is one at the end. -/
def absolute (cwd name : Str) : Str :=
  match name with
  | [] => []
  | '/' :: r => '/' :: r
  | c :: r => if cwd.getLast? = some '/' then cwd ++ c :: r else cwd ++ '/' :: c :: r

/-- The status that the kernel gives to `waitpid` (bits of `wait(2)` on Linux). -/
def waitStatus : End → Nat
  | .exited c => c * 256
  | .signalled s core => s + (if core then 128 else 0)

/-- The end of the child (Command.cpp:227-257): `execvp`, or `exit` with an error code. -/
def childEnd (r : Ran) : End :=
  match r with
  | .ended e => e
  | .notStarted errno =>
    if errno = 2 then .exited 16 else if errno = 13 then .exited 17 else .exited 18

/-- `WIFEXITED`: `(status & 0x7f) == 0`. -/
def wifexited (st : Nat) : Bool := st % 128 == 0
/-- `WEXITSTATUS`: `(status & 0xff00) >> 8`. -/
def wexitstatus (st : Nat) : Nat := st / 256 % 256
/-- `WIFSIGNALED`: `((signed char) ((status & 0x7f) + 1) >> 1) > 0`. -/
def wifsignaled (st : Nat) : Bool :=
  let v := st % 128 + 1
  if v < 128 then decide (0 < v / 2) else false
/-- `WTERMSIG`: `status & 0x7f`. -/
def wtermsig (st : Nat) : Nat := st % 128
/-- `WCOREDUMP`: `status & 0x80`. -/
def wcoredump (st : Nat) : Bool := st / 128 % 2 == 1
/-- `WIFSTOPPED`: `(status & 0xff) == 0x7f`. -/
def wifstopped (st : Nat) : Bool := st % 256 == 127

/-- The tests of the status (Command.cpp:272-324). -/
def decode (st : Nat) : Outcome :=
  if wifexited st then .returns (wexitstatus st)
  else if wifsignaled st then .throws (.signal (wtermsig st) (wcoredump st))
  else if wifstopped st then .throws (.stopped (wexitstatus st))
  else .throws .unknown

/-- After the child has ended (Command.cpp:259-324). -/
def finish (w : World) (requested : Bool) (cur new : Str) (c : Cmd) : Outcome × Str :=
  let e := childEnd (w.run { path := c.path, argv := c.args, dir := new })
  if requested && !w.canRestore cur then (.throws .cannotRestore, new)
  else (if w.interrupted then .undefined else decode (waitStatus e), cur)

/-- `fork` (Command.cpp:221-226). -/
def forked (w : World) (requested : Bool) (cur new : Str) (c : Cmd) : Outcome × Str :=
  if w.forkOk then finish w requested cur new c
  else if requested then
    (if w.canRestore cur then (.throws .forkFailed, cur) else (.throws .fileSystem, new))
  else (.throws .forkFailed, cur)

/-- `Command::exec` (Command.cpp:122-326): what the caller sees, and the current directory after
it. -/
def exec (w : World) (c : Cmd) (wdir : Str) : Outcome × Option Str :=
  match w.cwd with
  | none => (.throws .fileSystem, none)
  | some cur =>
    let requested := !wdir.isEmpty
    let new := if requested then absolute cur wdir else cur
    if requested && !w.canEnter new then (.throws .cannotEnter, some cur)
    else
      let r := forked w requested cur new c
      (r.1, some r.2)

end Verif.Command
