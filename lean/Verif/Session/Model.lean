import Verif.Session.Spec
/-!
# Sessions: the code (C109)

Models `/repo/src/Runtime/ExecutionSession.cpp` (the POSIX branches) and the members declared in
`/repo/src/Runtime/ExecutionSession.hpp`.

Not modelled: Windows, threads (the jump buffer is a static member shared by all sessions), the
printing of instrumentation, the text of the messages, and the cast of `queryEntryPoints`.
`dlopen` is a parameter; opening a library again runs its constructors again in the model, whereas
the system returns the library that is already open.
-/
namespace Verif.Session

/-- The disposition of a signal: default, ignored, a handler of the program, or the handler of the
sessions (`ExecutionSession::signalHandler`, ExecutionSession.cpp:51-55). -/
inductive Handler where
  | dfl
  | ign
  | user (n : Nat)
  | session
  deriving DecidableEq

/-- The parts of the process that a session touches. -/
structure Process where
  handlers : Nat → Handler
  blocked : Nat → Bool
  /-- `OM_CONSTANT_PATH`. -/
  constPath : Option Str
  errno : Int
  /-- number of `dlopen` that succeeded minus number of `dlclose`. -/
  opened : Nat

/-- The member `_sharedLibraryHandle` (ExecutionSession.hpp:156): it has no initialiser, so that
it is garbage until `dlopen` is called. -/
inductive Handle (In Out : Type) where
  | garbage
  | null
  | lib (L : Library In Out)

/-- The members of a session (ExecutionSession.hpp:152-182). -/
structure Sess (In Out : Type) where
  initialized : Bool := false
  handle : Handle In Out := .garbage
  entryName : Str := []
  entryFn : Option Nat := none
  queryFn : Option Nat := none
  inSigFn : Option Nat := none
  outSigFn : Option Nat := none
  infoFn : Option Nat := none

/-! ## Paths -/

/-- `c` is a separator of `find_last_of("/\\")`. -/
def isSep (c : Char) : Bool := c == '/' || c == '\\'

/-- `sharedLibPath.substr(0, sharedLibPath.find_last_of("/\\"))` (ExecutionSession.cpp:83-85);
none when there is no separator. -/
def dirOf (path : Str) : Option Str :=
  match path.reverse.dropWhile (fun c => !isSep c) with
  | [] => none
  | _ :: front => some front.reverse

/-- `path(...).filename()` (POSIX): what follows the last slash. -/
def fileName (path : Str) : Str := (path.reverse.takeWhile (· ≠ '/')).reverse

/-- `replace_extension("")` of a file name: the extension starts at the last dot, unless this is
the first character or the name is `..`. -/
def dropExt (name : Str) : Str :=
  match name.reverse.dropWhile (· ≠ '.') with
  | [] => name
  | _ :: front => if front = [] ∨ name = ['.', '.'] then name else front.reverse

/-- The default tag (ExecutionSession.cpp:95-112): the file name without extension, in lower
case. -/
def stemOf (path : Str) : Str := lower (dropExt (fileName path))

/-- `lowDashTag` (ExecutionSession.cpp:114-128). -/
def lowDash (tag : Str) : Str :=
  if lower tag = "none".toList then [] else '_' :: tag

/-! ## Loading -/

variable {In Out : Type}

/-- `setEntryPoint` (ExecutionSession.cpp:254-270): the pointer is overwritten before it is
tested, the name only afterwards. -/
def setEntryPoint (p : Process) (s : Sess In Out) (name : Str) :
    Resp Out × Process × Sess In Out :=
  if !s.initialized then (.throws .notLoaded, p, s)
  else
    match s.handle with
    | .lib L =>
      match L.symbol name with
      | none => (.throws (.cannotLoad name), p, { s with entryFn := none })
      | some f => (.done, { p with errno := 0 }, { s with entryFn := some f, entryName := name })
    | _ => (.undefined, p, s)

/-- The end of `loadModel` (ExecutionSession.cpp:213-230): the session is initialised,
`OM_CONSTANT_PATH` is removed if it was set here, and the default entry point is chosen. -/
def finishLoad (p : Process) (s : Sess In Out) (setPath : Bool) (sfx : Str) (defaultEntry : Bool) :
    Resp Out × Process × Sess In Out :=
  let s' := { s with initialized := true }
  let p' := if setPath then { p with constPath := none } else p
  if defaultEntry then setEntryPoint p' s' ("run_main_graph".toList ++ sfx)
  else (.done, { p' with errno := 0 }, s')

/-- The symbols of the library (ExecutionSession.cpp:145-211), in the order in which they are
looked up. A missing `omCompilationInfo` is no error. -/
def loadSymbols (p : Process) (s : Sess In Out) (L : Library In Out) (setPath : Bool) (sfx : Str)
    (defaultEntry : Bool) : Resp Out × Process × Sess In Out :=
  match L.symbol ("omQueryEntryPoints".toList ++ sfx) with
  | none => (.throws (.cannotLoad ("omQueryEntryPoints".toList ++ sfx)), p,
      { s with queryFn := none })
  | some q =>
    match L.symbol ("omInputSignature".toList ++ sfx) with
    | none => (.throws (.cannotLoad ("omInputSignature".toList ++ sfx)), p,
        { s with queryFn := some q, inSigFn := none })
    | some a =>
      match L.symbol ("omOutputSignature".toList ++ sfx) with
      | none => (.throws (.cannotLoad ("omOutputSignature".toList ++ sfx)), p,
          { s with queryFn := some q, inSigFn := some a, outSigFn := none })
      | some b =>
        finishLoad p
          { s with queryFn := some q, inSigFn := some a, outSigFn := some b,
                   infoFn := L.symbol ("omCompilationInfo".toList ++ sfx) }
          setPath sfx defaultEntry

/-- The library is opened (ExecutionSession.cpp:130-143), then its symbols are looked up. -/
def openLib (sys : Sys In Out) (p : Process) (s : Sess In Out) (path sfx : Str) (setPath : Bool)
    (defaultEntry : Bool) : Resp Out × Process × Sess In Out :=
  match sys.dlopen path p.constPath with
  | none => (.throws (.cannotOpen path), p, { s with handle := .null })
  | some L =>
    loadSymbols { p with opened := p.opened + 1 } { s with handle := .lib L } L setPath sfx
      defaultEntry

/-- `loadModel` (ExecutionSession.cpp:71-230): `OM_CONSTANT_PATH` is set to the directory of the
library when it is not set, before the library is opened. -/
def loadModel (sys : Sys In Out) (p : Process) (s : Sess In Out) (path tag : Str)
    (defaultEntry : Bool) : Resp Out × Process × Sess In Out :=
  if s.initialized then (.throws .loadedTwice, p, s)
  else
    let setPath := p.constPath.isNone && (dirOf path).isSome
    openLib sys (if setPath then { p with constPath := dirOf path } else p) s path
      (lowDash (if tag = [] then stemOf path else tag)) setPath defaultEntry

/-! ## Queries -/

/-- `inputSignature` (ExecutionSession.cpp:272-282) and `outputSignature` (284-294). -/
def signature (p : Process) (s : Sess In Out) (fn : Option Nat) : Resp Out × Process :=
  if !s.initialized then (.throws .notLoaded, p)
  else
    match s.entryFn with
    | none => (.throws .noEntryPoint, p)
    | some _ =>
      match s.handle, fn with
      | .lib L, some f => (.text (L.sig f s.entryName), { p with errno := 0 })
      | _, _ => (.undefined, p)

/-- `compilationInfo` (ExecutionSession.cpp:296-304). -/
def compilationInfo (p : Process) (s : Sess In Out) : Resp Out × Process :=
  if !s.initialized then (.throws .notLoaded, p)
  else
    match s.infoFn with
    | none => (.text "{}".toList, { p with errno := 0 })
    | some f =>
      match s.handle with
      | .lib L => (.text (L.info f), { p with errno := 0 })
      | _ => (.undefined, p)

/-! ## Signals -/

/-- `sigaction(sig, new, old)`. -/
def sigaction (p : Process) (sig : Nat) (h : Handler) : Process :=
  { p with handlers := fun s => if s = sig then h else p.handlers s }

/-- What a signal raised by the running code does. -/
inductive Delivered where
  | killed
  | foreign (n : Nat)
  | jumps
  deriving DecidableEq

/-- The system delivers a signal raised by an instruction: if it is blocked the process is
killed (`abort` unblocks SIGABRT first), and so it is when it is not handled. -/
def deliver (p : Process) (sig : Nat) : Delivered :=
  if p.blocked sig && sig != 6 then .killed
  else
    match p.handlers sig with
    | .dfl | .ign => .killed
    | .user n => .foreign n
    | .session => .jumps

/-- `runWithoutSignalHandler` (ExecutionSession.cpp:419-429).  If the handler of the sessions is
still installed, it jumps to a function that has returned. -/
def runPlain (p : Process) (r : Ran Out) : Resp Out × Process :=
  match r with
  | .list o => (.outs o, { p with errno := 0 })
  | .null e => (.throws (.failed e), { p with errno := e })
  | .raised sig =>
    match deliver { p with errno := 0 } sig with
    | .killed => (.killed sig, p)
    | .foreign n => (.foreign n, p)
    | .jumps => (.undefined, p)

/-- The handlers that `runWithSignalHandler` saves (ExecutionSession.cpp:438): four variables. -/
structure Saved where
  segv : Handler
  bus : Handler
  fpe : Handler
  ill : Handler

/-- The handlers are installed (ExecutionSession.cpp:441-451); the old ones of SIGILL and SIGABRT
are both written to `oldSigill`. -/
def install (p : Process) : Process × Saved :=
  let p1 := sigaction p 11 .session
  let p2 := sigaction p1 7 .session
  let p3 := sigaction p2 8 .session
  let p4 := sigaction p3 4 .session
  let p5 := sigaction p4 6 .session
  (p5, { segv := p.handlers 11, bus := p1.handlers 7, fpe := p2.handlers 8,
         ill := p4.handlers 6 })

/-- The handlers are restored after the inference (ExecutionSession.cpp:467-472). -/
def restore (p : Process) (o : Saved) : Process :=
  sigaction (sigaction (sigaction (sigaction (sigaction p 11 o.segv) 7 o.bus) 8 o.fpe) 4 o.ill)
    6 o.ill

/-- The handlers are restored after a signal (ExecutionSession.cpp:481-485). -/
def restoreSignal (p : Process) (o : Saved) : Process :=
  sigaction (sigaction (sigaction (sigaction p 11 o.segv) 7 o.bus) 8 o.fpe) 4 o.ill

/-- `runWithSignalHandler` (ExecutionSession.cpp:432-491).  A signal is blocked while its handler
runs, and the handler leaves with `longjmp`: it stays blocked unless the mask is saved. -/
def runGuarded (sys : Sys In Out) (p : Process) (r : Ran Out) : Resp Out × Process :=
  let p1 := (install p).1
  let old := (install p).2
  match r with
  | .list o => (.outs o, { restore p1 old with errno := 0 })
  | .null e => (.throws (.failed e), { restore p1 old with errno := e })
  | .raised sig =>
    match deliver { p1 with errno := 0 } sig with
    | .killed => (.killed sig, p1)
    | .foreign n => (.foreign n, p1)
    | .jumps =>
      let p2 := if sys.savesMask then p1
        else { p1 with blocked := fun s => if s = sig then true else p1.blocked s }
      (.throws (.signal sig), { restoreSignal p2 old with errno := sig })

/-- `runImplementation` (ExecutionSession.cpp:387-414). -/
def runImpl (sys : Sys In Out) (p : Process) (s : Sess In Out) (x : In) (useHandler : Bool) :
    Resp Out × Process :=
  if !s.initialized then (.throws .notLoaded, p)
  else
    match s.entryFn with
    | none => (.throws .noEntryPoint, p)
    | some f =>
      match s.handle with
      | .lib L =>
        if useHandler then runGuarded sys p (L.entry f x) else runPlain p (L.entry f x)
      | _ => (.undefined, p)

/-- The destructor (ExecutionSession.cpp:232-240). -/
def destroy (p : Process) (s : Sess In Out) : Resp Out × Process :=
  match s.handle with
  | .garbage => (.undefined, p)
  | .null => (.done, p)
  | .lib _ => (.done, { p with opened := p.opened - 1 })

/-! ## Programs -/

/-- The process and the sessions of the program. -/
structure World (In Out : Type) where
  proc : Process
  sess : Nat → Option (Sess In Out)

/-- One call of the program.  A constructor that throws leaves no object behind, so that no
destructor runs. -/
def step (sys : Sys In Out) (w : World In Out) : Call In → Resp Out × World In Out
  | .construct i path tag d =>
    match w.sess i with
    | some _ => (.misuse, w)
    | none =>
      match loadModel sys w.proc {} path tag d with
      | (.done, p, s) => (.done, ⟨p, put w.sess i (some s)⟩)
      | (r, p, _) => (r, ⟨p, w.sess⟩)
  | .create i =>
    match w.sess i with
    | some _ => (.misuse, w)
    | none => (.done, ⟨w.proc, put w.sess i (some {})⟩)
  | .load i path tag d =>
    match w.sess i with
    | none => (.misuse, w)
    | some s =>
      let r := loadModel sys w.proc s path tag d
      (r.1, ⟨r.2.1, put w.sess i (some r.2.2)⟩)
  | .setEntryPoint i n =>
    match w.sess i with
    | none => (.misuse, w)
    | some s =>
      let r := setEntryPoint w.proc s n
      (r.1, ⟨r.2.1, put w.sess i (some r.2.2)⟩)
  | .inputSignature i =>
    match w.sess i with
    | none => (.misuse, w)
    | some s => ((signature w.proc s s.inSigFn).1, ⟨(signature w.proc s s.inSigFn).2, w.sess⟩)
  | .outputSignature i =>
    match w.sess i with
    | none => (.misuse, w)
    | some s => ((signature w.proc s s.outSigFn).1, ⟨(signature w.proc s s.outSigFn).2, w.sess⟩)
  | .compilationInfo i =>
    match w.sess i with
    | none => (.misuse, w)
    | some s => ((compilationInfo w.proc s).1, ⟨(compilationInfo w.proc s).2, w.sess⟩)
  | .run i x =>
    match w.sess i with
    | none => (.misuse, w)
    | some s => ((runImpl sys w.proc s x false).1, ⟨(runImpl sys w.proc s x false).2, w.sess⟩)
  | .runDebug i x h =>
    match w.sess i with
    | none => (.misuse, w)
    | some s => ((runImpl sys w.proc s x h).1, ⟨(runImpl sys w.proc s x h).2, w.sess⟩)
  | .destroy i =>
    match w.sess i with
    | none => (.misuse, w)
    | some s => ((destroy w.proc s).1, ⟨(destroy w.proc s).2, put w.sess i none⟩)

/-- A history of calls. -/
def runAll (sys : Sys In Out) : World In Out → List (Call In) → List (Resp Out) × World In Out
  | w, [] => ([], w)
  | w, c :: cs =>
    let r := step sys w c
    let rest := runAll sys r.2 cs
    (r.1 :: rest.1, rest.2)

end Verif.Session
