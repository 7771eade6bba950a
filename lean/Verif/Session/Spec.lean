/-!
# Sessions: what a program that loads and runs compiled models may rely on (C109)

The specification of the class `ExecutionSession`: a program makes calls on
sessions, each call is answered, and the process itself (environment, signal
handlers) belongs to the program.  Nothing here mentions how the session keeps
its state.
-/
namespace Verif.Session

/-- Names and paths, as sequences of characters. -/
abbrev Str := List Char

/-- What the function of a compiled model may do when it is called: return a list of outputs,
return the null pointer with an error number, or raise a signal.  This is a parameter of the
model: the code of the compiled model is not part of it. -/
inductive Ran (Out : Type) where
  | list (o : Out)
  | null (errno : Int)
  | raised (signal : Nat)
  deriving DecidableEq

/-- A shared library as the system opened it: its symbols, and the functions at their addresses.
All of it is a parameter. -/
structure Library (In Out : Type) where
  /-- the value of `OM_CONSTANT_PATH` that its constructors saw. -/
  constDir : Option Str
  /-- `dlsym`. -/
  symbol : Str → Option Nat
  /-- the functions with the type of an entry point. -/
  entry : Nat → In → Ran Out
  /-- the functions with the type of `omInputSignature`. -/
  sig : Nat → Str → Str
  /-- the functions with the type of `omCompilationInfo`. -/
  info : Nat → Str

/-- The system: `dlopen` of a path, given `OM_CONSTANT_PATH`, and whether `setjmp`/`longjmp`
save and restore the mask of blocked signals. -/
structure Sys (In Out : Type) where
  dlopen : Str → Option Str → Option (Library In Out)
  savesMask : Bool

/-- The calls of a program. `construct` is the constructor with a path, `create` the default
constructor, `load` the method `loadModel`; the first argument names the session object. -/
inductive Call (In : Type) where
  | construct (i : Nat) (path tag : Str) (defaultEntry : Bool)
  | create (i : Nat)
  | load (i : Nat) (path tag : Str) (defaultEntry : Bool)
  | setEntryPoint (i : Nat) (name : Str)
  | inputSignature (i : Nat)
  | outputSignature (i : Nat)
  | compilationInfo (i : Nat)
  | run (i : Nat) (x : In)
  | runDebug (i : Nat) (x : In) (useSignalHandler : Bool)
  | destroy (i : Nat)

/-- The errors reported with an exception. -/
inductive Err where
  | loadedTwice
  | notLoaded
  | noEntryPoint
  | cannotOpen (path : Str)
  | cannotLoad (symbol : Str)
  | failed (errno : Int)
  | signal (s : Nat)
  deriving DecidableEq

/-- What becomes of a call. -/
inductive Resp (Out : Type) where
  | done
  | text (t : Str)
  | outs (o : Out)
  | throws (e : Err)
  /-- the process is killed by a signal. -/
  | killed (s : Nat)
  /-- a handler of the program is entered. -/
  | foreign (n : Nat)
  /-- undefined behaviour. -/
  | undefined
  /-- not a call: there is no such session, or there is one already. -/
  | misuse
  deriving DecidableEq

/-! ## Names -/

/-- Lower case, in the "C" locale. -/
def lower (s : Str) : Str := s.map Char.toLower

/-- The tag `NONE`, in any case, means no suffix; another tag is appended after an underscore. -/
def suffix (tag : Str) : Str := if lower tag = "none".toList then [] else '_' :: tag

/-- The directory of a path: what precedes its last separator; none without a separator. -/
def IsDir (path : Str) : Option Str → Prop
  | none => ∀ c ∈ path, c ≠ '/' ∧ c ≠ '\\'
  | some d => ∃ sep rest, path = d ++ sep :: rest ∧ (sep = '/' ∨ sep = '\\') ∧
      ∀ c ∈ rest, c ≠ '/' ∧ c ≠ '\\'

/-! ## Sessions -/

/-- A session: not loaded (`attempted`: a load was attempted), or loaded with a library, a suffix
for its symbols, and the name of the entry point chosen last. -/
inductive SpecSess (In Out : Type) where
  | fresh (attempted : Bool)
  | loaded (L : Library In Out) (sfx : Str) (entry : Option Str)

/-- The first of the symbols that the library does not have. -/
def missing {In Out : Type} (L : Library In Out) (names : List Str) : Option Str :=
  names.find? fun n => (L.symbol n).isNone

/-- The symbols that every model must have. -/
def required (sfx : Str) : List Str :=
  ["omQueryEntryPoints".toList ++ sfx, "omInputSignature".toList ++ sfx,
    "omOutputSignature".toList ++ sfx]

/-- The default entry point. -/
def mainEntry (sfx : Str) : Str := "run_main_graph".toList ++ sfx

/-- Choosing an entry point: it must be a symbol of the library.  When it is not, the session is
left without an entry point. -/
def specChoose {In Out : Type} (L : Library In Out) (sfx name : Str) :
    Resp Out × SpecSess In Out :=
  if (L.symbol name).isSome then (.done, .loaded L sfx (some name))
  else (.throws (.cannotLoad name), .loaded L sfx none)

/-- Loading a model: the directory of the constants is what `OM_CONSTANT_PATH` says, or else the
directory of the library. -/
def specLoad {In Out : Type} (sys : Sys In Out) (dir : Str → Option Str) (stem : Str → Str)
    (env : Option Str) (path tag : Str) (defaultEntry : Bool) : Resp Out × SpecSess In Out :=
  let sfx := suffix (if tag = [] then stem path else tag)
  match sys.dlopen path (env.or (dir path)) with
  | none => (.throws (.cannotOpen path), .fresh true)
  | some L =>
    match missing L (required sfx) with
    | some n => (.throws (.cannotLoad n), .fresh true)
    | none =>
      if defaultEntry then
        match (L.symbol (mainEntry sfx)) with
        | none => (.throws (.cannotLoad (mainEntry sfx)), .loaded L sfx none)
        | some _ => (.done, .loaded L sfx (some (mainEntry sfx)))
      else (.done, .loaded L sfx none)

/-- The answer to a run. -/
def specRan {Out : Type} : Ran Out → Resp Out
  | .list o => .outs o
  | .null e => .throws (.failed e)
  | .raised s => .throws (.signal s)

/-- Running a session: the function of the chosen name, on the given inputs. -/
def specRun {In Out : Type} (s : SpecSess In Out) (x : In) : Resp Out :=
  match s with
  | .fresh _ => .throws .notLoaded
  | .loaded _ _ none => .throws .noEntryPoint
  | .loaded L _ (some n) =>
    match L.symbol n with
    | none => .throws .noEntryPoint
    | some f => specRan (L.entry f x)

/-- A signature: what the function of the library says about the entry point of that name. -/
def specSignature {In Out : Type} (s : SpecSess In Out) (which : Str) : Resp Out :=
  match s with
  | .fresh _ => .throws .notLoaded
  | .loaded _ _ none => .throws .noEntryPoint
  | .loaded L sfx (some n) =>
    match L.symbol (which ++ sfx) with
    | none => .misuse
    | some f => .text (L.sig f n)

/-- The information about the compilation, `{}` when the model has none. -/
def specInfo {In Out : Type} (s : SpecSess In Out) : Resp Out :=
  match s with
  | .fresh _ => .throws .notLoaded
  | .loaded L sfx _ =>
    match L.symbol ("omCompilationInfo".toList ++ sfx) with
    | none => .text "{}".toList
    | some f => .text (L.info f)

/-- All sessions of the program. -/
abbrev SpecWorld (In Out : Type) := Nat → Option (SpecSess In Out)

/-- Put a session in its place. -/
def put {α : Type} (w : Nat → Option α) (i : Nat) (s : Option α) : Nat → Option α :=
  fun j => if j = i then s else w j

/-- One call. `env` is `OM_CONSTANT_PATH` as the program set it: no call changes it. -/
def specStep {In Out : Type} (sys : Sys In Out) (dir : Str → Option Str) (stem : Str → Str)
    (env : Option Str) (w : SpecWorld In Out) : Call In → Resp Out × SpecWorld In Out
  | .construct i path tag d =>
    match w i with
    | some _ => (.misuse, w)
    | none =>
      match specLoad sys dir stem env path tag d with
      | (.done, s) => (.done, put w i (some s))
      | (r, _) => (r, w)
  | .create i =>
    match w i with
    | some _ => (.misuse, w)
    | none => (.done, put w i (some (.fresh false)))
  | .load i path tag d =>
    match w i with
    | none => (.misuse, w)
    | some (.loaded _ _ _) => (.throws .loadedTwice, w)
    | some (.fresh _) =>
      ((specLoad sys dir stem env path tag d).1,
        put w i (some (specLoad sys dir stem env path tag d).2))
  | .setEntryPoint i n =>
    match w i with
    | none => (.misuse, w)
    | some (.fresh _) => (.throws .notLoaded, w)
    | some (.loaded L sfx _) =>
      ((specChoose L sfx n).1, put w i (some (specChoose L sfx n).2))
  | .inputSignature i => ((w i).elim .misuse (specSignature · "omInputSignature".toList), w)
  | .outputSignature i => ((w i).elim .misuse (specSignature · "omOutputSignature".toList), w)
  | .compilationInfo i => ((w i).elim .misuse specInfo, w)
  | .run i x => ((w i).elim .misuse (specRun · x), w)
  | .runDebug i x _ => ((w i).elim .misuse (specRun · x), w)
  | .destroy i =>
    match w i with
    | none => (.misuse, w)
    | some _ => (.done, put w i none)

/-- The answers to a history of calls, and the sessions at its end. -/
def specRunAll {In Out : Type} (sys : Sys In Out) (dir : Str → Option Str) (stem : Str → Str)
    (env : Option Str) : SpecWorld In Out → List (Call In) → List (Resp Out) × SpecWorld In Out
  | w, [] => ([], w)
  | w, c :: cs =>
    let r := specStep sys dir stem env w c
    let rest := specRunAll sys dir stem env r.2 cs
    (r.1 :: rest.1, rest.2)

/-! ## The histories for which the code keeps the specification -/

/-- The signals that a run with handlers catches: SIGILL, SIGABRT, SIGBUS, SIGFPE, SIGSEGV. -/
def caught : List Nat := [4, 6, 7, 8, 11]

/-- The call does not meet one of the flaws of the code:
* a load that fails (no library, or a symbol that every model must have is missing) leaves
  `OM_CONSTANT_PATH` set, unless it was set before or the path has no directory;
* a signal is an exception only in a run with handlers, and only if it is one of those caught;
* a session for which no load was ever attempted cannot be destroyed. -/
def Admissible {In Out : Type} (sys : Sys In Out) (dir : Str → Option Str) (stem : Str → Str)
    (env : Option Str) (w : SpecWorld In Out) : Call In → Prop
  | .construct i path tag d | .load i path tag d =>
    (∃ b, (specLoad sys dir stem env path tag d).2 = .fresh b) →
      env.isSome ∨ dir path = none ∨ (∃ L sfx e, w i = some (.loaded L sfx e))
  | .run i x => ∀ s σ, w i = some s → specRun s x ≠ .throws (.signal σ)
  | .runDebug i x h => ∀ s σ, w i = some s → specRun s x = .throws (.signal σ) →
      h = true ∧ σ ∈ caught
  | .destroy i => w i ≠ some (.fresh false)
  | _ => True

/-- Every call of the history is admissible when it is made. -/
def AllAdmissible {In Out : Type} (sys : Sys In Out) (dir : Str → Option Str) (stem : Str → Str)
    (env : Option Str) : SpecWorld In Out → List (Call In) → Prop
  | _, [] => True
  | w, c :: cs => Admissible sys dir stem env w c ∧
      AllAdmissible sys dir stem env (specStep sys dir stem env w c).2 cs

end Verif.Session
