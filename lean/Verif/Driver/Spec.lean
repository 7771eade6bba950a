import Verif.Session.Model
/-!
# The driver: names of files and symbols (C111)

How LLVM's command line library reads the arguments of the compiler, how flags are written, and
which flags are considered.
-/
namespace Verif.Driver
open Verif.Session (Str lower)

/-- The characters of a text. -/
@[irreducible] def lit (s : String) : Str := s.toList

/-! ## Arguments of the compiler -/

/-- An argument: an option with or without a value, or a positional argument. -/
inductive Item where
  | opt (name : Str) (val : Option Str)
  | pos (arg : Str)
  deriving DecidableEq

/-- An option begins with one or two dashes. -/
def strip : Str → Str
  | '-' :: '-' :: s => s
  | '-' :: s => s
  | s => s

/-- The name of the option and its value after an equals sign. -/
def splitEq (s : Str) : Str × Option Str :=
  match s.dropWhile (· ≠ '=') with
  | [] => (s, none)
  | _ :: v => (s.takeWhile (· ≠ '='), some v)

/-- The arguments as LLVM's command line library reads them.  `takes` are the options that need a
value, which is the next argument if there is no equals sign. -/
def parseCl (takes : Str → Bool) : List Str → Option (List Item)
  | [] => some []
  | a :: rest =>
    if a.head? ≠ some '-' ∨ a = ['-'] then (parseCl takes rest).map (Item.pos a :: ·)
    else if a = ['-', '-'] then some (rest.map Item.pos)
    else
      match splitEq (strip a) with
      | (n, some v) => (parseCl takes rest).map (Item.opt n (some v) :: ·)
      | (n, none) =>
        if takes n then
          match rest with
          | [] => none
          | v :: rest' => (parseCl takes rest').map (Item.opt n (some v) :: ·)
        else (parseCl takes rest).map (Item.opt n none :: ·)
  termination_by args => args.length

/-! ## Writing flags -/

/-- A flag in double quotation marks, with a backslash before each quotation mark and each
backslash. -/
def quoted (s : Str) : Str :=
  '"' :: (s.flatMap fun c => if c = '"' ∨ c = '\\' then ['\\', c] else [c]) ++ ['"']

/-- Flags with spaces in between. -/
def written : List Str → Str
  | [] => []
  | [f] => quoted f
  | f :: fs => quoted f ++ ' ' :: written fs

/-! ## Flags -/

/-- The options that say what is generated. -/
def emitNames : List Str :=
  [lit "EmitONNXBasic", lit "EmitONNXIR", lit "EmitMLIR", lit "EmitLLVMIR", lit "EmitObj",
   lit "EmitLib", lit "EmitJNI"]

/-- One or two dashes. -/
def dashes (two : Bool) : Str := if two then ['-', '-'] else ['-']

/-- A flag: the name of the output, in two arguments or in one; what is generated; the tag; another
flag, and another flag with its value in the next argument. -/
inductive Flag where
  | out (v : Str)
  | outEq (v : Str)
  | emit (two : Bool) (name : Str)
  | tag (two : Bool) (v : Str)
  | other (arg : Str)
  | otherVal (arg v : Str)

/-- Its arguments. -/
def Flag.args : Flag → List Str
  | .out v => [lit "-o", v]
  | .outEq v => [lit "-o=" ++ v]
  | .emit two n => [dashes two ++ n]
  | .tag two v => [dashes two ++ lit "tag=" ++ v]
  | .other a => [a]
  | .otherVal a v => [a, v]

/-- The arguments of flags. -/
def args (fs : List Flag) : List Str := fs.flatMap Flag.args

/-- The last component of the path has a character that is no dot. -/
def NamesFile (v : Str) : Prop :=
  ∃ c ∈ (v.reverse.takeWhile (fun c => !(Session.isSep c))), c ≠ '.'

/-- Another option: none of the above. -/
def Other (a : Str) : Prop :=
  a.head? = some '-' ∧ a ≠ ['-'] ∧ a ≠ ['-', '-'] ∧
    ¬ lit "-o" <+: a ∧ ¬ lit "-Emit" <+: a ∧ ¬ lit "--Emit" <+: a ∧
    (splitEq (strip a)).1 ≠ lit "o" ∧ (splitEq (strip a)).1 ≠ lit "tag" ∧
    (splitEq (strip a)).1 ∉ emitNames

/-- The flags considered. -/
def Flag.Ok (takes : Str → Bool) : Flag → Prop
  | .out v => v.head? ≠ some '-' ∧ NamesFile v
  | .outEq v => v ≠ ['-'] ∧ NamesFile v
  | .emit _ n => n ∈ emitNames
  | .tag _ _ => True
  | .other a => Other a ∧ ((splitEq (strip a)).2 ≠ none ∨ takes (splitEq (strip a)).1 = false)
  | .otherVal a v => Other a ∧ (splitEq (strip a)).2 = none ∧
      takes (splitEq (strip a)).1 = true ∧ v.head? ≠ some '-' ∧ v ≠ []

/-- The options that need values: `-o` and `-tag` do, those that say what is generated do not. -/
def TakesOk (takes : Str → Bool) : Prop :=
  takes (lit "o") = true ∧ takes (lit "tag") = true ∧ ∀ n ∈ emitNames, takes n = false

/-- A path seen from the working directory. -/
def resolve (cwd name : Str) : Str :=
  if name.head? = some '/' then name else cwd ++ '/' :: name

/-! ## The directory for the output -/

/-- A name in a directory. -/
def inDir (dir v : Str) : Str :=
  if '/' ∈ v then v else if dir.getLast? = some '/' then dir ++ v else dir ++ '/' :: v

/-- The first name given for the output is put in the directory, unless it has one; `none` when no
name is given. -/
def place (dir : Str) : List Flag → Option (List Flag)
  | [] => none
  | .out v :: fs => some (.out (inDir dir v) :: fs)
  | .outEq v :: fs => some (.outEq (inDir dir v) :: fs)
  | f :: fs => (place dir fs).map (f :: ·)

/-- The options when a directory is given: without a name the output is named after the model,
whose name without directory and extension is `stem`. -/
def placed (dir stem : Str) (fs : List Flag) : List Flag :=
  if dir = [] then fs
  else
    match place dir fs with
    | some fs' => fs'
    | none => fs ++ [.out (inDir dir stem)]

/-! ## The shell -/

/-- Characters without meaning for the shell. -/
def Safe (c : Char) : Prop := c ∉ lit " \t\n'\\$`;&|<>()*?[]#~!{}"

/-- The words of a command without such characters, except for spaces, quotation marks and
backslashes: the shell splits at spaces and takes a character behind a backslash as it is.
(Quotation marks without a backslash are not considered.) -/
def shWords : Str → List Str
  | [] => [[]]
  | ['\\'] => [['\\']]
  | '\\' :: c :: s =>
    match shWords s with
    | [] => [[c]]
    | w :: ws => (c :: w) :: ws
  | c :: s =>
    if c = ' ' then [] :: shWords s
    else
      match shWords s with
      | [] => [[c]]
      | w :: ws => (c :: w) :: ws

end Verif.Driver
