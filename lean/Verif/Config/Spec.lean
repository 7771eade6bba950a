import Mathlib.Data.List.Basic
/-!
# Configuration files: specification (C122)
-/
namespace Verif.Config

abbrev Str := List Char

/-- A JSON value; numbers, booleans and null are not told apart. -/
inductive Json where
  | str (s : Str)
  | arr (l : List Json)
  | obj (l : List (Str × Json))
  | other

/-- What is found at a path. -/
inductive File where
  | missing
  | unreadable
  | text (s : Str)

/-- The part of a command line that a user writes as one unit. -/
inductive Item where
  /-- An option in one word other than `--config-file`. -/
  | flag (s : Str)
  /-- A name of a file, or the value of the option before it. -/
  | word (s : Str)
  /-- `--config-file=v`, or with one dash. -/
  | joined (twoDashes : Bool) (v : Str)
  /-- `--config-file v`, or with one dash. -/
  | separate (twoDashes : Bool) (v : Str)

/-- `--config-file` or `-config-file`. -/
def optionName : Bool → Str
  | true => ['-', '-', 'c', 'o', 'n', 'f', 'i', 'g', '-', 'f', 'i', 'l', 'e']
  | false => ['-', 'c', 'o', 'n', 'f', 'i', 'g', '-', 'f', 'i', 'l', 'e']

/-- The words that the shell passes. -/
def Item.words : Item → List Str
  | .flag s => [s]
  | .word s => [s]
  | .joined d v => [optionName d ++ '=' :: v]
  | .separate d v => [optionName d, v]

/-- Items are what they say: a flag is a dash and something that does not begin like
`config-file`, a word does not begin with a dash (it may be a dash alone), and the value of
`--config-file v` is not empty. -/
def Item.Ok : Item → Prop
  | .flag s => (∃ c r, s = '-' :: c :: r) ∧ ∀ d, ¬ optionName d <+: s
  | .word s => s ≠ [] ∧ ∀ c r, s ≠ '-' :: c :: r
  | .joined _ _ => True
  | .separate _ v => v ≠ []

/-- The configuration file that an item names. -/
def Item.config? : Item → Option Str
  | .joined _ v => some v
  | .separate _ v => some v
  | _ => none

/-- The item is one word that begins with a dash. -/
def Item.oneWordOption : Item → Prop
  | .flag _ => True
  | .joined _ _ => True
  | _ => False

def omconfig : Str := ['o', 'm', 'c', 'o', 'n', 'f', 'i', 'g', '.', 'j', 's', 'o', 'n']

/-- The second path is that of `omconfig.json` in the directory of the first. -/
inductive Beside : Str → Str → Prop
  | here (b : Str) (hb : '/' ∉ b) : Beside b omconfig
  | root (n : Nat) (b : Str) (hb : '/' ∉ b) :
      Beside (List.replicate (n + 1) '/' ++ b) ('/' :: omconfig)
  | dir (d : Str) (c : Char) (hc : c ≠ '/') (n : Nat) (b : Str) (hb : '/' ∉ b) :
      Beside (d ++ [c] ++ List.replicate (n + 1) '/' ++ b) (d ++ [c] ++ '/' :: omconfig)

def compileOptions : Str :=
  ['c', 'o', 'm', 'p', 'i', 'l', 'e', '_', 'o', 'p', 't', 'i', 'o', 'n', 's']

/-- The strings in a list of values. -/
def strings (l : List Json) : List Str :=
  l.filterMap fun v => match v with
    | .str s => some s
    | _ => none

/-- An object gives options: those of the array under `compile_options`, none without array. -/
def optionsOf (o : List (Str × Json)) : List Str :=
  match o.lookup compileOptions with
  | some (.arr l) => strings l
  | _ => []

/-- The contents of a good file: text that is a JSON object. -/
def goodFile (parse : Str → Option Json) (f : File) : Option (List (Str × Json)) :=
  match f with
  | .text s =>
    match parse s with
    | some (.obj o) => some o
    | _ => none
  | _ => none

/-- The value that an option has on a command line: that of its last occurrence. `m` says which
words are occurrences of the option, and with which value. -/
def optValue {β : Type} (m : Str → Option β) (args : List Str) : Option β :=
  (args.filterMap m).getLast?

end Verif.Config
