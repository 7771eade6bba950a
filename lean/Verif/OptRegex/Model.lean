import Mathlib.Data.List.Infix

/-!
# Options that select operations by name (model)

Source: /repo/src/Compiler/OptionUtils.cpp 30-105 and OptionUtils.hpp 28-64.

Simplified: strings are lists of characters; the set of regular expressions is a list in any order, with duplicates; the function
`rx` is the library's `std::regex_match`, none is an exception for an expression that is not valid.
-/

namespace Verif.OptRegex

/-- Strings. -/
abbrev Str := List Char

/-- `std::isspace` in the C locale. -/
def isSpace (c : Char) : Bool := c.toNat == 32 || (9 ≤ c.toNat && c.toNat ≤ 13)

/-- The object, OptionUtils.hpp 57-62. -/
structure Opt where
  allEnabled : Bool
  allDisabled : Bool
  regexes : List Str
  cache : List (Str × Bool)

/-- A word that has been read, unless it is empty. -/
def flush (acc : Str) : List Str := if acc = [] then [] else [acc]

/-- The words that `std::istream_iterator<std::string>` extracts, OptionUtils.cpp 75-79; `acc` has been read of the first. -/
def words : Str → Str → List Str
  | [], acc => flush acc
  | c :: s, acc => if isSpace c then flush acc ++ words s [] else words s (acc ++ [c])

/-- Whether the string has a regular expression, OptionUtils.cpp 59-65. -/
def hasRegex (s : Str) : Bool :=
  decide (['.', '*'] <:+: s) || decide (['\\', '.'] <:+: s) || s.contains '^' || s.contains '$' || s.contains '[' ||
    s.contains '+' || s.contains '?'

/-- What is put in the place of a character, OptionUtils.cpp 70-72: a backslash before a point, a point before a star. -/
def subst (c : Char) : Str :=
  if c = '.' then ['\\', '.'] else if c = '*' then ['.', '*'] else [c]

/-- The comma becomes a space, OptionUtils.cpp 54. -/
def comma (c : Char) : Char := if c = ',' then ' ' else c

/-- The expressions of a string, OptionUtils.cpp 54-79. -/
def expressions (s : Str) : List Str :=
  let t := s.map comma
  words (if hasRegex t then t else t.flatMap subst) []

/-- `setRegexString` on a new object, OptionUtils.cpp 36-80; none is the assertion. -/
def setRegex (emptyIsNone : Bool) (s : Str) : Option Opt :=
  let dis := if s = [] then emptyIsNone else decide ("NONE".toList <:+: s)
  let en := if s = [] then !emptyIsNone else decide ("ALL".toList <:+: s)
  if dis && en then none
  else if dis || en then some ⟨en, dis, [], []⟩
  else some ⟨false, false, expressions s, []⟩

/-- The loop over the expressions, OptionUtils.cpp 94-101; none is an exception. -/
def search (rx : Str → Str → Option Bool) (name : Str) : List Str → Option Bool
  | [] => some false
  | e :: es =>
    match rx e name with
    | none => none
    | some true => some true
    | some false => search rx name es

/-- `std::map::find`. -/
def find (name : Str) : List (Str × Bool) → Option Bool
  | [] => none
  | (k, v) :: c => if k = name then some v else find name c

/-- `isEnabled`, OptionUtils.cpp 82-104: the answer and the object afterwards. -/
def isEnabled (rx : Str → Str → Option Bool) (o : Opt) (name : Str) : Option (Bool × Opt) :=
  if o.allEnabled then some (true, o)
  else if o.allDisabled then some (false, o)
  else match find name o.cache with
    | some b => some (b, o)
    | none =>
      match search rx name o.regexes with
      | none => none
      | some b => some (b, ⟨o.allEnabled, o.allDisabled, o.regexes, (name, b) :: o.cache⟩)

/-- The answers to a sequence of questions. -/
def answers (rx : Str → Str → Option Bool) : Opt → List Str → Option (List Bool)
  | _, [] => some []
  | o, n :: ns =>
    match isEnabled rx o n with
    | none => none
    | some (b, o') =>
      match answers rx o' ns with
      | none => none
      | some bs => some (b :: bs)

/-- What the compiler does with an option and a sequence of names; none is an assertion or an exception. -/
def ask (rx : Str → Str → Option Bool) (emptyIsNone : Bool) (s : Str) (names : List Str) : Option (List Bool) :=
  match setRegex emptyIsNone s with
  | none => none
  | some o => answers rx o names

end Verif.OptRegex
