import Verif.OptRegex.Model

/-!
# Options that select operations by name (specification)
-/

namespace Verif.OptRegex

/-! ## Patterns as the header documents them -/

/-- A pattern fits a name: a star stands for any sequence, every other character for itself. -/
inductive Glob : Str → Str → Prop
  | nil : Glob [] []
  | char {c p n} : c ≠ '*' → Glob p n → Glob (c :: p) (c :: n)
  | starEnd {p n} : Glob p n → Glob ('*' :: p) n
  | starMore {c p n} : Glob ('*' :: p) n → Glob ('*' :: p) (c :: n)

/-- Patterns are separated by commas and spaces. -/
def isSep (c : Char) : Bool := c = ',' || isSpace c

/-- `p` is one of the patterns of the option `s`: a stretch without separators, which is not empty and cannot be extended. -/
def IsPattern (s p : Str) : Prop :=
  ∃ a b, s = a ++ p ++ b ∧ p ≠ [] ∧ (∀ c ∈ p, isSep c = false) ∧
    (a = [] ∨ ∃ a' c, a = a' ++ [c] ∧ isSep c = true) ∧ (b = [] ∨ ∃ c b', b = c :: b' ∧ isSep c = true)

/-! ## A part of the regular expressions of the library -/

/-- The characters that mean something in regular expressions. -/
def special : Str := "\\^$.|?*+()[]{}".toList

/-- Single characters of an expression. -/
inductive Cls
  | any
  | lit (c : Char)

/-- The characters that it fits. -/
def Cls.Fits : Cls → Char → Prop
  | .any, c => c ≠ '\n' ∧ c ≠ '\r'
  | .lit d, c => c = d

/-- The tokens of an expression. -/
inductive Tok
  | cls (k : Cls)
  | star

/-- Adds a token. -/
def push (t : Tok) : Option (List Tok) → Option (List Tok)
  | none => none
  | some ts => some (t :: ts)

/-- Expressions of characters, escaped punctuation, points and stars; none for others. -/
def tokens : Str → Option (List Tok)
  | [] => some []
  | ['\\'] => none
  | '\\' :: d :: s => if d.isAlphanum then none else push (.cls (.lit d)) (tokens s)
  | '.' :: s => push (.cls .any) (tokens s)
  | '*' :: s => push .star (tokens s)
  | c :: s => if c ∈ special then none else push (.cls (.lit c)) (tokens s)

/-- An expression fits a name. A star repeats what it follows; an expression that does not have this form fits nothing here. -/
inductive Fit : List Tok → Str → Prop
  | nil : Fit [] []
  | one {k r c n} : (∀ r', r ≠ .star :: r') → k.Fits c → Fit r n → Fit (.cls k :: r) (c :: n)
  | stop {k r n} : Fit r n → Fit (.cls k :: .star :: r) n
  | more {k r c n} : k.Fits c → Fit (.cls k :: .star :: r) n → Fit (.cls k :: .star :: r) (c :: n)

/-- Stars follow characters only. -/
def Valid : List Tok → Prop
  | [] => True
  | .star :: _ => False
  | .cls _ :: .star :: r => Valid r
  | .cls _ :: r => Valid r

/-- What is assumed of the library: on these expressions it does not throw, and says whether the whole name fits. -/
def RxOk (rx : Str → Str → Option Bool) : Prop :=
  ∀ e ts, tokens e = some ts → Valid ts → ∀ n, (rx e n).isSome ∧ (rx e n = some true ↔ Fit ts n)

/-! ## Options -/

/-- Options of simple patterns: no character of regular expressions other than point and star, and no point before a star. -/
def Simple (s : Str) : Prop := (∀ c ∈ s, c ∈ special → c = '.' ∨ c = '*') ∧ ¬ ['.', '*'] <:+: s

/-- Options that are taken as regular expressions. -/
def AsRegex (s : Str) : Prop := ['.', '*'] <:+: s ∨ ['\\', '.'] <:+: s ∨ '^' ∈ s ∨ '$' ∈ s ∨ '[' ∈ s ∨ '+' ∈ s ∨ '?' ∈ s

/-- Names in one line. -/
def OneLine (n : Str) : Prop := '\n' ∉ n ∧ '\r' ∉ n

/-- Options without the special values. -/
def Listed (s : Str) : Prop := s ≠ [] ∧ ¬ "NONE".toList <:+: s ∧ ¬ "ALL".toList <:+: s

end Verif.OptRegex
