/-!
# Signatures: the text that describes a model (C110)

The functions `omInputSignature` and `omOutputSignature` of a compiled model return the
description of an entry point as JSON text.  This file says what that text is.
-/
namespace Verif.Signature

abbrev Str := List Char

/-- The characters of a text. -/
@[irreducible] def lit (s : String) : Str := s.toList

/-- The character that ends a C string. -/
def nul : Char := Char.ofNat 0

/-- The types of inputs and outputs: tensors, of numbers (the name of the element type) or of
strings, and sequences.  A dimension of unknown size is `-1`. -/
inductive Ty where
  | tensor (elem : Str) (dims : List Int)
  | strings (dims : List Int)
  | seq (t : Ty)

/-- A digit. -/
def digit (n : Nat) : Char := Char.ofNat (48 + n % 10)

/-- The decimal digits of a number. -/
def natText : Nat → Nat → Str
  | 0, _ => []
  | fuel + 1, n => if n < 10 then [digit n] else natText fuel (n / 10) ++ [digit n]

/-- A number in decimal. -/
def decimal (d : Int) : Str :=
  if d < 0 then '-' :: natText (d.natAbs + 1) d.natAbs else natText (d.natAbs + 1) d.natAbs

/-- Texts with a separator in between. -/
def sepBy (sep : Str) : List Str → Str
  | [] => []
  | [x] => x
  | x :: xs => x ++ sep ++ sepBy sep xs

/-- A JSON string (of a text without characters that must be escaped). -/
def jsonString (s : Str) : Str := '"' :: s ++ ['"']

/-- The JSON object for a tensor; `ty` is the text of its element type. -/
def tensorText (ty : Str) (dims : List Int) (name : Str) : Str :=
  lit "   { \"type\" : " ++ ty ++ lit " , \"dims\" : [" ++
    sepBy (lit " , ") (dims.map decimal) ++ lit "] , \"name\" : " ++ jsonString name ++
    lit " }\n"

/-- The JSON object for an input or output. -/
def objectText (name : Str) : Ty → Str
  | .tensor elem dims => tensorText (jsonString elem) dims name
  | .strings dims => tensorText (jsonString (lit "string")) dims name
  | .seq t => lit "   {\"seq\" : " ++ objectText name t ++ lit " }\n"

/-- The JSON array for the inputs. -/
def inputText (xs : List (Ty × Str)) : Str :=
  lit "[ " ++ sepBy (lit " , ") (xs.map fun x => objectText x.2 x.1) ++ lit "\n]"

/-- The JSON array for the outputs. -/
def outputText (xs : List (Ty × Str)) : Str :=
  lit "[" ++ sepBy (lit " , ") (xs.map fun x => objectText x.2 x.1) ++ lit "\n]"

/-- The element types that have a description. -/
def elemTypes : List Str :=
  ["f16", "f32", "f64", "i1", "i16", "i32", "i64", "i8", "ui16", "ui32", "ui64", "ui8"].map
    lit

/-- The element types of the type are among these. -/
def Ty.Known : Ty → Prop
  | .tensor elem _ => elem ∈ elemTypes
  | .strings _ => True
  | .seq t => t.Known

/-- The words of a text: the parts between spaces. -/
def words : Str → List Str
  | [] => [[]]
  | c :: s =>
    if c = ' ' then [] :: words s
    else
      match words s with
      | [] => [[c]]
      | w :: ws => (c :: w) :: ws

/-- A name that does not disturb the description: it contains no at sign and no end of string,
and none of its words is the name of an element type. -/
def PlainName (n : Str) : Prop :=
  '@' ∉ n ∧ nul ∉ n ∧ ∀ w ∈ words (jsonString n), w ∉ elemTypes

/-- A function of the model that is an entry point. -/
structure Entry where
  func : Str
  inputs : List (Ty × Str)
  outputs : List (Ty × Str)

/-- The description is possible. -/
def Entry.Plain (e : Entry) : Prop :=
  nul ∉ e.func ∧ (∀ x ∈ e.inputs, x.1.Known ∧ PlainName x.2) ∧
    ∀ x ∈ e.outputs, x.1.Known ∧ PlainName x.2

/-- The names under which the entry points of a model can be called. `pfx` is the tag of the
model with its underscore, or nothing.  The only entry point of a model is `run_main_graph`, with
and without the tag. -/
def entryNames (pfx : Str) : List Entry → List (Str × Entry)
  | [e] =>
    if pfx = [] then [(lit "run_main_graph", e)]
    else [(lit "run_main_graph", e), (lit "run_main_graph" ++ pfx, e)]
  | es => es.map fun e => (lit "run_" ++ e.func, e)

/-! ## JSON

The grammar of JSON texts (RFC 8259), as far as it is used: numbers are integers, strings have no
escapes. -/

/-- A JSON value. -/
inductive Json where
  | num (d : Int)
  | str (s : Str)
  | arr (vs : List Json)
  | obj (ms : List (Str × Json))

/-- White space between tokens. -/
def IsSpace (s : Str) : Prop := ∀ c ∈ s, c = ' ' ∨ c = '\n' ∨ c = '\t' ∨ c = '\r'

/-- Characters that may stand in a JSON string for themselves. -/
def PlainChars (s : Str) : Prop := ∀ c ∈ s, c ≠ '"' ∧ c ≠ '\\' ∧ 32 ≤ c.toNat

mutual
/-- `s` is a JSON text of the value. -/
inductive JText : Json → Str → Prop where
  | num (d : Int) : JText (.num d) (decimal d)
  | str {s : Str} : PlainChars s → JText (.str s) (jsonString s)
  | arrNil {w : Str} : IsSpace w → JText (.arr []) ('[' :: w ++ [']'])
  | arr {vs : List Json} {s : Str} : JItems vs s → JText (.arr vs) ('[' :: s ++ [']'])
  | objNil {w : Str} : IsSpace w → JText (.obj []) ('{' :: w ++ ['}'])
  | obj {ms : List (Str × Json)} {s : Str} : JMembers ms s → JText (.obj ms) ('{' :: s ++ ['}'])
  | space {v : Json} {a s b : Str} : IsSpace a → IsSpace b → JText v s → JText v (a ++ s ++ b)
/-- `s` is a sequence of texts of the values, with commas in between. -/
inductive JItems : List Json → Str → Prop where
  | one {v : Json} {s : Str} : JText v s → JItems [v] s
  | more {v : Json} {s : Str} {vs : List Json} {t : Str} : JText v s → JItems vs t →
      JItems (v :: vs) (s ++ ',' :: t)
/-- `s` is a sequence of members of an object, with commas in between. -/
inductive JMembers : List (Str × Json) → Str → Prop where
  | one {k : Str} {v : Json} {s t : Str} : JText (.str k) s → JText v t →
      JMembers [(k, v)] (s ++ ':' :: t)
  | more {k : Str} {v : Json} {s t u : Str} {ms : List (Str × Json)} : JText (.str k) s →
      JText v t → JMembers ms u → JMembers ((k, v) :: ms) (s ++ ':' :: t ++ ',' :: u)
end

/-- The value that describes a tensor. -/
def tensorJson (elem : Str) (dims : List Int) (name : Str) : Json :=
  .obj [(lit "type", .str elem), (lit "dims", .arr (dims.map Json.num)), (lit "name", .str name)]

/-- The value that describes an input or output. -/
def objectJson (name : Str) : Ty → Json
  | .tensor elem dims => tensorJson elem dims name
  | .strings dims => tensorJson (lit "string") dims name
  | .seq t => .obj [(lit "seq", objectJson name t)]

/-- The value that describes the inputs, or the outputs. -/
def listJson (xs : List (Ty × Str)) : Json := .arr (xs.map fun x => objectJson x.2 x.1)

end Verif.Signature
