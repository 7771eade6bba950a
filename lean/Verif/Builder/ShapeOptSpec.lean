import Verif.Builder.ShapeOptModel

/-!
What the options for the inputs of a model mean, and how they are written (`--shapeInformation` and `--dimParams` as documented in
/repo/src/Compiler/CompilerOptions.cpp 426-454, `IMPORTER_FORCE_DYNAMIC` as documented in
/repo/src/Builder/ModelInputShaper.hpp 22-58).
-/

namespace Verif.Builder

/-- Parts with a separator between them. -/
def joinWith (sep : Char) : List (List Char) → List Char
  | [] => []
  | [s] => s
  | s :: t :: rest => s ++ sep :: joinWith sep (t :: rest)

/-- A number in decimal digits. -/
def num (n : ℕ) : List Char := Nat.toDigits 10 n

/-- The inputs an entry is for. -/
inductive Sel where
  | all
  | one (k : ℕ)
  | range (a b : ℕ)

/-- Is input `k` named by the entry? -/
def Sel.names : Sel → ℕ → Bool
  | .all, _ => false
  | .one j, k => j = k
  | .range a b, k => a ≤ k ∧ k ≤ b

def Sel.isAll : Sel → Bool
  | .all => true
  | _ => false

def Sel.text : Sel → List Char
  | .all => ['-', '1']
  | .one k => num k
  | .range a b => num a ++ '-' :: num b

/-- The numbers are values of `int`. -/
def Sel.Small : Sel → Prop
  | .all => True
  | .one k => k < 2147483648
  | .range a b => a < 2147483648 ∧ b < 2147483648

/-- One entry of `--shapeInformation`: inputs and dimensions, `none` for an unknown one. -/
structure ShapeEntry where
  sel : Sel
  dims : List (Option ℕ)

def dimText : Option ℕ → List Char
  | none => ['-', '1']
  | some d => num d

def ShapeEntry.text (e : ShapeEntry) : List Char := e.sel.text ++ ':' :: joinWith 'x' (e.dims.map dimText)

def ShapeEntry.Ok (e : ShapeEntry) : Prop := e.sel.Small ∧ ∀ d, some d ∈ e.dims → 0 < d ∧ d < 2147483648

/-- The text of the option. -/
def shapeText (es : List ShapeEntry) : List Char := joinWith ',' (es.map ShapeEntry.text)

/-- The dimensions the option gives for an input: the first entry that names it, else the first one for all inputs. -/
def chosenShape (es : List ShapeEntry) (k : ℕ) : Option (List (Option ℕ)) :=
  match es.find? fun e => e.sel.names k with
  | some e => some e.dims
  | none => (es.find? fun e => e.sel.isAll).map (·.dims)

/-- One entry of `IMPORTER_FORCE_DYNAMIC`: input and dimensions, `none` for all. -/
structure ForceEntry where
  input : Option ℕ
  dims : List (Option ℕ)

def indexText : Option ℕ → List Char
  | none => ['-', '1']
  | some d => num d

def ForceEntry.text (e : ForceEntry) : List Char := indexText e.input ++ ':' :: joinWith ',' (e.dims.map indexText)

def ForceEntry.Ok (e : ForceEntry) : Prop := (∀ k, e.input = some k → k < 2147483648) ∧ ∀ d, some d ∈ e.dims → d < 2147483648

def forceText (es : List ForceEntry) : List Char := joinWith '|' (es.map ForceEntry.text)

/-- The first entry for all inputs, else the first one for the input. -/
def chosenForce (es : List ForceEntry) (k : ℕ) : Option ForceEntry :=
  match es.find? fun e => e.input = none with
  | some e => some e
  | none => es.find? fun e => e.input = some k

/-- The dimensions an entry makes dynamic. -/
def ForceEntry.Forces (e : ForceEntry) (d : ℕ) : Prop := e.dims = [] ∨ none ∈ e.dims ∨ some d ∈ e.dims

/-- One entry of `--dimParams`: the input, `none` for all, and names of dimensions. -/
structure ParamEntry where
  input : Option ℕ
  names : List (ℕ × List Char)

def ParamEntry.text (e : ParamEntry) : List Char :=
  indexText e.input ++ ':' :: joinWith ',' (e.names.map fun p => num p.1 ++ '=' :: p.2)

/-- Numbers are values of `int`, names do not contain the separators. -/
def ParamEntry.Ok (e : ParamEntry) : Prop :=
  (∀ k, e.input = some k → k < 2147483648) ∧ ∀ p ∈ e.names, p.1 < 2147483648 ∧ ',' ∉ p.2 ∧ '|' ∉ p.2 ∧ '=' ∉ p.2

def paramText (es : List ParamEntry) : List Char := joinWith '|' (es.map ParamEntry.text)

/-- The name an entry gives to a dimension; the last one counts. -/
def ParamEntry.name (e : ParamEntry) (d : ℕ) : Option (List Char) := (e.names.reverse.find? fun p => p.1 = d).map (·.2)

/-- The names in the model. -/
def modelName (dims : List ProtoDim) (d : ℕ) : Option (List Char) :=
  match dims[d]? with
  | some (.param s) => some s
  | _ => none

/-- The names in use for input `k`: the last entry for it, else the last one for all inputs if it has names, else those of the model. -/
def chosenName (es : List ParamEntry) (k : ℕ) (dims : List ProtoDim) (d : ℕ) : Option (List Char) :=
  match es.reverse.find? fun e => e.input = some k with
  | some e => e.name d
  | none =>
    match es.reverse.find? fun e => e.input = none with
    | some e => if e.names = [] then modelName dims d else e.name d
    | none => modelName dims d

end Verif.Builder
