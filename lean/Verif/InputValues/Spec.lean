import Verif.InputShapes.Spec
/-!
# The values of inputs that are made at run time: specification (C134)
-/
namespace Verif.InputValues

/-- The words of an entry; the numbers are of some type. -/
inductive Tok (α : Type)
  | min (v : α)
  | max (v : α)
  | val (v : α)
  | soz (n : Int)

/-- An entry of the option for values, `low:words` or `low-high:words`. -/
structure VEntry (α : Type) where
  low : Int
  high : Option Int
  toks : List (Tok α)

/-- The entry is about the input with number `i`. -/
def VEntry.Covers {α : Type} (e : VEntry α) (i : Nat) : Prop :=
  e.low = -1 ∨ (e.low ≤ i ∧ i ≤ e.high.getD e.low)

instance {α : Type} (e : VEntry α) (i : Nat) : Decidable (e.Covers i) := by
  unfold VEntry.Covers; infer_instance

/-- The lower bounds, upper bounds and numbers of ones among words. -/
def lows {α : Type} (ts : List (Tok α)) : List α :=
  ts.filterMap fun | .min v => some v | .val v => some v | _ => none
def highs {α : Type} (ts : List (Tok α)) : List α :=
  ts.filterMap fun | .max v => some v | .val v => some v | _ => none
def sozs {α : Type} (ts : List (Tok α)) : List Int :=
  ts.filterMap fun | .soz n => some n | _ => none

/-- How the values of an input are made: rows of ones and zeros, or random values in a range. -/
inductive Kind (α : Type)
  | ones (n : Int)
  | range (lo hi : α)
  deriving DecidableEq

/-- What the words ask for: the last ones count, and the defaults where there are none. -/
def kindOf {α : Type} (lo hi : α) (ts : List (Tok α)) : Kind α :=
  match (sozs ts).getLast? with
  | some n => .ones n
  | none => .range ((lows ts).getLast?.getD lo) ((highs ts).getLast?.getD hi)

/-- What is asked for an input: by the last entry about it, or by the defaults. -/
def wanted {α : Type} (es : List (VEntry α)) (lo hi : α) (i : Nat) : Kind α :=
  match (es.filter fun e => decide (e.Covers i)).getLast? with
  | some e => kindOf lo hi e.toks
  | none => .range lo hi

/-- The entry is well-formed, for a model with `n` inputs. -/
def VEntry.Valid {α : Type} (n : Nat) (e : VEntry α) : Prop :=
  (e.low = -1 ∨ (0 ≤ e.low ∧ e.low < n ∧ ∀ h, e.high = some h → e.low ≤ h ∧ h < n)) ∧
    (∀ k ∈ sozs e.toks, -1 ≤ k) ∧ (sozs e.toks = [] ∨ (lows e.toks = [] ∧ highs e.toks = []))

end Verif.InputValues
