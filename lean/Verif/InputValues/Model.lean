import Verif.InputValues.Spec
import Verif.InputShapes.Model
/-!
# The values of inputs that are made at run time: the code (C134)

Models `parseValueInfo`, `/repo/src/Runtime/OMTensorListHelper.cpp:128-201`, and the choice of bounds in
`omTensorListCreateFromInputSignature`, lines 535-541. Words and numbers are already read.
-/
namespace Verif.InputValues

/-- `ValueSpec` (OMTensorListHelper.cpp:128-135); a flag and its value are an option. -/
structure VSpec (α : Type) where
  min : Option α
  max : Option α
  soz : Option Int

/-- A word (OMTensorListHelper.cpp:169-187). -/
def word {α : Type} (t : Tok α) (s : VSpec α) : Option (VSpec α) :=
  match t with
  | .min v => some { s with min := some v }
  | .max v => some { s with max := some v }
  | .val v => some { s with min := some v, max := some v }
  | .soz n => if n < -1 then none else some { s with soz := some n }

/-- The loop over words (OMTensorListHelper.cpp:153-188). -/
def words {α : Type} : List (Tok α) → VSpec α → Option (VSpec α)
  | [], s => some s
  | t :: ts, s =>
    match word t s with
    | none => none
    | some s' => words ts s'

/-- The words of an entry, with the check for combinations (OMTensorListHelper.cpp:151-191). -/
def entrySpec {α : Type} (ts : List (Tok α)) : Option (VSpec α) :=
  match words ts { min := none, max := none, soz := none } with
  | none => none
  | some s => if s.soz.isSome && (s.min.isSome || s.max.isSome) then none else some s

/-- The loops that set entries (OMTensorListHelper.cpp:192-198): `c` entries, from `k` on. -/
def setFrom {β : Type} (v : β) : Nat → Nat → List β → List β
  | _, 0, l => l
  | k, c + 1, l => setFrom v (k + 1) c (l.set k v)

/-- An entry is set for its inputs (OMTensorListHelper.cpp:192-198). -/
def store {β : Type} (n : Nat) (p : Int × Int) (v : β) (l : List β) : List β :=
  if p.1 = -1 then setFrom v 0 n l else setFrom v p.1.toNat (p.2 - p.1 + 1).toNat l

/-- The loop of `parseValueInfo` (OMTensorListHelper.cpp:143-199). -/
def valueLoop {α : Type} (n : Nat) : List (VEntry α) → List (VSpec α) → Option (List (VSpec α))
  | [], l => some l
  | e :: es, l =>
    match InputShapes.parseEntry n ⟨e.low, e.high, []⟩ with
    | none => none
    | some p =>
      match entrySpec e.toks with
      | none => none
      | some s => valueLoop n es (store n p s l)

/-- The choice between rows of ones and random values, and the bounds
(OMTensorListHelper.cpp:535-541). -/
def choose {α : Type} (lo hi : α) (s : VSpec α) : Kind α :=
  match s.soz with
  | some n => .ones n
  | none => .range (s.min.getD lo) (s.max.getD hi)

/-- How the values of the inputs are made; the defaults are `lo` and `hi` of the inputs. -/
def kinds {α : Type} (n : Nat) (es : List (VEntry α)) (lo hi : Nat → α) : Option (List (Kind α)) :=
  (valueLoop n es (List.replicate n { min := none, max := none, soz := none })).map fun l =>
    l.mapIdx fun i s => choose (lo i) (hi i) s

end Verif.InputValues
