import Verif.Dims.Model

/-!
# Removing duplicate Dim operations (model)

Source: /repo/src/Dialect/ONNX/Transforms/RemoveSameONNXDim.cpp 48-114.

Operands of Dim operations are not results of Dim operations (these have static types), so the pass does not change them:
users that are Dim operations are looked up in the program before the pass.
-/

namespace Verif.Dims

/-- `val.getUsers()` may have any order: `pick v a` is the result of some Dim operation for axis `a` of `v`, if there is one
(RemoveSameONNXDim.cpp 68-80). -/
def IsPick (g : Graph) (pick : Val → ℕ → Option Val) : Prop :=
  (∀ v a y, pick v a = some y → ∃ o ∈ g.ops, o.kind = .dim a ∧ o.operands = [some v] ∧ o.results = [y]) ∧
    ∀ v a, pick v a = none → ¬ ∃ o ∈ g.ops, o.kind = .dim a ∧ o.operands = [some v]

/-- The Dim operation that stands for a dimension, RemoveSameONNXDim.cpp 57-83. -/
def candidate (g : Graph) (pick : Val → ℕ → Option Val) (d : Dim) : Option Val :=
  match defOp g d.1 with
  | none => none
  | some o =>
    match o.kind with
    | .dim _ => some d.1
    | _ => pick d.1 d.2

/-- The place of the operation that defines a value; `isBeforeInBlock` compares places. -/
def pos (g : Graph) (v : Val) : ℕ := g.ops.findIdx fun o => decide (v ∈ o.results)

/-- The update of the first Dim operation, RemoveSameONNXDim.cpp 85-91. -/
def better (g : Graph) (f : Option Val) (v : Val) : Option Val :=
  match f with
  | none => some v
  | some f => if pos g v < pos g f then some v else some f

/-- The first Dim operation of a set, RemoveSameONNXDim.cpp 53-92. -/
def firstDim (g : Graph) (cs : List Val) : Option Val := cs.foldl (better g) none

/-- One value for another. -/
def subst (v w x : Val) : Val := if x = v then w else x

/-- Operands changed by a function. -/
def Op.rename (f : Val → Val) (o : Op) : Op := ⟨o.kind, o.operands.map (Option.map f), o.results⟩

/-- All uses changed by a function. -/
def rename (f : Val → Val) (g : Graph) : Graph := { g with ops := g.ops.map (Op.rename f), returned := g.returned.map f }

/-- The replacements for one set, RemoveSameONNXDim.cpp 94-106. -/
def mergeSet (f : Val) (cs : List Val) (g : Graph) : Graph :=
  cs.foldl (fun g v => if v ≠ f then rename (subst v f) g else g) g

/-- One set, RemoveSameONNXDim.cpp 50-107. `g0` is the program at the start. -/
def removeInSet (g0 : Graph) (pick : Val → ℕ → Option Val) (g : Graph) (S : List Dim) : Graph :=
  match firstDim g0 (S.filterMap (candidate g0 pick)) with
  | none => g
  | some f => mergeSet f (S.filterMap (candidate g0 pick)) g

/-- A value is used. -/
def used (g : Graph) (v : Val) : Bool := g.ops.any (fun o => decide (some v ∈ o.operands)) || decide (v ∈ g.returned)

/-- Removal of the operation that defines a value, if it is not used, RemoveSameONNXDim.cpp 110-112. -/
def eraseDim (g : Graph) (v : Val) : Graph :=
  if used g v then g else { g with ops := g.ops.filter fun o => decide (v ∉ o.results) }

/-- The values whose operations may be removed, RemoveSameONNXDim.cpp 104. -/
def replaced (g : Graph) (pick : Val → ℕ → Option Val) (S : List Dim) : List Val :=
  (S.filterMap (candidate g pick)).filter fun v => decide (firstDim g (S.filterMap (candidate g pick)) ≠ some v)

/-- `RemoveSameONNXDimPass::runOnOperation`, RemoveSameONNXDim.cpp 41-113, for the sets of the analysis, in the order in
which they are visited, and an order `es` of the operations to remove. -/
def removeDims (g : Graph) (pick : Val → ℕ → Option Val) (m : List (List Dim)) (es : List Val) : Graph :=
  es.foldl eraseDim (m.foldl (removeInSet g pick) g)

end Verif.Dims
