import Mathlib.Data.List.Nodup
import Mathlib.Data.List.Perm.Subperm

/-!
# Names of operations (model)

Source: /repo/src/Dialect/ONNX/Transforms/SetONNXNodeName.cpp 36-132, /repo/src/Transform/ONNXCSEWithNodeName.cpp 70-167,
/repo/src/Dialect/ONNX/ONNXOps/OpHelper.cpp 975-1018.

Simplified: the operations of a module are a list in the order of the walk; the counter does not wrap at 2^64.
-/

namespace Verif.Names

abbrev Name := List Char

/-- Locations, as far as `getNodeNameInPresenceOfOpt` (OpHelper.cpp 989-1017) looks at them when file names are not
used: in a fused location, the parts that have a name. -/
inductive Loc
  | name (n : Name)
  | fused (l : List (Option Name))
  | other
deriving DecidableEq

/-- An operation. `named`: it is an ONNX operation, not an entry point, return or constant (SetONNXNodeName.cpp 63-67).
`constOrDim`: it is a constant or Dim (line 108). `attr`: its attribute `onnx_node_name`. `first`: the operation that
defines its first operand. -/
structure Node where
  named : Bool
  constOrDim : Bool
  opName : Name
  attr : Option Name
  loc : Loc
  first : Option ℕ
deriving DecidableEq

/-- The answer when there is no name, OpHelper.cpp 1005, 1017. -/
def notSet : Name := ['N', 'O', 'T', 'S', 'E', 'T']

/-- One part of a fused location, OpHelper.cpp 996-997. -/
def locPart : Option Name → Name
  | some n => n ++ ['-']
  | none => []

/-- The name from the location, OpHelper.cpp 989-1017. -/
def locName : Loc → Name
  | .name n => n
  | .fused l => if l.flatMap locPart = [] then notSet else (l.flatMap locPart).dropLast
  | .other => notSet

/-- `getNodeNameInPresenceOfOpt` without file names, OpHelper.cpp 975-1018. -/
def presentName (n : Node) : Name :=
  match n.attr with
  | some a => a
  | none => locName n.loc

/-- One step of the walk, SetONNXNodeName.cpp 61-81, at the operation `n` in position `i`: `s.1` are the names seen,
`s.2` the operations that need a name. -/
def visit (i : ℕ) (n : Node) (s : List Name × List ℕ) : List Name × List ℕ :=
  if n.named then
    match n.attr with
    | none => (s.1, s.2 ++ [i])
    | some a =>
      if a = [] then (s.1, s.2 ++ [i])
      else if a ∈ s.1 then (s.1, s.2 ++ [i])
      else (s.1 ++ [a], s.2)
  else s

/-- The walk, SetONNXNodeName.cpp 61-81. -/
def collect : List Node → ℕ → List Name × List ℕ → List Name × List ℕ
  | [], _, s => s
  | n :: ns, i, s => collect ns (i + 1) (visit i n s)

/-- A name with a number, SetONNXNodeName.cpp 126, 130. -/
def candidate (base : Name) (id : ℕ) : Name := base ++ '_' :: Nat.toDigits 10 id

/-- The name after the operation that defines the first operand, SetONNXNodeName.cpp 104-120. -/
def fromInput (p : List Node) (need : List ℕ) (n : Node) : Name :=
  match n.first with
  | none => []
  | some j =>
    match p[j]? with
    | none => []
    | some m =>
      if m.constOrDim ∨ j ∈ need then []
      else match m.attr with
        | none => []
        | some a => if a = [] then [] else if 256 < (a ++ '_' :: n.opName).length then [] else a ++ '_' :: n.opName

/-- The name before the number is added, SetONNXNodeName.cpp 98-123. -/
def baseName (p : List Node) (need : List ℕ) (n : Node) : Name :=
  let r := if presentName n = notSet then [] else presentName n
  let r := if r = [] then fromInput p need n else r
  if r = [] then n.opName else r

/-- The loop of SetONNXNodeName.cpp 129-130, for at most `fuel` steps. -/
def search (names : List Name) (op : Name) : ℕ → ℕ → Option (Name × ℕ)
  | 0, _ => none
  | fuel + 1, id =>
    if candidate op id ∈ names then search names op fuel (id + 1) else some (candidate op id, id + 1)

/-- `generateNodeName`, SetONNXNodeName.cpp 93-132, with the new value of the counter. `fuel` bounds the loop. -/
def generate (fuel : ℕ) (p : List Node) (names : List Name) (need : List ℕ) (n : Node) (id : ℕ) : Option (Name × ℕ) :=
  if candidate (baseName p need n) id ∈ names then search names n.opName fuel (id + 1)
  else some (candidate (baseName p need n) id, id + 1)

/-- Set the attribute of one operation, SetONNXNodeName.cpp 89. -/
def setAttr (p : List Node) (i : ℕ) (s : Name) : List Node := p.modify i fun n => { n with attr := some s }

/-- The loop over the operations that need a name, SetONNXNodeName.cpp 87-90. -/
def assign (fuel : ℕ) (names : List Name) (need : List ℕ) : List ℕ → ℕ → List Node → Option (List Node)
  | [], _, p => some p
  | i :: is, id, p =>
    match p[i]? with
    | none => none
    | some n =>
      match generate fuel p names need n id with
      | none => none
      | some (s, id') => assign fuel names need is id' (setAttr p i s)

/-- The orders in which the set of operations that need a name may be iterated over: llvm's SmallSet of at most 32
pointers keeps the order of insertion, a larger one goes by addresses. -/
def Order (need order : List ℕ) : Prop := order.Perm need ∧ (need.length ≤ 32 → order = need)

/-- `SetONNXNodeNamePass::runOnOperation`, SetONNXNodeName.cpp 54-91, for an order of the set. -/
def setNames (fuel : ℕ) (p : List Node) (order : List ℕ) : Option (List Node) :=
  assign fuel (collect p 0 ([], [])).1 (collect p 0 ([], [])).2 order 0 p

/-! ### Common subexpressions -/

/-- An operation seen by the other pass: its address, whether it has a name of its own (ONNXCSEWithNodeName.cpp 70-80),
its name, and everything else. -/
structure COp (R : Type) where
  addr : ℕ
  named : Bool
  attr : Option Name
  rest : R

variable {R : Type}

/-- `saveAndRemoveNodeNames`, ONNXCSEWithNodeName.cpp 82-100: the operations without names. -/
def strip (l : List (COp R)) : List (COp R) := l.map fun o => if o.named then { o with attr := none } else o

/-- The saved names, ONNXCSEWithNodeName.cpp 90-96. -/
def saved (l : List (COp R)) (a : ℕ) : Option Name := (l.find? fun o => o.named && o.addr == a).bind COp.attr

/-- `restoreNodeNames`, ONNXCSEWithNodeName.cpp 118-148. -/
def restore (m : ℕ → Option Name) (l : List (COp R)) : List (COp R) :=
  l.map fun o => if o.named then
    match m o.addr with
    | some s => { o with attr := some s }
    | none => o
  else o

/-- `ONNXCSEWithNodeNamePass::runOnOperation`, ONNXCSEWithNodeName.cpp 150-167, where `cse` is MLIR's pass. -/
def cseNames (cse : List (COp R) → Option (List (COp R))) (l : List (COp R)) : Option (List (COp R)) :=
  (cse (strip l)).map (restore (saved l))

end Verif.Names
