import Mathlib.Data.List.Sort

/-!
Model of the sorting of an ONNX graph by the importer.

Source: /repo/src/Builder/ImportONNXUtils.cpp and /repo/src/Builder/FrontendDialectTransformer.cpp 1560-1606.
-/

namespace Verif.Builder

/-- A node of an ONNX graph (`onnx::NodeProto`): names of inputs and outputs, names of the enclosing graph that its subgraphs
use, and everything else. -/
structure GNode (α : Type*) where
  body : α
  captures : List String
  ins : List String
  outs : List String

/-- The parts of `onnx::GraphProto` the sorting reads. -/
structure Graph (α : Type*) where
  nodes : List (GNode α)
  inits : List String
  inputs : List String

variable {α : Type*}

/-- One node in `IsTopologicallySorted` (ImportONNXUtils.cpp 31-38): are the inputs visited, and what is
visited after it. -/
def checkNode (visited : List String) (nd : GNode α) : Option (List String) :=
  if nd.ins.all (visited.contains ·) then some (visited ++ nd.outs) else none

/-- `IsTopologicallySorted` (21-40); the set is a list. -/
def isTopologicallySorted (g : Graph α) : Bool :=
  (g.nodes.foldlM checkNode (g.inits ++ g.inputs)).isSome

/-- `origIndex` (47-55): the map from output names to the index of their node; a later node replaces an earlier one. -/
def origIndex (nodes : List (GNode α)) : String → Option ℕ :=
  nodes.zipIdx.foldl (fun m p => p.1.outs.foldl (fun m o => fun x => if x = o then some p.2 else m x) m) (fun _ => none)

/-- `graphInputsAndInitializers` (58-67). -/
def external (g : Graph α) : List String := g.inits ++ g.inputs ++ [""]

/-- One input of node `i` (73-85): the node is added to the users of the producer; `none` if there is no
producer. -/
def addUser (g : Graph α) (i : ℕ) (users : ℕ → List ℕ) (x : String) : Option (ℕ → List ℕ) :=
  if (external g).contains x then some users
  else (origIndex g.nodes x).map fun p => fun u => if u = p then users u ++ [i] else users u

/-- `users` (70-87). -/
def usersOf (g : Graph α) : Option (ℕ → List ℕ) :=
  g.nodes.zipIdx.foldlM (fun users p => p.1.ins.foldlM (addUser g p.2) users) (fun _ => [])

/-- `inDegrees` (91-101). -/
def inDegrees (g : Graph α) (i : ℕ) : ℤ :=
  match g.nodes[i]? with
  | none => 0
  | some nd => nd.ins.foldl (fun k x => if (external g).contains x then k else k + 1) 0

/-- The variables of Kahn's algorithm: the multiset as an ordered list, the order so far and the degrees. -/
structure KState where
  avail : List ℕ
  order : List ℕ
  deg : ℕ → ℤ

/-- One user (126-131). -/
def visitUser (s : List ℕ × (ℕ → ℤ)) (v : ℕ) : List ℕ × (ℕ → ℤ) :=
  let deg' := fun w => if w = v then s.2 v - 1 else s.2 w
  (if deg' v = 0 then s.1.orderedInsert (· ≤ ·) v else s.1, deg')

/-- The loop of Kahn's algorithm (117-133); `none` when it has not ended after `fuel` iterations. -/
def kahn (users : ℕ → List ℕ) : ℕ → KState → Option (List ℕ)
  | 0, _ => none
  | fuel + 1, s =>
    match s.avail with
    | [] => some s.order
    | u :: rest =>
      let p := (users u).foldl visitUser (rest, s.deg)
      kahn users fuel ⟨p.1, s.order ++ [u], p.2⟩

/-- `SwapElements`, `std::swap`. -/
def swapAt {β : Type*} (l : List β) (i j : ℕ) : List β :=
  match l[i]?, l[j]? with
  | some a, some b => (l.set i b).set j a
  | _, _ => l

/-- The search of position `r` (143-152). -/
def placeAt (top : List ℕ) (n : ℕ) (s : List (GNode α) × List ℕ) (r : ℕ) : List (GNode α) × List ℕ :=
  if top[r]? = s.2[r]? then s
  else
    match (List.range' (r + 1) (n - (r + 1))).find? fun q => top[r]? == s.2[q]? with
    | none => s
    | some q => (swapAt s.1 r q, swapAt s.2 r q)

/-- `SortGraph` (44-155): the nodes in their new order, `none` when it returns false. -/
def sortGraph (g : Graph α) : Option (List (GNode α)) :=
  let n := g.nodes.length
  (usersOf g).bind fun users =>
    let avail := ((List.range n).filter fun i => inDegrees g i = 0)
    (kahn users (n + 1) ⟨avail, [], inDegrees g⟩).bind fun top =>
      if top.length ≠ n then none
      else some ((List.range n).foldl (placeAt top n) (g.nodes, List.range n)).1

/-- Sorting in `ImportFrontendModelInternal` (FrontendDialectTransformer.cpp 1579-1584): the nodes as they are imported, `none` when it returns
false. -/
def importOrder (allowSorting : Bool) (g : Graph α) : Option (List (GNode α)) :=
  if allowSorting && !isTopologicallySorted g then sortGraph g else some g.nodes

end Verif.Builder
