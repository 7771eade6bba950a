import Verif.Builder.SortModel

/-!
Specification of a topological order of the nodes of a graph.
-/

namespace Verif.Builder

variable {α : Type*}

/-- Every input of every node is left out, an initializer, a graph input, or an output of an earlier node. -/
def TopoSorted (g : Graph α) (nodes : List (GNode α)) : Prop :=
  ∀ (k : ℕ) (nd : GNode α), nodes[k]? = some nd → ∀ x ∈ nd.ins, x = "" ∨ x ∈ g.inits ∨ x ∈ g.inputs ∨
    ∃ j < k, ∃ nd' : GNode α, nodes[j]? = some nd' ∧ x ∈ nd'.outs

/-- The same for the names used in subgraphs. -/
def CapturesSorted (g : Graph α) (nodes : List (GNode α)) : Prop :=
  ∀ (k : ℕ) (nd : GNode α), nodes[k]? = some nd → ∀ x ∈ nd.captures, x ∈ g.inits ∨ x ∈ g.inputs ∨
    ∃ j < k, ∃ nd' : GNode α, nodes[j]? = some nd' ∧ x ∈ nd'.outs

/-- ONNX graphs are in static single assignment form: a name is the output of at most one node. -/
def SingleAssignment (g : Graph α) : Prop :=
  ∀ (i j : ℕ) (a b : GNode α) (x : String), g.nodes[i]? = some a → g.nodes[j]? = some b → x ∈ a.outs → x ∈ b.outs → x ≠ "" → i = j

/-- The nodes in the order given by a list of indices. -/
def inOrder (g : Graph α) (order : List ℕ) : List (GNode α) := order.filterMap fun i => g.nodes[i]?

/-- `a` is `b` or smaller at the first position where they differ. -/
def LexLe (a b : List ℕ) : Prop :=
  a = b ∨ ∃ k x y, a.take k = b.take k ∧ a[k]? = some x ∧ b[k]? = some y ∧ x < y

end Verif.Builder
