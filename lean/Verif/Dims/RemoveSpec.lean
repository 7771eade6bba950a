import Verif.Dims.RemoveModel
import Verif.Dims.Spec

/-!
# Removing duplicate Dim operations (specification)
-/

namespace Verif.Dims

/-- A value computed by a Dim operation. -/
def IsDim (g : Graph) (v : Val) : Prop := ∃ o ∈ g.ops, (∃ a, o.kind = .dim a) ∧ v ∈ o.results

/-- Every value that is used is an argument of the function or computed by an operation of it, and no operation uses its own
results or those of later operations. -/
structure Ordered (g : Graph) : Prop where
  defined : ∀ o ∈ g.ops, ∀ x, some x ∈ o.operands → x ∈ g.args ∨ ∃ p ∈ g.ops, x ∈ p.results
  later : g.ops.Pairwise fun o p => ∀ x ∈ p.results, some x ∉ o.operands
  self : ∀ o ∈ g.ops, ∀ x ∈ o.results, some x ∉ o.operands
  ret : ∀ x ∈ g.returned, x ∈ g.args ∨ ∃ p ∈ g.ops, x ∈ p.results

/-- Every value is computed by one operation, and a Dim operation computes one value. -/
structure Ssa (g : Graph) : Prop where
  once : g.ops.Pairwise fun o p => ∀ x ∈ o.results, x ∉ p.results
  single : ∀ o ∈ g.ops, ∀ a, o.kind = .dim a → ∃ y, o.results = [y]

/-- Members of different sets stand for different operations. -/
def Disjoint (g : Graph) (pick : Val → ℕ → Option Val) (m : List (List Dim)) : Prop :=
  m.Pairwise fun S T => ∀ c, c ∈ S.filterMap (candidate g pick) → c ∉ T.filterMap (candidate g pick)

/-- The two values are the same in every execution to which the theorems on the analysis apply. -/
def AlwaysEqual (g : Graph) (v w : Val) : Prop :=
  ∀ r, Executes g r → Plain g r → r.shape v = r.shape w ∧ r.data v = r.data w

/-- The new program is the old one with other operands, without some Dim operations: an operand stays or becomes the result
of an earlier Dim operation with the same value; what is left out is not used. -/
structure Removes (g g' : Graph) (ρ : Val → Val) : Prop where
  ops : g'.ops.Sublist (g.ops.map (Op.rename ρ))
  returned : g'.returned = g.returned.map ρ
  same : g'.ty = g.ty ∧ g'.args = g.args
  operands : ∀ x, ρ x = x ∨ (IsDim g x ∧ IsDim g (ρ x) ∧ pos g (ρ x) ≤ pos g x ∧ AlwaysEqual g (ρ x) x)
  removed : ∀ o ∈ g.ops, o.rename ρ ∉ g'.ops → ∃ y ∈ o.results, IsDim g y ∧ used g' y = false

end Verif.Dims
