import Verif.Rewrite.OnnxArith

/-!
# Graphs of operators and what they compute

The programs that the recomposition patterns work on: a block of operations in order, each with one result. An
operation with several results stands for as many operations here. Nothing here models code.
-/

namespace Verif.Recompose

open Verif.Rewrite

/-- A convolution: attributes, names of the input, the weights and the bias. -/
structure ConvOp where
  at_ : WinAttrs
  x : ℕ
  w : ℕ
  b : Option ℕ
deriving DecidableEq

/-- The operations; values are named by numbers. -/
inductive GOp (V : Type) where
  | conv (c : ConvOp)
  | concat (axis : ℤ) (args : List ℕ)
  /-- output number `i` of Split -/
  | split (axis : ℤ) (sizes : List ℤ) (i : ℕ) (x : ℕ)
  /-- any other operation -/
  | other (args : List ℕ) (f : List (Tensor V) → Option (Tensor V))

/-- The operands. -/
def GOp.args {V : Type} : GOp V → List ℕ
  | .conv c => c.x :: c.w :: c.b.toList
  | .concat _ l => l
  | .split _ _ _ x => [x]
  | .other l _ => l

/-- A function: operations, each with the name of its result, and the returned values. -/
structure Graph (V : Type) where
  nodes : List (ℕ × GOp V)
  outs : List ℕ

variable {V : Type} [Inhabited V]

/-- The value of an operation, from the values of its operands; `none` when it is not defined. -/
def GOp.eval (A : Alg V) (ρ : ℕ → Tensor V) : GOp V → Option (Tensor V)
  | .conv c => Rewrite.conv A c.at_ (ρ c.x) (ρ c.w) (c.b.map ρ)
  | .concat axis l => Rewrite.concat (l.map ρ) axis
  | .split axis sizes i x => splitOut (ρ x) axis sizes i
  | .other l f => f (l.map ρ)

/-- Run the operations one after the other. -/
def exec (A : Alg V) : (ℕ → Tensor V) → List (ℕ × GOp V) → Option (ℕ → Tensor V)
  | ρ, [] => some ρ
  | ρ, p :: l => (p.2.eval A ρ).bind fun t => exec A (Function.update ρ p.1 t) l

/-- What a function returns. -/
def Graph.eval (A : Alg V) (ρ : ℕ → Tensor V) (g : Graph V) : Option (List (Tensor V)) :=
  (exec A ρ g.nodes).map fun ρ => g.outs.map ρ

omit [Inhabited V] in
/-- Every operand is known before it is used, and no name is given twice. -/
def Ordered : List ℕ → List (ℕ × GOp V) → Prop
  | _, [] => True
  | known, p :: l => p.1 ∉ known ∧ (∀ a ∈ p.2.args, a ∈ known) ∧ Ordered (p.1 :: known) l

omit [Inhabited V] in
/-- A function with the arguments `args` is well formed. -/
def Graph.WF (args : List ℕ) (g : Graph V) : Prop :=
  Ordered args g.nodes ∧ ∀ o ∈ g.outs, o ∈ args ∨ o ∈ g.nodes.map Prod.fst

omit [Inhabited V] in
/-- `b` uses the result of `a`, directly or through other operations. -/
inductive Dep (g : Graph V) : ℕ → ℕ → Prop where
  | base {a : ℕ} {p : ℕ × GOp V} : p ∈ g.nodes → a ∈ p.2.args → Dep g a p.1
  | step {a b : ℕ} {p : ℕ × GOp V} : Dep g a b → p ∈ g.nodes → b ∈ p.2.args → Dep g a p.1

/-- The static shapes `ty` are those of the values. -/
def TypesFit (A : Alg V) (env : ℕ → Tensor V) (args : List ℕ) (g : Graph V) (ty : ℕ → Option (List ℕ)) : Prop :=
  ∀ ρ, exec A env g.nodes = some ρ → ∀ n s, n ∈ args ∨ n ∈ g.nodes.map Prod.fst → ty n = some s → (ρ n).shape = s

omit [Inhabited V] in
instance instDecidableOrdered : ∀ (known : List ℕ) (l : List (ℕ × GOp V)), Decidable (Ordered known l)
  | _, [] => .isTrue trivial
  | known, p :: l =>
    have := instDecidableOrdered (p.1 :: known) l
    inferInstanceAs (Decidable (p.1 ∉ known ∧ (∀ a ∈ p.2.args, a ∈ known) ∧ Ordered (p.1 :: known) l))

omit [Inhabited V] in
instance (args : List ℕ) (g : Graph V) : Decidable (g.WF args) :=
  inferInstanceAs (Decidable (Ordered args g.nodes ∧ ∀ o ∈ g.outs, o ∈ args ∨ o ∈ g.nodes.map Prod.fst))

theorem typesFit_of {A : Alg V} {env : ℕ → Tensor V} {args : List ℕ} {g : Graph V} {ty : ℕ → Option (List ℕ)}
    (h : ((exec A env g.nodes).all fun ρ => (args ++ g.nodes.map Prod.fst).all fun n =>
      (ty n).all fun s => (ρ n).shape = s) = true) : TypesFit A env args g ty := by
  intro ρ hρ n s hn hs
  rw [hρ, Option.all_some, List.all_eq_true] at h
  have := h n (List.mem_append.2 hn)
  rw [hs, Option.all_some] at this
  simpa using this

end Verif.Recompose
