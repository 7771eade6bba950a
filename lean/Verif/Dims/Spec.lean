import Verif.Dims.Model

/-!
# What an execution of a function does to shapes

An execution gives each value its sizes and, for tensors of integers, its elements. `Executes` says that they are related as ONNX
says, operation by operation. Nothing here uses the analysis.
-/

namespace Verif.Dims

/-- Sizes of the values, and elements of the tensors of integers (in row-major order). -/
structure Run where
  shape : Val → List ℕ
  data : Val → List ℤ

/-- A size counted from the last one. -/
def fromEnd (s : List ℕ) (k : ℕ) : Option ℕ := s.reverse[k]?

/-- `out` is the shape that `ss` are broadcast to (ONNX multidirectional broadcasting). -/
def Broadcasts (ss : List (List ℕ)) (out : List ℕ) : Prop :=
  (∀ s ∈ ss, s.length ≤ out.length) ∧
    ∀ k n : ℕ, fromEnd out k = some n →
      (∀ s ∈ ss, ∀ x : ℕ, fromEnd s k = some x → x = 1 ∨ x = n) ∧ ∃ s ∈ ss, fromEnd s k = some n

/-- Shapes of a matrix product as in numpy.matmul. -/
def MatMulShape (a b y : List ℕ) : Prop :=
  (∃ ba bb by' : List ℕ, ∃ m k n : ℕ, a = ba ++ [m, k] ∧ b = bb ++ [k, n] ∧ y = by' ++ [m, n] ∧ Broadcasts [ba, bb] by') ∨
    (∃ bb : List ℕ, ∃ k n : ℕ, a = [k] ∧ b = bb ++ [k, n] ∧ y = bb ++ [n]) ∨
    (∃ ba : List ℕ, ∃ m k : ℕ, a = ba ++ [m, k] ∧ b = [k] ∧ y = ba ++ [m]) ∨
    ∃ k : ℕ, a = [k] ∧ b = [k] ∧ y = []

/-- Concatenation along an axis. -/
def ConcatShape (r : Run) (xs : List Val) (y : Val) (axis : ℤ) : Prop :=
  ∃ k : ℕ, k < (r.shape y).length ∧ (axis = k ∨ axis = (k : ℤ) - (r.shape y).length) ∧
    (∀ x ∈ xs, (r.shape x).length = (r.shape y).length ∧
      ∀ j : ℕ, j ≠ k → (r.shape x)[j]? = (r.shape y)[j]?) ∧
    (r.shape y)[k]? = some ((xs.map fun x => ((r.shape x)[k]?).getD 0).sum) ∧
    ((r.shape y).length = 1 → r.data y = (xs.map r.data).flatten)

/-- What an operation does (shapes, and elements of small tensors of integers; no overflow of integers). The shapes of `other`
operations are not given here. -/
def OpRuns (r : Run) (o : Op) : Prop :=
  match o.kind with
  | .constant c => ∀ y ∈ o.results, ∀ u : ℤ, r.data y = [u] → u = c
  | .dim a => ∃ x y : Val, ∃ n : ℕ, o.operands = [some x] ∧ o.results = [y] ∧ (r.shape x)[a]? = some n ∧
      r.shape y = [1] ∧ r.data y = [(n : ℤ)]
  | .cast => ∃ x y : Val, o.operands = [some x] ∧ o.results = [y] ∧ r.shape y = r.shape x
  | .concat axis => ∃ xs : List Val, ∃ y : Val, xs ≠ [] ∧ o.operands = xs.map some ∧ o.results = [y] ∧ ConcatShape r xs y axis
  | .gemm ta tb => ∃ a b y : Val, ∃ cs : List (Option Val), ∃ m k n : ℕ, o.operands = some a :: some b :: cs ∧ o.results = [y] ∧
      r.shape a = (if ta then [k, m] else [m, k]) ∧ r.shape b = (if tb then [n, k] else [k, n]) ∧ r.shape y = [m, n]
  | .matmul integer => ∃ a b y : Val, ∃ cs : List (Option Val), o.operands = some a :: some b :: cs ∧ (integer = false → cs = []) ∧
      o.results = [y] ∧ MatMulShape (r.shape a) (r.shape b) (r.shape y)
  | .rnn layout => ∃ n : ℕ,
      (∀ i : ℕ, i = 0 ∨ i = 5 ∨ i = 6 → ∀ x : Val, o.opd i = some x →
        (r.shape x).length = 3 ∧ (r.shape x)[if layout = 0 then 1 else 0]? = some n) ∧
      ∀ s : Val, o.opd 4 = some s → r.shape s = [n]
  | .add => ∃ a b y : Val, o.operands = [some a, some b] ∧ o.results = [y] ∧ Broadcasts [r.shape a, r.shape b] (r.shape y) ∧
      ∀ t : ℤ, r.data y = [t] → ∃ u w : ℤ, r.data a = [u] ∧ r.data b = [w] ∧ t = u + w
  | .nary => ∃ xs : List Val, ∃ y : Val, o.operands = xs.map some ∧ o.results = [y] ∧ Broadcasts (xs.map r.shape) (r.shape y)
  | .centerCropPad axes => ∃ x s y : Val, o.operands = [some x, some s] ∧ o.results = [y] ∧
      (r.data s).length = (axes.getD ((List.range (r.shape y).length).map Int.ofNat)).length ∧
      ∀ i k n : ℕ, ∀ a : ℤ, (axes.getD ((List.range (r.shape y).length).map Int.ofNat))[i]? = some a →
        (a = k ∨ a = (k : ℤ) - (r.shape y).length) → (r.shape y)[k]? = some n → (r.data s)[i]? = some (n : ℤ)
  | .constantOfShape => ∃ s y : Val, o.operands = [some s] ∧ o.results = [y] ∧ r.data s = (r.shape y).map (fun (n : ℕ) => (n : ℤ))
  | .expand => ∃ x s y : Val, ∃ ns : List ℕ, o.operands = [some x, some s] ∧ o.results = [y] ∧
      r.data s = ns.map (fun (n : ℕ) => (n : ℤ)) ∧ Broadcasts [r.shape x, ns] (r.shape y)
  | .maxUnpool => ∀ s : Val, o.opd 2 = some s → ∃ y : Val, o.results = [y] ∧ r.data s = (r.shape y).map (fun (n : ℕ) => (n : ℤ))
  | .reshape z => ∃ x s y : Val, o.operands = [some x, some s] ∧ o.results = [y] ∧ (r.shape y).prod = (r.shape x).prod ∧
      (r.data s).length = (r.shape y).length ∧ r.data y = r.data x ∧
      ∀ i n : ℕ, ∀ v : ℤ, (r.shape y)[i]? = some n → (r.data s)[i]? = some v →
        v = -1 ∨ v = n ∨ (z = 0 ∧ v = 0 ∧ (r.shape x)[i]? = some n)
  | .tile => ∃ x s y : Val, o.operands = [some x, some s] ∧ o.results = [y] ∧ (r.data s).length = (r.shape y).length ∧
      ∀ i a n : ℕ, (r.shape x)[i]? = some a → (r.shape y)[i]? = some n → ∃ t : ℤ, (r.data s)[i]? = some t ∧ (n : ℤ) = a * t
  | .squeeze => ∃ x y : Val, ∃ cs : List (Option Val), o.operands = some x :: cs ∧ o.results = [y] ∧ r.data y = r.data x
  | .other => True

/-- The sizes fit a type. -/
def Conforms (t : Ty) (s : List ℕ) : Prop := List.Forall₂ (fun x n => x = none ∨ x = some n) t s

/-- `r` is an execution of the function: it fits the types, each operation does what ONNX says, dimensions of arguments and
results with the same name are equal (this is what the names promise), and the shape helpers give the question mark of an operand
dimension only to dimensions that are equal to it. -/
structure Executes (g : Graph) (r : Run) : Prop where
  fits : ∀ v : Val, Conforms (g.ty v) (r.shape v)
  elems : ∀ v : Val, g.i64 v = true → (r.data v).length = (r.shape v).prod
  runs : ∀ o ∈ g.ops, OpRuns r o
  names : ∀ d e : Dim, ∀ n : String, (d, some n) ∈ boundaryDims g → (e, some n) ∈ boundaryDims g →
    (r.shape d.1)[d.2]? = (r.shape e.1)[e.2]?
  helper : ∀ d e : Dim, g.sameQ d e = true →
    (g.ty e.1)[e.2]? = some none ∧ (r.shape d.1)[d.2]? = (r.shape e.1)[e.2]?

/-- The function is in SSA form, shape inference has run and `onnx.Dim` of static dimensions have been folded. -/
structure WellFormed (g : Graph) : Prop where
  ssa : ∀ o ∈ g.ops, ∀ v ∈ o.results, defOp g v = some o
  args : ∀ v ∈ g.args, defOp g v = none
  dimTy : ∀ o ∈ g.ops, ∀ a : ℕ, o.kind = .dim a →
    (∀ y ∈ o.results, g.ty y = [some 1]) ∧ ∀ x : Val, o.opd 0 = some x → (g.ty x)[a]? = some none
  castTy : ∀ o ∈ g.ops, o.kind = .cast → ∀ x : Val, o.opd 0 = some x → ∀ y ∈ o.results, g.ty y = g.ty x
  broadcastTy : ∀ o ∈ g.ops, (o.kind = .add ∨ o.kind = .nary) → ∀ y ∈ o.results, ∀ k n : ℕ,
    (∀ x ∈ o.vals, (g.ty x).reverse[k]? = some (some n)) → (g.ty y).reverse[k]? = some (some n)

/-- `w` is one of the tensors, not concatenations themselves, that are concatenated to `s`. -/
inductive Piece (g : Graph) : Val → Val → Prop where
  | here (w : Val) : Piece g w w
  | there (s x w : Val) (axis : ℤ) (xs : List (Option Val)) (ys : List Val) :
      defOp g s = some ⟨.concat axis, xs, ys⟩ → some x ∈ xs → Piece g x w → Piece g s w

/-- What the theorems ask for besides; each of the conditions leaves out a case in which the analysis is wrong or (the last one)
does not end. -/
structure Plain (g : Graph) (r : Run) : Prop where
  /-- broadcasting operations have two operands -/
  two : ∀ o ∈ g.ops, o.kind = .nary → o.operands.length = 2
  /-- the lengths of sequences of a recurrent operation are not given for a batch of static size 1 -/
  seq : ∀ o ∈ g.ops, ∀ l : ℤ, o.kind = .rnn l → ∀ s : Val, o.opd 4 = some s → g.ty s ≠ [some 1]
  /-- an Expand has as result the shape it is given -/
  expand : ∀ o ∈ g.ops, o.kind = .expand → ∀ s y : Val, o.opd 1 = some s → o.results = [y] →
    r.data s = (r.shape y).map (fun (n : ℕ) => (n : ℤ))
  /-- parts of the shape of a Reshape that are not constants are positive -/
  positive : ∀ o ∈ g.ops, o.kind = .reshape 0 → ∀ s w : Val, o.opd 1 = some s → Piece g s w → constOf g w = none →
    ∀ u : ℤ, r.data w = [u] → 0 < u
  /-- reshaped tensors are not empty -/
  nonempty : ∀ o ∈ g.ops, o.kind = .reshape 0 → ∀ y ∈ o.results, 0 ∉ r.shape y
  /-- conversion of a single number does not change it -/
  cast : ∀ o ∈ g.ops, o.kind = .cast → ∀ x : Val, o.opd 0 = some x → ∀ y ∈ o.results, g.ty y = [some 1] →
    r.data y = r.data x
  /-- no constant is added to a tensor with a dynamic dimension -/
  addConst : ∀ o ∈ g.ops, o.kind = .add → ∀ y ∈ o.results, none ∈ g.ty y → ∀ x ∈ o.vals, constOf g x = none
  /-- the shape of an Expand is concatenated from single numbers -/
  pieces : ∀ o ∈ g.ops, o.kind = .expand → ∀ s x : Val, o.opd 1 = some s → ∀ (axis : ℤ) (xs : List (Option Val)) (ys : List Val),
    defOp g s = some ⟨.concat axis, xs, ys⟩ → some x ∈ xs → g.ty x = [some 1] ∧ g.i64 x = true
  /-- no first dimension is read of a tensor with a dimension of static size 1 -/
  dimOne : ∀ o ∈ g.ops, o.kind = .dim 0 → ∀ x : Val, o.opd 0 = some x → some 1 ∉ g.ty x

end Verif.Dims
