import Mathlib.Data.Nat.Basic
import Mathlib.Algebra.BigOperators.Group.Finset.Basic
import Mathlib.Algebra.Ring.Defs

/-!
# What a tiled NNPA operation must compute

A tensor in NNPA's stickified format has four logical dimensions `(e4, e3, e2, e1)` and lives in a
buffer made of pages of 32 sticks of 64 cells of two bytes.  `addr` is that format: the pages are
ordered by `(e4, e1 / 64, e3, e2 / 32)`, and a page is a matrix of 32 by 64 cells.  The rest says
what the operations of the accelerator compute on the elements of such tensors.  Nothing here
mentions tiles.
-/

namespace Verif.Zdnnx

/-- Four numbers, one for each of the dimensions `e4`, `e3`, `e2`, `e1`: a shape, or an index. -/
structure Quad where
  e4 : ℕ
  e3 : ℕ
  e2 : ℕ
  e1 : ℕ
  deriving DecidableEq, Repr

/-- The index `i` is one of the tensor of shape `s`. -/
def Inside (i s : Quad) : Prop := i.e4 < s.e4 ∧ i.e3 < s.e3 ∧ i.e2 < s.e2 ∧ i.e1 < s.e1

instance (i s : Quad) : Decidable (Inside i s) := by unfold Inside; infer_instance

/-- Every dimension is at least one. -/
def Positive (s : Quad) : Prop := 0 < s.e4 ∧ 0 < s.e3 ∧ 0 < s.e2 ∧ 0 < s.e1

instance (s : Quad) : Decidable (Positive s) := by unfold Positive; infer_instance

/-- Every dimension of `t` is at most that of `s`. -/
def Below (t s : Quad) : Prop := t.e4 ≤ s.e4 ∧ t.e3 ≤ s.e3 ∧ t.e2 ≤ s.e2 ∧ t.e1 ≤ s.e1

instance (t s : Quad) : Decidable (Below t s) := by unfold Below; infer_instance

/-- The quotient rounded up. -/
def cdiv (a b : ℕ) : ℕ := (a + b - 1) / b

/-- The cell of the buffer that holds element `i` of a tensor of shape `s`. -/
def addr (s i : Quad) : ℕ :=
  i.e1 % 64 + 64 * (i.e2 % 32 + 32 *
    (i.e2 / 32 + cdiv s.e2 32 * (i.e3 + s.e3 * (i.e1 / 64 + cdiv s.e1 64 * i.e4))))

/-- The number of cells of the buffer of a tensor of shape `s`. -/
def cells (s : Quad) : ℕ := 2048 * (cdiv s.e2 32 * (s.e3 * (cdiv s.e1 64 * s.e4)))

/-- The element `i` of the tensor of shape `s` in a buffer. -/
def elem {α : Type} (buf : ℕ → α) (s i : Quad) : α := buf (addr s i)

/-- An operation has written the values `val` to the tensor of shape `s`: every element has its
value, and no cell outside the buffer has changed.  The padding in the buffer may hold anything. -/
def Computed {α : Type} (s : Quad) (val : Quad → α) (before after : ℕ → α) : Prop :=
  (∀ i, Inside i s → elem after s i = val i) ∧ ∀ a, cells s ≤ a → after a = before a

/-- The elementwise application of a function. -/
def unaryVal {α : Type} (f : α → α) (s : Quad) (x : ℕ → α) (i : Quad) : α := f (elem x s i)

/-- The elementwise application of a function of two arguments. -/
def binaryVal {α : Type} (f : α → α → α) (s : Quad) (x y : ℕ → α) (i : Quad) : α :=
  f (elem x s i) (elem y s i)

/-- An operation on the rows along `e1`, such as softmax: `R row k` is the entry `k` of the result
of a row. -/
def rowVal {α : Type} (R : List α → ℕ → α) (s : Quad) (x : ℕ → α) (i : Quad) : α :=
  R ((List.range s.e1).map fun k => elem x s { i with e1 := k }) i.e1

/-- The operation of the accelerator on a whole tensor, when it succeeds, applies `f` to every
element. -/
def UnaryOp {α : Type} (f : α → α) (op : Quad → (ℕ → α) → (ℕ → α) → Option (ℕ → α)) : Prop :=
  ∀ s x out out', Positive s → op s x out = some out' → Computed s (unaryVal f s x) out out'

/-- The same for a function of two arguments. -/
def BinaryOp {α : Type} (f : α → α → α)
    (op : Quad → (ℕ → α) → (ℕ → α) → (ℕ → α) → Option (ℕ → α)) : Prop :=
  ∀ s x y out out', Positive s → op s x y out = some out' →
    Computed s (binaryVal f s x y) out out'

/-- The same for an operation on rows. -/
def RowOp {α : Type} (R : List α → ℕ → α) (op : Quad → (ℕ → α) → (ℕ → α) → Option (ℕ → α)) :
    Prop :=
  ∀ s x out out', Positive s → op s x out = some out' → Computed s (rowVal R s x) out out'

/-- The position along `e4` to read for the stack `b`: one matrix serves all stacks. -/
def stackOf (s : Quad) (b : ℕ) : ℕ := if s.e4 = 1 then 0 else b

/-- The number of rows of the left matrix. -/
def rowsA (ta : Bool) (sa : Quad) : ℕ := if ta then sa.e1 else sa.e2
/-- The number of terms, according to the left matrix. -/
def depthA (ta : Bool) (sa : Quad) : ℕ := if ta then sa.e2 else sa.e1
/-- The number of terms, according to the right matrix. -/
def depthB (tb : Bool) (sb : Quad) : ℕ := if tb then sb.e1 else sb.e2
/-- The number of columns of the right matrix. -/
def colsB (tb : Bool) (sb : Quad) : ℕ := if tb then sb.e2 else sb.e1

/-- The shapes of a product `A * B + C`: the unstacked, the stacked and the two broadcasting
variants. -/
def MatMulShapes (ta tb : Bool) (sa sb sc sy : Quad) : Prop :=
  depthA ta sa = depthB tb sb ∧ sy.e2 = rowsA ta sa ∧ sy.e1 = colsB tb sb ∧
  sc.e1 = sy.e1 ∧ sc.e2 = 1 ∧ sa.e3 = 1 ∧ sb.e3 = 1 ∧ sc.e3 = 1 ∧ sy.e3 = 1 ∧
  (sa.e4 = sy.e4 ∨ sa.e4 = 1) ∧
  ((sb.e4 = sy.e4 ∧ sc.e4 = sy.e4) ∨ (sb.e4 = 1 ∧ sc.e4 = 1 ∧ sa.e4 = sy.e4))

instance (ta tb : Bool) (sa sb sc sy : Quad) : Decidable (MatMulShapes ta tb sa sb sc sy) := by
  unfold MatMulShapes; infer_instance

/-- The element of the left matrix in row `m` and column `k`. -/
def elemA {α : Type} (ta : Bool) (s : Quad) (x : ℕ → α) (b m k : ℕ) : α :=
  elem x s (if ta then ⟨stackOf s b, 0, k, m⟩ else ⟨stackOf s b, 0, m, k⟩)

/-- The element of the right matrix in row `k` and column `n`. -/
def elemB {α : Type} (tb : Bool) (s : Quad) (x : ℕ → α) (b k n : ℕ) : α :=
  elem x s (if tb then ⟨stackOf s b, 0, n, k⟩ else ⟨stackOf s b, 0, k, n⟩)

/-- An element of `A * B + C`. -/
def matmulVal {α : Type} [CommSemiring α] (ta tb : Bool) (sa sb sc : Quad) (a b c : ℕ → α)
    (i : Quad) : α :=
  ∑ k ∈ Finset.range (depthA ta sa),
    elemA ta sa a i.e4 i.e2 k * elemB tb sb b i.e4 k i.e1
  + elem c sc ⟨stackOf sc i.e4, 0, 0, i.e1⟩

/-- The matrix product of the accelerator on whole matrices: for operands that satisfy `ok` and
whose shapes fit, it computes `A * B + C` when it succeeds.  `shape` gives the shape of an operand. -/
def MatMulOp {α Z : Type} [CommSemiring α] (shape : Z → Quad) (ok : Z → Z → Z → Z → Prop)
    (ta tb : Bool)
    (op : Z → Z → Z → Z → (ℕ → α) → (ℕ → α) → (ℕ → α) → (ℕ → α) → Option (ℕ → α)) : Prop :=
  ∀ za zb zc zy a b c out out', ok za zb zc zy →
    MatMulShapes ta tb (shape za) (shape zb) (shape zc) (shape zy) →
    op za zb zc zy a b c out = some out' →
    Computed (shape zy) (matmulVal ta tb (shape za) (shape zb) (shape zc) a b c) out out'

end Verif.Zdnnx
