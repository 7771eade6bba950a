import Verif.Rewrite.OnnxArith

/-!
# ONNX reductions (specification)

What the ONNX definitions of the Reduce operators say. Like `Onnx.lean` this is reference semantics and models no
code of the compiler.
-/

namespace Verif.Rewrite

variable {V : Type} [Inhabited V]

/-- The axes that are reduced. Without axes, or with an empty list of axes, these are all axes, unless
`noop_with_empty_axes` is set. -/
def redAxes (r : ℕ) (axes : Option (List ℤ)) (noop : Bool) : Option (List ℕ) :=
  match axes.getD [] with
  | [] => some (if noop then [] else List.range r)
  | l => l.mapM (normAxis r)

/-- Drop the coordinates along the axes `R`, or set them to `v` if the axes are kept. -/
def project (R : List ℕ) (keep : Bool) (v : ℕ) (l : List ℕ) : List ℕ :=
  if keep then l.zipIdx.map fun p => if p.2 ∈ R then v else p.1 else dropAt R l

/-- The elements of a tensor that go into element `idx` of a reduction: those that agree with it on the axes that are not
reduced. -/
def reduced (x : Tensor V) (R : List ℕ) (keep : Bool) (idx : List ℕ) : List V :=
  ((allIndices x.shape).filter fun p => project R keep 0 p = idx).map x.get

/-- A reduction with a function of lists of elements. -/
def reduceWith (f : List V → V) (x : Tensor V) (R : List ℕ) (keep : Bool) : Tensor V :=
  build (project R keep 1 x.shape) fun idx => f (reduced x R keep idx)

/-- A Reduce operator. -/
def reduceOp (f : List V → V) (x : Tensor V) (axes : Option (List ℤ)) (keep noop : Bool) : Option (Tensor V) :=
  (redAxes x.shape.length axes noop).map fun R => reduceWith f x R keep

/-- ReduceSum. -/
def reduceSum (A : Alg V) : Tensor V → Option (List ℤ) → Bool → Bool → Option (Tensor V) :=
  reduceOp fun l => sumOver A l id

end Verif.Rewrite
