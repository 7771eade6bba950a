import Verif.Rewrite.Tensor
import Mathlib.Data.List.Dedup

/-!
# Einsum (specification)

The definition of Einsum, independent of the code: every axis of every operand carries a subscript; the result has one
axis for each of its subscripts, and its elements are sums of products over all values of the other subscripts. An axis
of extent 1 is stretched to the extent that its subscript has elsewhere.
-/

namespace Verif.Einsum

open Verif.Rewrite

variable {V : Type} [Inhabited V]

/-- The extent of a subscript: that of the axes with this subscript, other than 1 if there is one. -/
def extent (ins : List (List Char × Tensor V)) (x : Char) : ℕ :=
  (((ins.flatMap fun p => p.1.zip p.2.shape).filter fun q => q.1 = x ∧ q.2 ≠ 1).map Prod.snd).headD 1

/-- The index of an operand when the subscripts have the values `σ`: 0 along stretched axes. -/
def index (shape : List ℕ) (subs : List Char) (σ : Char → ℕ) : List ℕ :=
  List.zipWith (fun d x => if d = 1 then 0 else σ x) shape subs

/-- The values of subscripts given by a list of subscripts and a list of values. -/
def valueOf (names : List Char) (vals : List ℕ) (x : Char) : ℕ := vals.getD (names.idxOf x) 0

/-- The subscripts that are summed over. -/
def summed (ins : List (List Char × Tensor V)) (out : List Char) : List Char :=
  ((ins.flatMap Prod.fst).filter (· ∉ out)).dedup

/-- Einsum of operands with the given subscripts. -/
def einsum [CommRing V] (ins : List (List Char × Tensor V)) (out : List Char) : Tensor V :=
  build (out.map (extent ins)) fun idx =>
    ((allIndices ((summed ins out).map (extent ins))).map fun j =>
      (ins.map fun p => p.2.get (index p.2.shape p.1 (valueOf (out ++ summed ins out) (idx ++ j)))).prod).sum

/-- The subscripts fit the operands: one for each axis; axes with the same subscript have the same extent in the same
operand, and the same extent or 1 in different operands; the subscripts of the result are distinct and occur in the
operands. -/
structure Fits (ins : List (List Char × Tensor V)) (out : List Char) : Prop where
  rank : ∀ p ∈ ins, p.1.length = p.2.shape.length
  same : ∀ p ∈ ins, ∀ q ∈ p.1.zip p.2.shape, ∀ r ∈ p.1.zip p.2.shape, q.1 = r.1 → q.2 = r.2
  stretch : ∀ p ∈ ins, ∀ q ∈ p.1.zip p.2.shape, q.2 = 1 ∨ q.2 = extent ins q.1
  nodup : out.Nodup
  occurs : ∀ x ∈ out, ∃ p ∈ ins, x ∈ p.1

end Verif.Einsum
