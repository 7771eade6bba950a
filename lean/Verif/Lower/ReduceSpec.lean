import Verif.Lower.ReduceModel

/-!
Specification of reductions, independent of the lowering.
-/

namespace Verif.Lower

/-- The dimensions to reduce: those named by an axis, counted from the front or from the
back; all of them without axes, unless that is asked to be a no-op. -/
def Marked (rank : ℕ) (axes : List ℤ) (noop : Bool) (red : List Bool) : Prop :=
  red.length = rank ∧ ∀ i < rank, red.getD i false = true ↔
    (axes = [] ∧ noop = false) ∨ ∃ a ∈ axes, a = (i : ℤ) ∨ a = (i : ℤ) - rank

/-- Axes within `[-rank, rank)`. -/
def AxesInRange (rank : ℕ) (axes : List ℤ) : Prop := ∀ a ∈ axes, -(rank : ℤ) ≤ a ∧ a < rank

/-- Result dimensions: a reduced dimension becomes 1 or disappears. -/
def specDims (keep : Bool) (red : List Bool) (dims : List ℤ) : List ℤ :=
  (red.zip dims).filterMap fun p => if p.1 then (if keep then some 1 else none) else some p.2

/-- The output index an input index contributes to: reduced positions become 0 when
the dimensions are kept and disappear otherwise. -/
def project (keep : Bool) : List Bool → Idx → Idx
  | true :: red, _ :: xs => if keep then 0 :: project keep red xs else project keep red xs
  | false :: red, x :: xs => x :: project keep red xs
  | _, _ => []

/-- The input indices contributing to output index `o`, in row-major order. -/
def contributing (dims : List ℤ) (keep : Bool) (red : List Bool) (o : Idx) : List Idx :=
  (idxs dims).filter fun i => project keep red i = o

/-- One result element of an ONNX reduction. -/
def specAt {R : Type*} (N : NumOps R) (k : RKind) (X : Mem R) (keep : Bool) (red : List Bool)
    (o : Idx) : R :=
  let vals := (contributing X.shape keep red o).map X.data
  match k with
  | .sum => vals.foldl N.add N.zero
  | .mean => N.div (vals.foldl N.add N.zero) (N.ofInt vals.length)
  | .prod => vals.foldl N.mul N.one
  | .max => vals.foldl N.max N.negInf
  | .min => vals.foldl N.min N.posInf

/-- An associative and commutative operation with a neutral element. -/
structure IsCommMon {R : Type*} (op : R → R → R) (e : R) : Prop where
  assoc : ∀ a b c, op (op a b) c = op a (op b c)
  comm : ∀ a b, op a b = op b a
  id_left : ∀ a, op e a = a

/-- "reduction function must be associative and commutative" (Reduction.cpp 604). -/
def Laws {R : Type*} (N : NumOps R) : RKind → Prop
  | .sum => IsCommMon N.add N.zero
  | .mean => IsCommMon N.add N.zero
  | .prod => IsCommMon N.mul N.one
  | .max => IsCommMon N.max N.negInf
  | .min => IsCommMon N.min N.posInf

/-- `o` is the reduction of `X` over the dimensions marked by `red`. -/
def IsReduction {R : Type*} (N : NumOps R) (k : RKind) (X : Mem R) (keep : Bool) (red : List Bool)
    (o : Mem R) : Prop :=
  o.shape = specDims keep red X.shape ∧
    ∀ i, InShape i o.shape → o.data i = specAt N k X keep red i

end Verif.Lower
