import Verif.Base.Index
import Verif.Base.Fold
import Mathlib.Order.Lattice
import Mathlib.Order.Defs.LinearOrder

/-!
# Model of the runtime Unique

Source: `/repo/src/Runtime/OMUnique.c`. All four outputs are requested. Elements are any linearly
ordered type whose equality is equality of the stored bytes (all integer types; not floats with
both zeros or NaN).
-/

namespace Verif.Runtime.Unique

/-- `isLessSlice`, OMUnique.c 123-135: the first differing element decides. -/
def isLessSlice {α : Type} [LinearOrder α] : List α → List α → Bool
  | x :: xs, y :: ys => if x ≠ y then decide (x < y) else isLessSlice xs ys
  | _, _ => false

/-- `sliceTable`, OMUnique.c 30-55: slices, counts, indices up to `numberOfSlices`, and the
filled part of the inverse indices. -/
structure Table (σ : Type) where
  slices : List σ
  counts : List Nat
  indices : List Nat
  inverse : List Nat

def Table.empty {σ : Type} : Table σ := ⟨[], [], [], []⟩

/-- Search loop, OMUnique.c 219-232: position where the loop stops and whether the slice was
found. -/
def search {σ : Type} [DecidableEq σ] (sorted : Bool) (less : σ → σ → Bool) (x : σ) :
    List σ → Nat → Nat × Bool
  | [], i => (i, false)
  | s :: ss, i =>
    if s = x then (i, true)
    else if sorted && !less s x then (i, false)
    else search sorted less x ss (i + 1)

/-- `sliceTableRegister`, OMUnique.c 209-260. The shifting loop followed by the write at
`insertIdx` is list insertion. `off` is the number of slices registered before, so the writes to
`inverseIndices[off]` append. -/
def register {σ : Type} [DecidableEq σ] (sorted : Bool) (less : σ → σ → Bool) (t : Table σ)
    (x : σ) : Table σ :=
  let off := t.inverse.length
  let r := search sorted less x t.slices 0
  let ins := r.1
  let t' : Table σ :=
    if r.2 then { t with counts := t.counts.modify ins (· + 1) }
    else
      { slices := t.slices.insertIdx ins x
        counts := t.counts.insertIdx ins 1
        indices := t.indices.insertIdx ins off
        inverse := t.inverse.map fun j => if j ≥ ins then j + 1 else j }
  { t' with inverse := t'.inverse ++ [ins] }

/-- The registration loops of `omTensorUnique`, OMUnique.c 384-390 and 411-417. -/
def registerAll {σ : Type} [DecidableEq σ] (sorted : Bool) (less : σ → σ → Bool)
    (xs : List σ) : Table σ :=
  xs.foldl (register sorted less) Table.empty

/-- `omTensorUnique` without axis, OMUnique.c 375-390. -/
def uniqueFlat {α : Type} [LinearOrder α] (sorted : Bool) (xs : List α) : Table α :=
  registerAll sorted (fun a b => isLessSlice [a] [b]) xs

/-- Index enumeration of the nested loops with `dim[0]` innermost, OMUnique.c 172-177. Loops over
the padding axes run once and are left out. -/
def colMajorIndices (shape : List Nat) : List (List Nat) :=
  (allIndices shape.reverse).map List.reverse

/-- `getSliceData`, OMUnique.c 146-194. The tensor is given as a function of the multi-index. -/
def getSliceData {α : Type} (shape : List Nat) (data : List Nat → α) (axis idx : Nat) : List α :=
  (colMajorIndices (shape.set axis 1)).map fun dim => data (dim.set axis idx)

/-- `produceY`, OMUnique.c 268-334: writes to the dense output buffer. -/
def produceY {α : Type} (shape : List Nat) (data : List Nat → α) (axis : Nat)
    (indices : List Nat) (buf : Nat → α) : Nat → α :=
  let outShape := shape.set axis indices.length
  writeAll (rowMajor outShape)
    (fun dim => data (dim.set axis (indices.getD (dim.getD axis 0) 0)))
    (colMajorIndices outShape) buf

/-- `omTensorUnique` with an axis, OMUnique.c 391-421. -/
def uniqueAxis {α : Type} [LinearOrder α] (sorted : Bool) (shape : List Nat)
    (data : List Nat → α) (axis : Nat) (buf : Nat → α) : Table (List α) × (Nat → α) :=
  let t := registerAll sorted isLessSlice
    ((List.range (shape.getD axis 0)).map (getSliceData shape data axis))
  (t, if t.slices.length > 0 then produceY shape data axis t.indices buf else buf)

end Verif.Runtime.Unique
