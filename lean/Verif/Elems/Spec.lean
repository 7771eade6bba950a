import Verif.Elems.Model

/-!
# Specification vocabulary for constants

A constant is read through `wideNums`, the flat list of its elements. `value` indexes that list.
-/

namespace Verif.Elems

variable {W : Type}

/-- Element of a constant at a multi-index, as read from the flat list of elements. -/
def value (e : Elms W) (idx : List Nat) : Option W :=
  e.wideNums.bind fun l => l[rowMajor e.shape idx]?

/-- Numpy broadcasting of a shape to another: align the last axes; each extent agrees or is 1. -/
def BroadcastTo (s S : List Nat) : Prop :=
  s.length ≤ S.length ∧
    List.Forall₂ (fun d D => d = D ∨ d = 1) s (S.drop (S.length - s.length))

/-- The element of a tensor of shape `s` that a broadcast shows at `idx`. -/
def bIdx (s idx : List Nat) : List Nat :=
  List.zipWith (fun d i => if d = 1 then 0 else i) s (idx.drop (idx.length - s.length))

/-- Offset of an index for non-negative strides. -/
def posN : List Nat → List Nat → Nat
  | i :: is, s :: ss => i * s + posN is ss
  | _, _ => 0

/-- Product of the extents of the axes with a nonzero stride. -/
def nzProd : List Nat → List Nat → Nat
  | d :: ds, s :: ss => (if s = 0 then 1 else d) * nzProd ds ss
  | _, _ => 1

/-- The invariant of constants: what a user gets by building constants from buffers that fit their
shape and applying builder operations. -/
structure WF (e : Elms W) : Prop where
  len : e.strides.length = e.shape.length
  /-- Axes of extent one do not move in the buffer. -/
  one : ∀ k : Nat, e.shape[k]? = some 1 → e.strides[k]? = some 0
  /-- Every element lies in the buffer. -/
  bnd : ∀ idx, InBounds e.shape idx → posN idx e.strides < e.buf.length
  /-- The buffer holds one entry per index of the axes that move. -/
  size : nzProd e.shape e.strides = e.buf.length
  /-- Every entry of the buffer is some element, unless there are no elements. -/
  onto : 0 < e.shape.prod → ∀ k : Nat, k < e.buf.length → ∃ idx, InBounds e.shape idx ∧ posN idx e.strides = k

end Verif.Elems
