import Mathlib.Data.List.Basic
import Mathlib.Data.Nat.Basic
/-!
# Changes of layout: specification (C125)

A tensor has `R` rows (its outer dimensions taken together) of `E` elements. A layout says where an
element is in memory.
-/
namespace Verif.Layout

/-- What the last index of the memory is: the last index of the tensor, its remainder by `m`,
another index of the tensor or its remainder, or something else; `w` is the size of the last
dimension of the memory where it does not follow. -/
inductive Form where
  | inner
  | innerMod (m : Nat)
  | outer (w : Nat) (f : Nat → Nat)
  | outerMod (m : Nat) (f : Nat → Nat)
  | other (w : Nat) (f : Nat → Nat → Nat)

/-- A layout: `lead` are the indices of the memory before the last one, taken together, and `rows`
how many there are. -/
structure Layout where
  form : Form
  lead : Nat → Nat → Nat
  rows : Nat

/-- Size of the last dimension of the memory. -/
def Layout.width (L : Layout) (E : Nat) : Nat :=
  match L.form with
  | .inner => E
  | .innerMod m => m
  | .outer w _ => w
  | .outerMod m _ => m
  | .other w _ => w

/-- The last index of the memory. -/
def Layout.last (L : Layout) (r e : Nat) : Nat :=
  match L.form with
  | .inner => e
  | .innerMod m => e % m
  | .outer _ f => f r
  | .outerMod m f => f r % m
  | .other _ f => f r e

/-- Where element `e` of row `r` is. -/
def Layout.addr (L : Layout) (E r e : Nat) : Nat := L.lead r e * L.width E + L.last r e

/-- Number of elements of the memory. -/
def Layout.size (L : Layout) (E : Nat) : Nat := L.rows * L.width E

/-- A layout has a place for every element, and no place for two. -/
structure Layout.Ok (L : Layout) (R E : Nat) : Prop where
  last_lt : ∀ r e, r < R → e < E → L.last r e < L.width E
  lead_lt : ∀ r e, r < R → e < E → L.lead r e < L.rows
  inj : ∀ r e r' e', r < R → e < E → r' < R → e' < E → L.addr E r e = L.addr E r' e' →
    r = r' ∧ e = e'

/-- The indices before the last one do not depend on the last index of the tensor, or only on its
quotient by the number whose remainder is the last one. -/
def Layout.Regular (L : Layout) (R E : Nat) : Prop :=
  ∀ r e, r < R → e < E →
    (L.form = .inner → L.lead r e = L.lead r 0) ∧
    (∀ m, L.form = .innerMod m → L.lead r e = L.lead r (e / m * m))

/-- The memory has the elements `x`. -/
def Holds {α : Type} (L : Layout) (R E : Nat) (x : Nat → Nat → α) (mem : Nat → Option α) : Prop :=
  ∀ r e, r < R → e < E → mem (L.addr E r e) = some (x r e)

/-- The row-major layout. -/
def plain (R : Nat) : Layout := { form := .inner, lead := fun r _ => r, rows := R }

/-- The layout whose rows are cut into tiles of `m` elements. -/
def tiled (R E m : Nat) : Layout :=
  { form := .innerMod m, lead := fun r e => r * ((E + m - 1) / m) + e / m
    rows := R * ((E + m - 1) / m) }

end Verif.Layout
