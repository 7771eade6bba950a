import Verif.Layout.Spec
/-!
# Changes of layout: the code (C125)

Models `/repo/src/Conversion/ONNXToKrnl/Additional/LayoutTransform.cpp` and the copy of
`/repo/src/Conversion/KrnlToLLVM/KrnlMemcpy.cpp`, in elements.

The outer loops are one loop over rows; the iterations may run in any order, see the theorems.
-/
namespace Verif.Layout

/-- `inspectMappedLowestDim` (LayoutTransform.cpp:47-92): none when it returns false, else the
modulo, which is none for -1. The dimension of the expression is compared with the last one. -/
def inspect (L : Layout) : Option (Option Nat) :=
  match L.form with
  | .inner => some none
  | .innerMod m => if m > 0 then some (some m) else none
  | .outer _ _ => none
  | .outerMod _ _ => none
  | .other _ _ => none

/-- The tests of the modulos (LayoutTransform.cpp:229-233). -/
def goodMods : Option Nat → Option Nat → Bool
  | none, some b => decide (b ≥ 16)
  | some a, none => decide (a ≥ 16)
  | some a, some b => decide (a = b)
  | none, none => false

/-- Whether tiles are copied (LayoutTransform.cpp:225-240). -/
def useTiles (rank : Nat) (L M : Layout) : Bool :=
  match inspect L, inspect M with
  | some a, some b => decide (rank ≥ 2) && goodMods a b
  | _, _ => false

/-- The modulo of a layout, as passed to `generateLayoutWithMod`; 0 stands for -1. -/
def modOf (L : Layout) : Nat := ((inspect L).getD none).getD 0

/-- A memory with a size. -/
structure Mem (α : Type) where
  size : Nat
  at_ : Nat → Option α

/-- `krnl.memcpy` (KrnlMemcpy.cpp:41-101); none when it reads or writes outside. -/
def memcpy {α : Type} (dst src : Mem α) (len dstOff srcOff : Nat) : Option (Mem α) :=
  if dstOff + len ≤ dst.size ∧ srcOff + len ≤ src.size then
    some { size := dst.size
           at_ := fun a => if dstOff ≤ a ∧ a < dstOff + len then src.at_ (srcOff + (a - dstOff))
             else dst.at_ a }
  else none

/-- `modVal` (LayoutTransform.cpp:105). -/
def modVal (L M : Layout) : Nat := if modOf L > modOf M then modOf L else modOf M

/-- The number of elements that are copied (LayoutTransform.cpp:146-173), with `isTileFull`
(IndexExprBuilder.cpp:447-461). -/
def tileLen (M : Layout) (m E t : Nat) : Nat :=
  if modOf M ≠ 0 then m
  else if E % m = 0 ∨ t * m + m ≤ E then m
  else E - t * m

/-- The body of the loop of `generateLayoutWithMod` (LayoutTransform.cpp:122-174), for row `r` and
tile `t`. -/
def copyTile {α : Type} (L M : Layout) (E : Nat) (src : Mem α) (dst : Mem α) (r t : Nat) :
    Option (Mem α) :=
  let m := modVal L M
  memcpy dst src (tileLen M m E t) (M.addr E r (t * m)) (L.addr E r (t * m))

/-- The body of the loop over all elements (LayoutTransform.cpp:250-255; a load and a store). -/
def copyElement {α : Type} (L M : Layout) (E : Nat) (src : Mem α) (dst : Mem α) (r e : Nat) :
    Option (Mem α) :=
  memcpy dst src 1 (M.addr E r e) (L.addr E r e)

/-- A loop over pairs of indices. -/
def loop {α : Type} (body : Mem α → Nat → Nat → Option (Mem α)) :
    List (Nat × Nat) → Mem α → Option (Mem α)
  | [], d => some d
  | (r, t) :: rest, d =>
    match body d r t with
    | none => none
    | some d' => loop body rest d'

/-- The iterations of two nested loops. -/
def pairs (R T : Nat) : List (Nat × Nat) :=
  (List.range R).flatMap fun r => (List.range T).map fun t => (r, t)

/-- Number of tiles of a row: `ub1.ceilDiv(modVal)` (LayoutTransform.cpp:111). -/
def tiles (L M : Layout) (E : Nat) : Nat := (E + modVal L M - 1) / modVal L M

/-- The memory that is allocated: its values are undefined. -/
def alloc (α : Type) (M : Layout) (E : Nat) : Mem α := { size := M.size E, at_ := fun _ => none }

/-- The iterations of the loops (LayoutTransform.cpp:122 and 250). -/
def iterations (rank : Nat) (L M : Layout) (R E : Nat) : List (Nat × Nat) :=
  if useTiles rank L M then pairs R (tiles L M E) else pairs R E

/-- What the lowering of `onnx.LayoutTransform` does (LayoutTransform.cpp:179-260) when the
iterations run in the given order. -/
def transform {α : Type} (rank : Nat) (L M : Layout) (E : Nat) (src : Mem α)
    (order : List (Nat × Nat)) : Option (Mem α) :=
  if useTiles rank L M then loop (copyTile L M E src) order (alloc α M E)
  else loop (copyElement L M E src) order (alloc α M E)

end Verif.Layout
