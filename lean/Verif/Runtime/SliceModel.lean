import Verif.Runtime.TopKModel
import Verif.Runtime.TensorModel

/-!
# Model of the slice loops of `omTensorSort` and `omTensorTopK`

Source: `/repo/src/Runtime/OMSort.c` 311-391 and `/repo/src/Runtime/OMTopK.c` 178-237. The loop
counters are C `int`s; extents are assumed to fit, so they are natural numbers here.
-/

namespace Verif.Runtime.Sort

/-- Strides of a dense tensor as the loop uses them; all but the last are read. -/
def sumProd : List Nat → List Nat → Nat
  | d :: ds, s :: ss => d * s + sumProd ds ss
  | _, _ => 0

/-- Offsets visited by the five nested loops, OMSort.c 356-372: the rank is padded to six
with extents 1 and strides 0, and the last axis is the sorted one. -/
def sliceOffsets (shape strides : List Nat) : List Nat :=
  let pad := 6 - shape.length
  let shape6 := List.replicate pad 1 ++ shape
  let strides6 := List.replicate pad 0 ++ strides
  (allIndices shape6.dropLast).map fun dims => sumProd dims strides6.dropLast

/-- Apply `f` to the window of length `n` at `off` of the order buffer. -/
def onWindow {α : Type} (f : (Nat → α) → Mem → Option Mem) (data : Nat → α) (n : Nat)
    (order : Nat → Nat) (off : Nat) : Option (Nat → Nat) :=
  (f (fun k => data (off + k)) (fun k => order (off + k.toNat))).map fun m' x =>
    if off ≤ x ∧ x < off + n then m' ((x : Int) - off) else order x

/-- The loop over slices; `none` when the rank is 0 or above 6 (assertions, OMSort.c 317-320). -/
def forEachSlice {α : Type} (f : (Nat → α) → Mem → Option Mem) (shape strides : List Nat)
    (data : Nat → α) (order : Nat → Nat) : Option (Nat → Nat) :=
  if 0 < shape.length ∧ shape.length ≤ 6 then
    (sliceOffsets shape strides).foldlM (onWindow f data (shape.getLast?.getD 0)) order
  else none

/-- `omTensorSort`, OMSort.c 311-391. `sortf` is the sort function in use. -/
def omTensorSort {α : Type} [LinearOrder α]
    (sortf : (Nat → Nat → Int) → Nat → Mem → Option Mem) (asc : Bool) (shape strides : List Nat)
    (data : Nat → α) (order : Nat → Nat) : Option (Nat → Nat) :=
  let n := shape.getLast?.getD 0
  if n = 0 then some order
  else forEachSlice (fun v m => sortf (cmp asc v) n m) shape strides data order

/-- `omTensorTopK`, OMTopK.c 115-238. -/
def omTensorTopK {α : Type} [LinearOrder α]
    (sortf : (Nat → Nat → Int) → Nat → Mem → Option Mem) (threshold : Nat → Nat) (asc : Bool)
    (k : Nat) (sorted : Bool) (shape strides : List Nat)
    (data : Nat → α) (order : Nat → Nat) : Option (Nat → Nat) :=
  let n := shape.getLast?.getD 0
  forEachSlice (fun v m => topK asc v (sortf (cmp asc v)) (threshold n) n k sorted m)
    shape strides data order

/-- Any sort function usable here: permutes the first `n` entries into comparison order and
leaves the rest alone. This is the contract of `qsort_r`. -/
def SortContract (sortf : (Nat → Nat → Int) → Nat → Mem → Option Mem) : Prop :=
  ∀ {α : Type} [LinearOrder α] (asc : Bool) (v : Nat → α) (n : Nat) (m : Mem),
    (toList n m).Nodup →
    ∃ m', sortf (cmp asc v) n m = some m' ∧ (toList n m').Perm (toList n m) ∧
      (toList n m').Pairwise (fun x y => cmp asc v x y < 0) ∧ ∀ k : Int, (k < 0 ∨ n ≤ k) → m' k = m k

/-- The custom quicksort as a sort function. -/
def customSort (rand : Nat → Nat) (c : Nat → Nat → Int) (n : Nat) (m : Mem) : Option Mem :=
  match quickSortCustom c rand n m (2 * n + 1) with
  | .done m' => some m'
  | _ => none

end Verif.Runtime.Sort
