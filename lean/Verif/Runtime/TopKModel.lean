import Verif.Runtime.SortModel

/-!
# Model of the runtime TopK

Source: `/repo/src/Runtime/OMTopK.c`. Same array model as the sort.
-/

namespace Verif.Runtime.Sort

/-- `heap_sift_down`, OMTopK.c 43-87. `fuel` bounds the loop; running out of it is the
outcome `none`, which the proofs exclude. -/
def siftDown (n : Int) (c : Nat → Nat → Int) (e : Int) : Nat → Int → Mem → Option Mem
  | 0, _, _ => none
  | f + 1, root, m =>
    if root * 2 + 1 ≤ e then
      let child := root * 2 + 1
      (rd n m root).bind fun x => (rd n m child).bind fun y =>
      let s1 := if c x y > 0 then child else root
      (if child + 1 ≤ e then
        (rd n m s1).bind fun x => (rd n m (child + 1)).bind fun y =>
          some (if c x y > 0 then child + 1 else s1)
       else some s1).bind fun s2 =>
      if s2 = root then some m
      else (swap n m root s2).bind fun m' => siftDown n c e f s2 m'
    else some m

/-- `make_heap`, OMTopK.c 92-103: `start` runs from `k/2 - 1` down to 0. -/
def makeHeap (n : Int) (c : Nat → Nat → Int) (k : Nat) (m : Mem) : Option Mem :=
  (List.range (k / 2)).reverse.foldlM
    (fun m (start : Nat) => siftDown n c ((k : Int) - 1) (k + 1) start m) m

/-- Body of the selection loop, OMTopK.c 206-223. -/
def topKStep (n : Int) (heapC loopC : Nat → Nat → Int) (k : Nat) (m : Mem) (i : Nat) :
    Option Mem :=
  (rd n m i).bind fun x => (rd n m 0).bind fun y =>
    if loopC x y < 0 then
      (swap n m 0 i).bind fun m' => siftDown n heapC ((k : Int) - 1) (k + 1) 0 m'
    else some m

/-- One slice of `omTensorTopK`, OMTopK.c 137-232. `sortf len array` is the sort function in
use (`qsort_r` of the C library, or `quick_sort_custom`) with the comparison in the requested
direction. `threshold` is `(int64_t)(sort_elems * 0.9)`; nothing depends on its value. -/
def topK {α : Type} [LinearOrder α] (asc : Bool) (v : Nat → α)
    (sortf : Nat → Mem → Option Mem) (threshold n k : Nat) (sorted : Bool) (m : Mem) :
    Option Mem :=
  if k = 0 ∨ n = 0 then some m
  else if k ≥ threshold then sortf n m
  else
    let heapC := cmp (!asc) v
    let loopC := cmp asc v
    (makeHeap n heapC k m).bind fun m1 =>
    ((List.range' k (n - k)).foldlM (topKStep n heapC loopC k) m1).bind fun m2 =>
    if sorted then sortf k m2 else some m2

end Verif.Runtime.Sort
