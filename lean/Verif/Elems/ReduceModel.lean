import Verif.Elems.Model
import Mathlib.Data.List.Sort

/-!
# Model of reducing, multiplying and comparing constants

Source: `/repo/src/Dialect/ONNX/ElementsAttr/ElementsAttrBuilder.cpp`.
-/

namespace Verif.Elems

variable {W : Type}

/-- The shapes and strides computed by the loop 869-884: of the axes that are reduced, and of the
result. `axes` are the sorted axes from the iterator `it` on. -/
structure ReduceDims where
  axesShape : List Nat
  axesStrides : List Nat
  shape : List Nat
  strides : List Nat

def reduceDims (keep : Bool) : Nat → List Nat → List Nat → List Nat → ReduceDims
  | axis, axes, d :: ds, s :: ss =>
    match axes with
    | a :: as =>
      if a = axis then
        let r := reduceDims keep (axis + 1) as ds ss
        { axesShape := d :: r.axesShape
          axesStrides := s :: r.axesStrides
          shape := if keep then 1 :: r.shape else r.shape
          strides := if keep then 0 :: r.strides else r.strides }
      else
        let r := reduceDims keep (axis + 1) (a :: as) ds ss
        { r with shape := d :: r.shape, strides := s :: r.strides }
    | [] =>
      let r := reduceDims keep (axis + 1) [] ds ss
      { r with shape := d :: r.shape, strides := s :: r.strides }
  | _, _, _, _ => { axesShape := [], axesStrides := [], shape := [], strides := [] }

/-- The body of `work` for one element, 916-929. -/
def reduceOne (red : W → W → W) (nums : List W) (axesRange : List (IdxOffs Unit)) (src : Int) : Option W :=
  match axesRange with
  | [] => none
  | _ :: rest => (getZ nums src).bind fun d =>
      rest.foldlM (fun d v => (getZ nums (src + v.offs ())).map fun x => red d x) d

/-- `reduce`, 841-955, computed sequentially. `Verif/Par` shows that the parallel loop gives the same.
`std::sort` is insertion sort here. `none`: a failed assertion or an access outside the buffer. -/
def reduce (red : W → W → W) (e : Elms W) (axes : List Nat) (keep : Bool) : Option (Elms W) :=
  if e.shape.prod = 0 then none
  else if axes = [] then some e
  else if ¬ axes.Nodup then none
  else
    let r := reduceDims keep 0 (axes.insertionSort (· ≤ ·)) e.shape e.strides
    let inner := stridesRange r.axesShape (pack1 r.axesStrides)
    ((stridesRange r.shape (pack1 r.strides)).mapM fun v =>
      reduceOne red e.bufWide inner (v.offs ())).map (fromWideNums r.shape)

/-- The inner loop of `matMul`, 1055-1062; `k` iterations are left. -/
def dotLoop (add mul : W → W → W) (lhs rhs : List W) (ls rs : Nat) : Nat → Int → Int → W → Option W
  | 0, _, _, acc => some acc
  | k + 1, lp, rp, acc =>
    (getZ lhs lp).bind fun l => (getZ rhs rp).bind fun r =>
      dotLoop add mul lhs rhs ls rs k (lp + ls) (rp + rs) (add acc (mul l r))

/-- `matMul`, 957-1069. `batch` is the result of `getBroadcastedShape`. -/
def matMul (zero : W) (add mul : W → W → W) (lhs rhs : Elms W) (batch : List Nat) : Option (Elms W) :=
  let lr := lhs.shape.length
  let rr := rhs.shape.length
  if lr = 0 ∨ rr = 0 then none
  else
    let M := if lr = 1 then 1 else lhs.shape.getD (lr - 2) 0
    let N := if rr = 1 then 1 else rhs.shape.getD (rr - 1) 0
    let K := lhs.shape.getD (lr - 1) 0
    if K ≠ rhs.shape.getD (if rr = 1 then 0 else rr - 2) 0 then none
    else
      let shape := batch ++ [M, N]
      let rank := shape.length
      let lx := lhs.expanded (if lr = 1 then batch.length + 1 else batch.length + 2)
      let ls := if lr = 1 then lx.2.take (lx.2.length - 1) ++ 0 :: lx.2.drop (lx.2.length - 1) else lx.2
      let lAxis := ls.getD (rank - 1) 0
      let ls := ls.set (rank - 1) 0
      let rx := rhs.expanded (if rr = 1 then batch.length + 1 else batch.length + 2)
      let rs := if rr = 1 then rx.2 ++ [0] else rx.2
      let rAxis := rs.getD (rank - 2) 0
      let rs := rs.set (rank - 2) 0
      ((stridesRange shape (pack2 ls rs)).mapM fun v =>
        dotLoop add mul lx.1 rx.1 lAxis rAxis K (v.offs false) (v.offs true) zero).map
        (fromWideNums (batch ++ (if lr = 1 then [] else [M]) ++ (if rr = 1 then [] else [N])))

/-- `llvm::all_of` with a predicate that may read outside a buffer. -/
def allOf {α : Type} (p : α → Option Bool) : List α → Option Bool
  | [] => some true
  | a :: l => (p a).bind fun b => if b then allOf p l else some false

/-- `equal`, 109-138. `shape` is the result of `getBroadcastedShape`; `same` compares after narrowing. -/
def equal (same : W → W → Bool) (lhs rhs : Elms W) (shape : List Nat) : Option Bool :=
  let l := lhs.expanded shape.length
  let r := rhs.expanded shape.length
  allOf (fun v => (getZ l.1 (v.offs false)).bind fun x => (getZ r.1 (v.offs true)).map fun y => same x y)
    (stridesRange shape (pack2 l.2 r.2))

/-- `allEqual`, 141-170, for a `DisposableElementsAttr`: all entries of the buffer are compared. -/
def allEqual (same : W → W → Bool) (e : Elms W) (n : W) : Bool := e.bufWide.all (same n)

/-- `range`, 1071-1083. -/
def rangeLoop (add : W → W → W) (delta : W) : Nat → W → List W
  | 0, _ => []
  | n + 1, x => x :: rangeLoop add delta n (add x delta)

def range (add : W → W → W) (n : Nat) (start delta : W) : Elms W :=
  fromWideNums [n] (rangeLoop add delta n start)

/-- `nonZeroIndices`, 1094-1104. -/
def nonZeroIndices (zero : W → Bool) (e : Elms W) : Option (List Nat) :=
  e.wideNums.bind fun vals =>
    (stridesRange (ι := Empty) e.shape (e.shape.map fun _ => Empty.elim)).foldlM
      (fun acc v => (vals[v.flat]?).map fun x => if zero x then acc else acc ++ v.index) []

/-- `nonZero`, 1107-1124. Dividing by the rank 0 is `none`. -/
def nonZero (zero : W → Bool) (e : Elms W) : Option (Elms Nat) :=
  let rank := e.shape.length
  if rank = 0 then none
  else (nonZeroIndices zero e).bind fun ind =>
    let count := ind.length / rank
    ((List.range (rank * count)).mapM fun p => ind[p % count * rank + p / count]?).map
      (fromWideNums [rank, count])

end Verif.Elems
