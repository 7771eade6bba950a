import Verif.Rewrite.Tensor
import Mathlib.Algebra.Order.Field.Rat
import Mathlib.Data.List.FinRange

/-!
# ONNX operators on tensors (specification)

What the ONNX operator definitions say about the operators that the graph rewrites touch. This is the
reference semantics of the rewrite properties: it does not model any code of the compiler. `none` means
that the definition gives no result for these operands (shapes that do not fit, an axis out of range...).
Source of the definitions: https://onnx.ai/onnx/operators, as quoted in /repo/docs/Dialects/onnx.md.
-/

namespace Verif.Rewrite

variable {V : Type} [Inhabited V]

/-! ### Axes -/

/-- An axis in `[-r, r)` counted from the end when negative. -/
def normAxis (r : ℕ) (a : ℤ) : Option ℕ :=
  if 0 ≤ a ∧ a < r then some a.toNat
  else if a < 0 ∧ 0 ≤ a + r then some (a + r).toNat else none

/-! ### Broadcasting -/

/-- Extend a shape on the left with 1s up to rank `r`. -/
def padOnes (r : ℕ) (s : List ℕ) : List ℕ := List.replicate (r - s.length) 1 ++ s

/-- Two extents are compatible when they are equal or one of them is 1. -/
def bdim (a b : ℕ) : Option ℕ := if a = b then some a else if a = 1 then some b
  else if b = 1 then some a else none

/-- Pointwise compatible extents. -/
def bdims : List ℕ → List ℕ → Option (List ℕ)
  | [], [] => some []
  | a :: as, b :: bs => (bdim a b).bind fun d => (bdims as bs).map (d :: ·)
  | _, _ => none

/-- The broadcast of two shapes: aligned at the right. -/
def bshape (a b : List ℕ) : Option (List ℕ) :=
  bdims (padOnes (max a.length b.length) a) (padOnes (max a.length b.length) b)

/-- Index of the element of an operand of shape `s` that is used at index `idx` of a broadcast result:
the trailing coordinates, with 0 wherever the operand has extent 1. -/
def bidx (s idx : List ℕ) : List ℕ :=
  List.zipWith (fun d i => if d = 1 then 0 else i) s (idx.drop (idx.length - s.length))

/-- Element-wise operator with broadcasting. -/
def binary (f : V → V → V) (a b : Tensor V) : Option (Tensor V) :=
  (bshape a.shape b.shape).map fun s =>
    build s fun i => f (a.get (bidx a.shape i)) (b.get (bidx b.shape i))

/-- Expand: broadcast to a given shape. -/
def expand (a : Tensor V) (s : List ℕ) : Option (Tensor V) :=
  (bshape a.shape s).map fun s => build s fun i => a.get (bidx a.shape i)

/-! ### Transpose -/

/-- The default of Transpose reverses the axes. -/
def permOf (r : ℕ) : Option (List ℤ) → Option (List ℕ)
  | none => some (List.range r).reverse
  | some p => p.mapM (normAxis r)

/-- `p` lists every axis of rank `r` exactly once. -/
def IsPerm (r : ℕ) (p : List ℕ) : Prop := p.length = r ∧ p.Nodup ∧ ∀ a ∈ p, a < r

instance (r : ℕ) (p : List ℕ) : Decidable (IsPerm r p) := by unfold IsPerm; infer_instance

/-- Axis `k` of the result is axis `p[k]` of the data. -/
def transpose (x : Tensor V) (p : List ℕ) : Option (Tensor V) :=
  if IsPerm x.shape.length p then
    some (build (p.map fun a => x.shape.getD a 0) fun idx =>
      x.get ((List.range x.shape.length).map fun a => idx.getD (p.idxOf a) 0))
  else none

/-! ### Reshape, Squeeze, Unsqueeze -/

/-- The extents that a Reshape request asks for, with -1 left open: a 0 copies the extent of the data unless
`allowzero` is set. -/
def reqDims (d : List ℕ) (az : Bool) : ℕ → List ℤ → Option (List (Option ℕ))
  | _, [] => some []
  | k, s :: ss =>
    (if s = -1 then some none
     else if s = 0 then (if az then some (some 0) else d[k]?.map some)
     else if 0 < s then some (some s.toNat) else none).bind fun x =>
      (reqDims d az (k + 1) ss).map (x :: ·)

/-- Fill in the open extent so that the number of elements is kept. -/
def fillDims (total : ℕ) (q : List (Option ℕ)) : Option (List ℕ) :=
  if q.count none = 0 then some (q.map fun x => x.getD 0)
  else if q.count none = 1 then
    if (q.map fun x => x.getD 1).prod = 0 then none
    else some (q.map fun x => x.getD (total / (q.map fun x => x.getD 1).prod))
  else none

/-- Reshape. -/
def reshape (x : Tensor V) (az : Bool) (s : List ℤ) : Option (Tensor V) :=
  (reqDims x.shape az 0 s).bind fun q => (fillDims x.shape.prod q).bind fun d => x.retag d

/-- The entries of a list whose position is not in `ax`. -/
def dropAt {α : Type} (ax : List ℕ) (s : List α) : List α :=
  (s.zipIdx.filter fun p => p.2 ∉ ax).map Prod.fst

/-- Squeeze: remove the given axes, which must have extent 1; without axes, all those of extent 1. -/
def squeeze (x : Tensor V) : Option (List ℤ) → Option (Tensor V)
  | none => x.retag (x.shape.filter (· ≠ 1))
  | some axes => (axes.mapM (normAxis x.shape.length)).bind fun ax =>
      if ∀ a ∈ ax, x.shape.getD a 0 = 1 then x.retag (dropAt ax x.shape) else none

/-- The shape of rank `n` with 1 at the axes `ax` and the entries of `s` in order elsewhere. -/
def insertOnes (ax : List ℕ) : ℕ → ℕ → List ℕ → List ℕ
  | _, 0, _ => []
  | k, n + 1, s => if k ∈ ax then 1 :: insertOnes ax (k + 1) n s
    else match s with
      | [] => 1 :: insertOnes ax (k + 1) n []
      | d :: s => d :: insertOnes ax (k + 1) n s

/-- Unsqueeze: insert extents 1 at the given axes of the result. -/
def unsqueeze (x : Tensor V) (axes : List ℤ) : Option (Tensor V) :=
  (axes.mapM (normAxis (x.shape.length + axes.length))).bind fun ax =>
    if ax.Nodup then x.retag (insertOnes ax 0 (x.shape.length + axes.length) x.shape) else none

/-! ### Concat, Split, Slice, Tile -/

/-- The element of a concatenation along `ax`: the coordinate along `ax` runs through the operands in turn. -/
def concatGet (ax : ℕ) : List (Tensor V) → List ℕ → V
  | [], _ => default
  | t :: ts, idx =>
    if idx.getD ax 0 < t.shape.getD ax 0 then t.get idx
    else concatGet ax ts (idx.set ax (idx.getD ax 0 - t.shape.getD ax 0))

/-- Concat: all operands have the same extents except along the axis. -/
def concat (ts : List (Tensor V)) (axis : ℤ) : Option (Tensor V) :=
  match ts with
  | [] => none
  | t :: _ => (normAxis t.shape.length axis).bind fun ax =>
      if ∀ u ∈ ts, u.shape.set ax 0 = t.shape.set ax 0 then
        some (build (t.shape.set ax (ts.map fun u => u.shape.getD ax 0).sum) (concatGet ax ts))
      else none

/-- The piece of size `n` of a tensor starting at position `o` of an axis. -/
def piece (x : Tensor V) (ax o n : ℕ) : Tensor V :=
  build (x.shape.set ax n) fun idx => x.get (idx.set ax (idx.getD ax 0 + o))

/-- Split with given sizes: output number `i`. -/
def splitOut (x : Tensor V) (axis : ℤ) (sizes : List ℤ) (i : ℕ) : Option (Tensor V) :=
  (normAxis x.shape.length axis).bind fun ax =>
    if (∀ s ∈ sizes, 0 ≤ s) ∧ sizes.sum = x.shape.getD ax 0 ∧ i < sizes.length then
      some (piece x ax (sizes.take i).sum.toNat (sizes.getD i 0).toNat)
    else none

/-- First position, step and number of positions taken from an axis of extent `d` by Slice. -/
def sliceAxis (d : ℕ) (start stop step : ℤ) : Option (ℤ × ℤ × ℕ) :=
  if step = 0 then none
  else
    let s := if start < 0 then start + d else start
    let e := if stop < 0 then stop + d else stop
    if 0 < step then
      let s := max 0 (min s d)
      let e := max 0 (min e d)
      some (s, step, ((e - s + step - 1) / step).toNat)
    else
      let s := min (max s 0) (d - 1)
      let e := min (max e (-1)) (d - 1)
      some (s, step, ((s - e + (-step) - 1) / (-step)).toNat)

/-- Axes not mentioned are taken whole. -/
def sliceAxes (dims : List ℕ) (ax : List ℕ) (starts stops steps : List ℤ) :
    Option (List (ℤ × ℤ × ℕ)) :=
  dims.zipIdx.mapM fun p =>
    if p.2 ∈ ax then
      sliceAxis p.1 (starts.getD (ax.idxOf p.2) 0) (stops.getD (ax.idxOf p.2) 0)
        (steps.getD (ax.idxOf p.2) 0)
    else some (0, 1, p.1)

/-- Slice. -/
def slice (x : Tensor V) (starts stops : List ℤ) (axes steps : Option (List ℤ)) :
    Option (Tensor V) :=
  ((axes.getD ((List.range starts.length).map fun (k : ℕ) => (k : ℤ))).mapM
      (normAxis x.shape.length)).bind fun ax =>
    if ax.Nodup ∧ ax.length = starts.length ∧ stops.length = starts.length ∧
        (steps.getD (List.replicate starts.length 1)).length = starts.length then
      (sliceAxes x.shape ax starts stops (steps.getD (List.replicate starts.length 1))).map fun q =>
        build (q.map fun a => a.2.2) fun idx =>
          x.get (List.zipWith (fun (a : ℤ × ℤ × ℕ) (i : ℕ) => (a.1 + a.2.1 * i).toNat) q idx)
    else none

/-- Tile: repeat the data `r[k]` times along axis `k`. -/
def tile (x : Tensor V) (r : List ℤ) : Option (Tensor V) :=
  if r.length = x.shape.length ∧ ∀ k ∈ r, 0 ≤ k then
    some (build (List.zipWith (fun d k => d * k.toNat) x.shape r) fun idx =>
      x.get (List.zipWith (fun i d => i % d) idx x.shape))
  else none

/-- Gather: the axis is replaced by the axes of the indices; an index counts from the end when it is negative. -/
def gather (x : Tensor V) (ishape : List ℕ) (ix : List ℕ → ℤ) (axis : ℤ) : Option (Tensor V) :=
  (normAxis x.shape.length axis).bind fun ax =>
    if ∀ j ∈ allIndices ishape, (normAxis (x.shape.getD ax 0) (ix j)).isSome then
      some (build (x.shape.take ax ++ (ishape ++ x.shape.drop (ax + 1))) fun idx =>
        x.get (idx.take ax ++ (normAxis (x.shape.getD ax 0) (ix ((idx.drop ax).take ishape.length))).getD 0 ::
          idx.drop (ax + ishape.length)))
    else none

/-- Where: select by a condition, with broadcasting of the three operands. -/
def where_ (p : V → Bool) (c x y : Tensor V) : Option (Tensor V) :=
  (bshape c.shape x.shape).bind fun s => (bshape s y.shape).map fun s =>
    build s fun i => if p (c.get (bidx c.shape i)) then x.get (bidx x.shape i)
      else y.get (bidx y.shape i)

end Verif.Rewrite
