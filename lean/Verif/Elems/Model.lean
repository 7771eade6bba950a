import Verif.Base.Index

/-!
# Model of strided constants

Sources, all under `/repo/src/Dialect/ONNX/ElementsAttr/`: `StridesRange.hpp(.inc)`, `Strides.cpp`,
`DisposableElementsAttr.cpp`, `ElementsAttrBuilder.cpp`.

Extents and offsets are unbounded integers: the code's `int64_t`/`uint64_t` are assumed not to
overflow. Element types, widening and narrowing are left out: a buffer is a list of wide numbers of
some type `W`, and the transformer of an attribute is an element-wise function on `W` (every
transformer in the code is built by `functionTransformer` and composition).
-/

namespace Verif.Elems

/-! ## Strides.cpp -/

/-- `getStridesPosition`, Strides.cpp 20-29. Signed, because `slice` uses negative strides. -/
def pos : List Nat → List Int → Int
  | i :: is, s :: ss => i * s + pos is ss
  | _, _ => 0

/-- `getDefaultStrides`, Strides.cpp 44-55: `mult` is the product of the later extents. -/
def defaultStrides : List Nat → List Nat
  | [] => []
  | d :: ds => (if d = 1 then 0 else ds.prod) :: defaultStrides ds

/-- `areStridesContiguous`, Strides.cpp 31-42. -/
def contiguous : List Nat → List Nat → Bool
  | [], _ => true
  | d :: ds, s :: ss => contiguous ds ss && decide (s = if d = 1 then 0 else ds.prod)
  | _ :: _, [] => false

/-- `areStridesSplat`, Strides.hpp. -/
def allZero (strides : List Nat) : Bool := strides.all (· == 0)

/-- `expandStrides`, Strides.cpp 137-144. -/
def expandStrides (strides : List Nat) (rank : Nat) : List Nat :=
  List.replicate (rank - strides.length) 0 ++ strides

/-- `transposeDims`, Strides.cpp 146-154. -/
def transposeDims (dims perm : List Nat) : List Nat := perm.map fun p => dims.getD p 0

/-- `untransposeDims`, Strides.cpp 156-164. -/
def untransposeDims (dims perm : List Nat) : List Nat :=
  (List.zip perm dims).foldl (fun acc pd => acc.set pd.1 pd.2) (List.replicate perm.length 0)

/-- `unflattenIndex`, Strides.cpp 166-183: the quotients are taken from the last axis up; axis 0
keeps what is left. -/
def unflatten : List Nat → Nat → List Nat × Nat
  | [], n => ([], n)
  | d :: ds, n =>
    let (is, q) := unflatten ds n
    (q % d :: is, q / d)

def unflattenIndex : List Nat → Nat → List Nat
  | [], _ => []
  | _ :: ds, n => let (is, q) := unflatten ds n; q :: is

/-! ## StridesRange -/

/-- `StridesIndexOffsets<N>`, StridesRange.hpp 29-45. The `N` offsets are indexed by `ι`. -/
structure IdxOffs (ι : Type) where
  flat : Nat
  index : List Nat
  offs : ι → Int

/-- The loop of `StridesIterator::operator++`, StridesRange.hpp.inc 24-39 (and the specialisation
for `N = 2`, 47-70). It runs from the last axis to the first and stops at the first axis that does
not overflow; the Boolean says that it has not stopped yet. -/
def bump {ι : Type} : List Nat → List (ι → Int) → List Nat → (ι → Int) →
    Bool × List Nat × (ι → Int)
  | d :: ds, s :: ss, i :: is, off =>
    match bump ds ss is off with
    | (true, is', off') =>
      let off'' := fun k => off' k + s k
      if i + 1 < d then (false, (i + 1) :: is', off'')
      else (true, 0 :: is', fun k => off'' k - d * s k)
    | (false, is', off') => (false, i :: is', off')
  | _, _, _, off => (true, [], off)

/-- `StridesIterator::operator++`, StridesRange.hpp.inc 21-43. -/
def IdxOffs.next {ι : Type} (shape : List Nat) (strides : List (ι → Int)) (v : IdxOffs ι) :
    IdxOffs ι :=
  let r := bump shape strides v.index v.offs
  { flat := v.flat + 1, index := r.2.1, offs := r.2.2 }

/-- Begin iterator, StridesRange.hpp 86-93. -/
def IdxOffs.begin {ι : Type} (shape : List Nat) : IdxOffs ι :=
  { flat := 0, index := List.replicate shape.length 0, offs := fun _ => 0 }

/-- What `for (auto &idxoffs : StridesRange<N>(shape, strides))` visits: from begin until
`flattenedIndex` equals the number of elements, StridesRange.hpp 96-101, 142-160. -/
def visit {ι : Type} (shape : List Nat) (strides : List (ι → Int)) : Nat → IdxOffs ι →
    List (IdxOffs ι)
  | 0, _ => []
  | n + 1, v => v :: visit shape strides n (v.next shape strides)

def stridesRange {ι : Type} (shape : List Nat) (strides : List (ι → Int)) : List (IdxOffs ι) :=
  visit shape strides shape.prod (IdxOffs.begin shape)

/-- Pairing `N` stride vectors axis by axis; `StridesRange` takes an array of vectors. -/
def pack1 (a : List Nat) : List (Unit → Int) := a.map fun (s : Nat) (_ : Unit) => (s : Int)

def pack2 (a b : List Nat) : List (Bool → Int) :=
  List.zipWith (fun (x y : Nat) (k : Bool) => if k then (y : Int) else (x : Int)) a b

/-- Buffer access; `none` is an access outside the buffer. -/
def getZ {W : Type} (buf : List W) (p : Int) : Option W :=
  if p < 0 then none else buf[p.toNat]?

/-- `restrideArray`, Strides.cpp 185-213. The writes go to consecutive positions of `dst`, so the
result is the list of values in visiting order. -/
def restride {W : Type} (shape strides : List Nat) (src : List W) : Option (List W) :=
  (stridesRange shape (pack1 strides)).mapM fun v => getZ src (v.offs ())

/-! ## Attributes -/

/-- A `DisposableElementsAttr`: shape, strides, buffer, transformer. A `DenseElementsAttr` is used by
the builder through `getElementsProperties` (ElementsAttrBuilder.cpp 1126-1150) in this form, with
default or all-zero strides. -/
structure Elms (W : Type) where
  shape : List Nat
  strides : List Nat
  buf : List W
  tr : W → W

variable {W : Type}

/-- `getBufferAsWideNums`, DisposableElementsAttr.cpp 256-264. -/
def Elms.bufWide (e : Elms W) : List W := e.buf.map e.tr

/-- `isContiguous`, set at creation, DisposableElementsAttr.cpp 66. -/
def Elms.isContiguous (e : Elms W) : Bool := contiguous e.shape e.strides

/-- `isSplat`, DisposableElementsAttr.cpp 80-82. -/
def Elms.isSplat (e : Elms W) : Bool := allZero e.strides && decide (e.buf ≠ [])

/-- `getWideNums` and `readWideNums`, DisposableElementsAttr.cpp 130-147: the elements in row-major
order. -/
def Elms.wideNums (e : Elms W) : Option (List W) :=
  if e.isContiguous then some e.bufWide else restride e.shape e.strides e.bufWide

/-- `flatIndexToBufferPos`, DisposableElementsAttr.cpp 276-283. -/
def Elms.flatPos (e : Elms W) (flat : Nat) : Int :=
  if flat = 0 || e.isContiguous then flat
  else if e.isSplat then 0
  else pos (unflattenIndex e.shape flat) (e.strides.map Int.ofNat)

/-- `atFlatIndex`, DisposableElementsAttr.cpp 266-274. -/
def Elms.atFlat (e : Elms W) (flat : Nat) : Option W := (getZ e.buf (e.flatPos flat)).map e.tr

/-- `getSplatValue`, DisposableElementsAttr.hpp.inc 63-67. -/
def Elms.splatValue (e : Elms W) : Option W := e.atFlat 0

/-- `createWithDefaultStrides`, ElementsAttrBuilder.cpp 1217-1221, as used by `fromWideNums`,
172-179. -/
def fromWideNums (shape : List Nat) (data : List W) : Elms W :=
  { shape, strides := defaultStrides shape, buf := data, tr := id }

/-- `getWideNumsAndExpandedStrides`, ElementsAttrBuilder.cpp 1153-1168. -/
def Elms.expanded (e : Elms W) (rank : Nat) : List W × List Nat :=
  (e.bufWide, expandStrides e.strides rank)

/-! ## The builder -/

/-- `transform`, ElementsAttrBuilder.hpp 92-97 and `doTransform`, ElementsAttrBuilder.cpp
1170-1194. -/
def transform (f : W → W) (e : Elms W) : Elms W := { e with tr := f ∘ e.tr }

/-- `expandAndTransform`, ElementsAttrBuilder.cpp 1196-1206. -/
def expandAndTransform (e : Elms W) (shape : List Nat) (f : W → W) : Elms W :=
  { shape, strides := expandStrides e.strides shape.length, buf := e.buf, tr := f ∘ e.tr }

/-- `expand`, ElementsAttrBuilder.cpp 542-554. -/
def expand (e : Elms W) (shape : List Nat) : Elms W :=
  if shape = e.shape then e
  else { e with shape, strides := expandStrides e.strides shape.length }

/-- `transpose`, ElementsAttrBuilder.cpp 485-508. -/
def transpose (e : Elms W) (perm : List Nat) : Elms W :=
  if perm = List.range perm.length then e
  else { e with shape := transposeDims e.shape perm, strides := transposeDims e.strides perm }

/-- `combine`, ElementsAttrBuilder.cpp 184-222. -/
def combine (lhs rhs : Elms W) (shape : List Nat) (f : W → W → W) : Option (Elms W) :=
  if lhs.isSplat then
    lhs.splatValue.map fun l => expandAndTransform rhs shape (f l)
  else if rhs.isSplat then
    rhs.splatValue.map fun r => expandAndTransform lhs shape (fun n => f n r)
  else
    let l := lhs.expanded shape.length
    let r := rhs.expanded shape.length
    ((stridesRange shape (pack2 l.2 r.2)).mapM fun v =>
      (getZ l.1 (v.offs false)).bind fun x => (getZ r.1 (v.offs true)).map fun y => f x y).map
      (fromWideNums shape)

/-- `where`, ElementsAttrBuilder.cpp 224-273. `truth` reads a wide number as a Boolean. The
condition is first copied to the result and then overwritten position by position. -/
def select (truth : W → Bool) (cond lhs rhs : Elms W) (shape : List Nat) : Option (Elms W) :=
  if cond.isSplat then
    cond.splatValue.map fun c => expand (if truth c then lhs else rhs) shape
  else if lhs.isSplat && rhs.isSplat then
    lhs.splatValue.bind fun l => rhs.splatValue.map fun r =>
      expandAndTransform cond shape (fun n => if truth n then l else r)
  else
    let c := cond.expanded shape.length
    let l := lhs.expanded shape.length
    let r := rhs.expanded shape.length
    (restride shape c.2 c.1).bind fun dst =>
      ((stridesRange shape (pack2 l.2 r.2)).mapM fun v =>
        (dst[v.flat]?).bind fun res =>
          if truth res then getZ l.1 (v.offs false) else getZ r.1 (v.offs true)).map
        (fromWideNums shape)

end Verif.Elems
