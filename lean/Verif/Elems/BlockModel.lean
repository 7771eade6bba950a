import Verif.Elems.Model

/-!
# Model of the builder operations that copy blocks

Source: `/repo/src/Dialect/ONNX/ElementsAttr/ElementsAttrBuilder.cpp`: split, concat, gather, scatterND.
An access outside a buffer, a failed assertion, a division by zero and an element of the result that
is never written all give `none`.
-/

namespace Verif.Elems

variable {W : Type}

/-- Writing to a result buffer whose elements may not be initialised yet; `none` is a write outside
the buffer. -/
def putAll : List (Option W) → List (Nat × W) → Option (List (Option W))
  | b, [] => some b
  | b, w :: ws => if w.1 < b.length then putAll (b.set w.1 (some w.2)) ws else none

/-- The buffer of `n` elements after a sequence of writes; every element must have been written. -/
def fill (n : Nat) (ws : List (Nat × W)) : Option (List W) :=
  (putAll (List.replicate n none) ws).bind fun b => b.mapM id

/-- `for (offset = start; offset < size; offset += stride)`. In the code `stride` is zero only when
`size` is, and then the loop does not run. -/
def blockOffsets (size stride off : Nat) : List Nat :=
  if h : off < size ∧ 0 < stride then off :: blockOffsets size stride (off + stride) else []
termination_by size - off
decreasing_by omega

/-- Elements in the order `StridesRange<1>(shape, {strides})` reads them from the wide buffer
(`getWideNumsAndStrides`, ElementsAttrBuilder.cpp 1170-1183). -/
def Elms.iter (e : Elms W) : Option (List W) := restride e.shape e.strides e.bufWide

/-- `splitImpl`, ElementsAttrBuilder.cpp 557-565. -/
def splitImpl (data : List W) (start len stride : Nat) : Option (List W) :=
  ((blockOffsets data.length stride start).mapM fun o =>
    if o + len ≤ data.length then some ((data.drop o).take len) else none).map List.flatten

/-- The loop of `split`, ElementsAttrBuilder.cpp 591-601. -/
def splitLoop (data : List W) (shape : List Nat) (axis stride substride : Nat) :
    Nat → List Nat → Option (List (Elms W))
  | _, [] => some []
  | offset, sz :: sizes =>
    let splitShape := shape.set axis sz
    let len := sz * substride
    (splitImpl data offset len stride).bind fun d =>
      if d.length = splitShape.prod then
        (splitLoop data shape axis stride substride (offset + len) sizes).map fun r =>
          fromWideNums splitShape d :: r
      else none

/-- `split`, ElementsAttrBuilder.cpp 567-602. -/
def split (e : Elms W) (axis : Nat) (sizes : List Nat) : Option (List (Elms W)) :=
  let axisSize := e.shape.getD axis 0
  if ¬ (axis < e.shape.length ∧ sizes.sum = axisSize) then none
  else if sizes.length = 0 then some []
  else if sizes.length = 1 then some [e]
  else
    e.wideNums.bind fun data =>
      let stride := (e.shape.drop axis).prod
      if axisSize = 0 then none
      else splitLoop data e.shape axis stride (stride / axisSize) 0 sizes

/-- Inner loops of `concat`, ElementsAttrBuilder.cpp 641-647: the iterator runs through the input while
blocks are written; at the end it must be exhausted. -/
def concatBlocks (inLen : Nat) : List Nat → List W → Option (List (Nat × W))
  | [], seq => if seq = [] then some [] else none
  | o :: os, seq =>
    if seq.length < inLen then none
    else (concatBlocks inLen os (seq.drop inLen)).map fun r =>
      (List.zip (List.range' o inLen) (seq.take inLen)) ++ r

/-- Loop over the inputs of `concat`, ElementsAttrBuilder.cpp 633-651. -/
def concatLoop (size axis post outLen : Nat) : Nat → List (Elms W) → Option (List (Nat × W))
  | _, [] => some []
  | start, e :: es =>
    let inLen := e.shape.getD axis 0 * post
    e.iter.bind fun seq =>
      (concatBlocks inLen (blockOffsets size outLen start) seq).bind fun ws =>
        (concatLoop size axis post outLen (start + inLen) es).map fun r => ws ++ r

/-- `concat`, ElementsAttrBuilder.cpp 604-654. -/
def concat (es : List (Elms W)) (axis : Nat) : Option (Elms W) :=
  match es with
  | [] => none
  | first :: rest =>
    if ¬ axis < first.shape.length then none
    else if rest = [] then some first
    else if ¬ ∀ e ∈ rest, e.shape.length = first.shape.length ∧
        ∀ a, a < first.shape.length → a = axis ∨ e.shape.getD a 0 = first.shape.getD a 0 then none
    else
      let outShape := first.shape.set axis ((first :: rest).map fun e => e.shape.getD axis 0).sum
      let post := (outShape.drop (axis + 1)).prod
      (concatLoop outShape.prod axis post (outShape.getD axis 0 * post) 0 (first :: rest)).bind
        fun ws => (fill outShape.prod ws).map (fromWideNums outShape)

/-- Copying `n` elements from `src` at `i` to the result at `o` (`std::copy_n`). -/
def copyN (src : List W) (i : Int) (n o : Nat) : Option (List (Nat × W)) :=
  if 0 ≤ i ∧ i.toNat + n ≤ src.length then
    some (List.zip (List.range' o n) ((src.drop i.toNat).take n))
  else none

/-- Inner loop of `gather`, ElementsAttrBuilder.cpp 786-789. -/
def gatherBlocks (src : List W) (post inLen : Nat) : List Nat → Int → Option (List (Nat × W))
  | [], _ => some []
  | o :: os, i =>
    (copyN src i post o).bind fun ws =>
      (gatherBlocks src post inLen os (i + inLen)).map fun r => ws ++ r

/-- Outer loop of `gather`, ElementsAttrBuilder.cpp 783-791. -/
def gatherLoop (src : List W) (size axisLen post inLen outLen : Nat) :
    Nat → List Int → Option (List (Nat × W))
  | _, [] => some []
  | start, idx :: idxs =>
    let adj : Int := if idx < 0 then idx + axisLen else idx
    (gatherBlocks src post inLen (blockOffsets size outLen start) (adj * post)).bind fun ws =>
      (gatherLoop src size axisLen post inLen outLen (start + post) idxs).map fun r => ws ++ r

/-- `gather`, ElementsAttrBuilder.cpp 755-793. -/
def gather (e : Elms W) (indices : Elms Int) (axis : Nat) : Option (Elms W) :=
  if ¬ axis < e.shape.length then none
  else
    let postShape := e.shape.drop (axis + 1)
    let outShape := e.shape.take axis ++ indices.shape ++ postShape
    let post := postShape.prod
    e.wideNums.bind fun src => indices.wideNums.bind fun idxs =>
      let axisLen := e.shape.getD axis 0
      (gatherLoop src outShape.prod axisLen post (axisLen * post) (idxs.length * post) 0 idxs).bind
        fun ws => (fill outShape.prod ws).map (fromWideNums outShape)

/-- Loop of `scatterND`, ElementsAttrBuilder.cpp 824-836: `dst` so far, the rest of the index
elements and the rest of the updates. Positions are computed without overflow. -/
def scatterLoop (sliceStrides : List Nat) (nd sliceSize : Nat) : Nat → List Int → List W → List W →
    Option (List W)
  | 0, _, upd, dst => if upd = [] then some dst else none
  | n + 1, idxs, upd, dst =>
    let tuple := idxs.take nd
    if tuple.length < nd ∨ upd.length < sliceSize then none
    else
      let p : Int := (List.zipWith (fun (i : Int) (s : Nat) => i * (s : Int)) tuple sliceStrides).sum
      if 0 ≤ p ∧ p.toNat + sliceSize ≤ dst.length then
        scatterLoop sliceStrides nd sliceSize n (idxs.drop nd) (upd.drop sliceSize)
          (dst.take p.toNat ++ upd.take sliceSize ++ dst.drop (p.toNat + sliceSize))
      else if sliceSize = 0 then
        scatterLoop sliceStrides nd sliceSize n (idxs.drop nd) (upd.drop sliceSize) dst
      else none

/-- `scatterND`, ElementsAttrBuilder.cpp 795-839. -/
def scatterND (e : Elms W) (indices : Elms Int) (updates : Elms W) : Option (Elms W) :=
  match indices.shape.getLast? with
  | none => none
  | some nd =>
    let outer := indices.shape.dropLast
    let sliceSize := (updates.shape.drop outer.length).prod
    let sliceStrides := (defaultStrides e.shape).take nd
    e.wideNums.bind fun dst => updates.iter.bind fun upd => indices.wideNums.bind fun idxs =>
      (scatterLoop sliceStrides nd sliceSize outer.prod idxs upd dst).map (fromWideNums e.shape)

/-! ## Reading a window -/

/-- `slice`, ElementsAttrBuilder.cpp 656-672. -/
def slice (e : Elms W) (shape : List Nat) (starts steps : List Int) : Option (Elms W) :=
  let start := (List.zipWith (fun (a : Int) (s : Nat) => a * (s : Int)) starts e.strides).sum
  let strides := List.zipWith (fun (s : Nat) (t : Int) => (s : Int) * t) e.strides steps
  ((stridesRange shape (strides.map fun (s : Int) (_ : Unit) => s)).mapM fun v =>
    getZ e.bufWide (start + v.offs ())).map (fromWideNums shape)

/-! ## Padding -/

/-- `betweenRowsPads`, `beginPad`, `endPad` and the multiplier, ElementsAttrBuilder.cpp 716-724, for
axes given as (extent, left, right): begin, end, multiplier. -/
def padSums : List (Nat × Nat × Nat) → Nat × Nat × Nat
  | [] => (0, 0, 1)
  | (d, l, r) :: axes =>
    let s := padSums axes
    (s.1 + l * s.2.2, s.2.1 + r * s.2.2, s.2.2 * (d + l + r))

/-- `betweenRowsPads[axis]`. -/
def betweenPad (axes : List (Nat × Nat × Nat)) (axis : Nat) : Nat :=
  let s := padSums (axes.drop axis)
  s.1 + s.2.1

/-- `lastZero`, ElementsAttrBuilder.cpp 744-746: walks down from `rank - 1` while the index before is
zero. -/
def lastZero (idx : List Nat) : Nat → Nat
  | 0 => 0
  | k + 1 => if idx.getD k 0 = 0 then lastZero idx k else k + 1

/-- The row loop of `pad`, ElementsAttrBuilder.cpp 735-748. `its` is what is left of the iteration;
`none` for reads outside the buffer or a row that ends early. The `fuel` bounds the number of rows. -/
def padRows (buf : List W) (axes : List (Nat × Nat × Nat)) (rank numCols : Nat) (v : W) :
    Nat → List (IdxOffs Unit) → Option (List W)
  | 0, _ => none
  | fuel + 1, its =>
    if its.length < numCols then none
    else
      ((its.take numCols).mapM fun it => getZ buf (it.offs ())).bind fun row =>
        match its.drop numCols with
        | [] => some row
        | it :: rest =>
          (padRows buf axes rank numCols v fuel (it :: rest)).map fun r =>
            row ++ List.replicate (betweenPad axes (lastZero it.index (rank - 1))) v ++ r

/-- `pad`, ElementsAttrBuilder.cpp 685-753, for non-negative pads. -/
def pad (e : Elms W) (left right : List Nat) (v : W) : Option (Elms W) :=
  let rank := e.shape.length
  if rank = 0 then some e
  else
    let axes := e.shape.zip (left.zip right)
    let outShape := axes.map fun a => a.1 + a.2.1 + a.2.2
    if e.shape.prod = 0 then
      some { shape := outShape, strides := List.replicate outShape.length 0, buf := [v], tr := id }
    else
      let s := padSums axes
      (padRows e.bufWide axes rank (e.shape.getD (rank - 1) 0) v e.shape.prod
        (stridesRange e.shape (pack1 e.strides))).bind fun body =>
        let out := List.replicate s.1 v ++ body ++ List.replicate s.2.1 v
        if out.length = outShape.prod then some (fromWideNums outShape out) else none

end Verif.Elems
