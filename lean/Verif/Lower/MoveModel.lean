import Verif.Lower.GatherModel

/-!
Model of the lowerings of the operators that only move data: Concat, Split, Tile, Slice,
Pad, Transpose, ReverseSequence, DepthToSpace and SpaceToDepth.

Source:
* /repo/src/Conversion/ONNXToKrnl/Tensor/Concat.cpp 36-128, Split.cpp 22-98, Tile.cpp 49-105,
  Slice.cpp 29-82, Pad.cpp 25-153, Transpose.cpp 33-306, ReverseSequence.cpp 24-118,
  DepthToSpace.cpp 25-96, SpaceToDepth.cpp 25-88
* /repo/src/Conversion/ONNXToKrnl/ONNXToKrnlCommon.cpp 34-112 `reshape`, `transpose`
* /repo/src/Dialect/ONNX/ONNXOps/Tensor/Pad.cpp 27-70, Tile.cpp 27-47, Transpose.cpp

Loops run in row-major order: the parallel annotation of a loop, and the unrolling of the
innermost loop of a scalar transpose, are left out (the schedules of C53 and C54 cover
blocking and unrolling).  `junk` is the contents of a fresh allocation.
-/

namespace Verif.Lower

open Verif.Krnl (Buf IE)

variable {R : Type*}

/-! ### Concat -/

/-- `shapeHelper.getOutputDims()` at run time (ONNXOps/Tensor/Concat.cpp; see C37 for the
computation with partially known shapes): the dimensions of the first input, the axis being
the sum over all inputs. -/
def concatDims (inputs : List (Mem R)) (axis : ℕ) : List ℤ :=
  match inputs with
  | [] => []
  | m :: _ => m.shape.set axis ((inputs.map fun x => x.shape.getD axis 0).sum)

/-- `writeIndices` (Concat.cpp 104-114): `i` is the position of the input. -/
def concatWrite (rank axis i : ℕ) (offset : ℤ) (loopInd : Idx) : Idx :=
  (List.range rank).map fun r =>
    if r ≠ axis ∨ i = 0 then loopInd.getD r 0 else loopInd.getD r 0 + offset

/-- The loop over one input (Concat.cpp 93-118). -/
def concatOne (commonUB : List ℤ) (axis i : ℕ) (offset : ℤ) (m : Mem R) (out : Mem R) : Option (Mem R) :=
  iterate (commonUB.set axis (m.shape.getD axis 0)) (fun loopInd o =>
    (m.load loopInd).bind fun v => o.store (concatWrite commonUB.length axis i offset loopInd) v) out

/-- The loop over the inputs (Concat.cpp 79-121). -/
def concatLoop (commonUB : List ℤ) (axis : ℕ) : List (Mem R) → ℕ → ℤ → Mem R → Option (Mem R)
  | [], _, _, out => some out
  | m :: rest, i, offset, out =>
    (concatOne commonUB axis i offset m out).bind fun o =>
      concatLoop commonUB axis rest (i + 1) (offset + m.shape.getD axis 0) o

/-- Concat.cpp 36-124; the axis is not negative (line 53). -/
def concat (inputs : List (Mem R)) (axis : ℕ) (junk : Idx → R) : Option (Mem R) :=
  let dims := concatDims inputs axis
  concatLoop dims axis inputs 0 0 ⟨dims, junk⟩

/-! ### Split -/

/-- Dimensions of an output (ONNXOps/Tensor/Split.cpp 89-100). -/
def splitDims (dims : List ℤ) (axis : ℕ) (size : ℤ) : List ℤ := dims.set axis size

/-- `readIndices` (Split.cpp 73-84): `before` are the axis dimensions of the previous
outputs. -/
def splitRead (rank axis : ℕ) (before : List ℤ) (indices : Idx) : Idx :=
  (List.range rank).map fun r =>
    if r = axis then before.foldl (fun e d => e + d) (indices.getD r 0) else indices.getD r 0

/-- One output (Split.cpp 59-89). -/
def splitOne (data : Mem R) (axis : ℕ) (sizes : List ℤ) (i : ℕ) (junk : Idx → R) : Option (Mem R) :=
  fill ⟨splitDims data.shape axis (sizes.getD i 0), junk⟩ fun indices =>
    data.load (splitRead data.shape.length axis (sizes.take i) indices)

/-- Split.cpp 22-95: all outputs; `sizes` are the split dimensions (see C36). -/
def split (data : Mem R) (axis : ℕ) (sizes : List ℤ) (junk : Idx → R) : Option (List (Mem R)) :=
  (List.range sizes.length).mapM fun i => splitOne data axis sizes i junk

/-! ### Tile -/

/-- ONNXOps/Tensor/Tile.cpp 38-44. -/
def tileDims (dims repeats : List ℤ) : List ℤ := List.zipWith (· * ·) dims repeats

/-- Tile.cpp 49-102.  `index % dimSize`: the loop index is not negative, and a zero
dimension makes the loop empty. -/
def tile (data : Mem R) (repeats : List ℤ) (junk : Idx → R) : Option (Mem R) :=
  fill ⟨tileDims data.shape repeats, junk⟩ fun indices =>
    data.load (List.zipWith (fun i d => i % d) indices data.shape)

/-! ### Slice -/

/-- Slice.cpp 60-77: `dims` are the output dimensions, `starts` and `steps` those of the
shape helper (see C32). -/
def sliceCopy (data : Mem R) (dims starts steps : List ℤ) (junk : Idx → R) : Option (Mem R) :=
  fill ⟨dims, junk⟩ fun ind =>
    data.load ((List.range dims.length).map fun ii => steps.getD ii 0 * ind.getD ii 0 + starts.getD ii 0)

/-! ### Pad -/

/-- Modes of the lowering: any other string is accepted and leaves the indices alone
(Pad.cpp 61-144). -/
inductive PadMode where
  | constant | edge | reflect | other
  deriving DecidableEq, Repr

/-- ONNXOps/Tensor/Pad.cpp 47-66: `pads` holds all begins, then all ends. -/
def padDims (dims pads : List ℤ) : List ℤ :=
  (List.range dims.length).map fun i => pads.getD i 0 + dims.getD i 0 + pads.getD (i + dims.length) 0

/-- Index into the data in the modes other than constant (Pad.cpp 122-141). -/
def padIndex (mode : PadMode) (pad dim ind : ℤ) : ℤ :=
  match mode with
  | .edge =>
    let e := if ind ≤ pad then 0 else ind - pad
    if e ≥ dim then dim - 1 else e
  | .reflect =>
    let e := if ind < pad then pad - ind else ind - pad
    if e ≥ dim then dim - (e - dim) - 2 else e
  | _ => ind

/-- Pad.cpp 61-147: in constant mode a `memset` with the value, then a copy of the data. -/
def pad (data : Mem R) (pads : List ℤ) (mode : PadMode) (cValue : R) (junk : Idx → R) : Option (Mem R) :=
  let dims := padDims data.shape pads
  let rank := data.shape.length
  if mode = .constant then
    iterate data.shape (fun ind o =>
      (data.load ind).bind fun v =>
        o.store ((List.range rank).map fun i => ind.getD i 0 + pads.getD i 0) v) ⟨dims, fun _ => cValue⟩
  else
    fill ⟨dims, junk⟩ fun ind =>
      data.load ((List.range rank).map fun i =>
        padIndex mode (pads.getD i 0) (data.shape.getD i 0) (ind.getD i 0))

/-! ### ReverseSequence -/

/-- ReverseSequence.cpp 91-112. -/
def reverseSequence (data : Mem R) (lens : Mem ℤ) (batchAxis timeAxis : ℕ) (junk : Idx → R) :
    Option (Mem R) :=
  fill ⟨data.shape, junk⟩ fun ind =>
    (lens.load [ind.getD batchAxis 0]).bind fun len =>
      let t := ind.getD timeAxis 0
      data.load (ind.set timeAxis (if t < len then len - t - 1 else t))

/-! ### Transpose -/

/-- Output dimensions (ONNXOps/Tensor/Transpose.cpp): `out[i] = in[perm[i]]`. -/
def transposeDims (dims : List ℤ) (perm : List ℕ) : List ℤ := perm.map fun p => dims.getD p 0

/-- `canBeViewOp` (Transpose.cpp 98-115): `isOne` says that a dimension is known to be 1 at
compile time. -/
def canBeViewOp (rank : ℕ) (isOne : ℕ → Bool) (perm : List ℕ) : Bool :=
  decide ((List.range rank).filter (fun a => !isOne a) = perm.filter fun a => !isOne a)

/-- `unchangedInnerDimensions` (Transpose.cpp 119-141), for identity layouts: the loop from
the last dimension, `n` dimensions being left. -/
def unchangedInner (perm : List ℕ) : ℕ → ℕ
  | 0 => 0
  | n + 1 => if perm.getD n 0 = n then unchangedInner perm n + 1 else 0

/-- `reversePermute` (Transpose.cpp 191-203): the position of `o` in the permutation; it is
an assertion failure if there is none or more than one. -/
def reversePermute (rank : ℕ) (perm : List ℕ) : Option (List ℕ) :=
  (List.range rank).mapM fun o =>
    match (List.range rank).filter fun i => decide (perm.getD i 0 = o) with
    | [i] => some i
    | _ => none

/-- `scalarTransposeOverOutputs` (Transpose.cpp 174-231). -/
def scalarTranspose (data : Mem R) (perm : List ℕ) (junk : Idx → R) : Option (Mem R) :=
  (reversePermute data.shape.length perm).bind fun rev =>
    fill ⟨transposeDims data.shape perm, junk⟩ fun store =>
      data.load (rev.map fun r => store.getD r 0)

/-- Strides (Transpose.cpp 251-264): the products of the dimensions after each one.  The
last entry is set for the input only, and is truncated in both. -/
def strides (dims : List ℤ) : List ℤ := (List.range dims.length).map fun i => numel (dims.drop (i + 1))

/-- `krnl.memcpy` of `n` elements between offsets of two buffers, bounds checked. -/
def Buf.memcpy (dst src : Buf R) (n dstOff srcOff : ℤ) : Option (Buf R) :=
  if 0 ≤ dstOff ∧ dstOff + n ≤ dst.size ∧ 0 ≤ srcOff ∧ srcOff + n ≤ src.size then
    some ⟨dst.size, fun y => if dstOff ≤ y ∧ y < dstOff + n then src.data (srcOff + (y - dstOff)) else dst.data y⟩
  else none

/-- `srcOffsetIE` (Transpose.cpp 296-301). -/
def srcOffset (outer : ℕ) (inStrides : List ℤ) (ind : Idx) : ℤ :=
  (List.range outer).foldl (fun e i => e + ind.getD i 0 * inStrides.getD i 0) 0

/-- `destOffsetIE` (Transpose.cpp 302-305). -/
def destOffset (outer : ℕ) (perm : List ℕ) (outStrides : List ℤ) (ind : Idx) : ℤ :=
  (List.range outer).foldl (fun e i => e + ind.getD (perm.getD i 0) 0 * outStrides.getD i 0) 0

/-- `blockTranspose` (Transpose.cpp 235-312). -/
def blockTranspose (data : Mem R) (perm : List ℕ) (numLast : ℕ) (junk : Idx → R) : Option (Mem R) :=
  let oDims := transposeDims data.shape perm
  let outer := data.shape.length - numLast
  let elems := numel (data.shape.drop outer)
  (iterate (data.shape.take outer) (fun ind b =>
    Buf.memcpy b data.flat elems (destOffset outer perm (strides oDims) ind)
      (srcOffset outer (strides data.shape) ind))
    ((Mem.flat ⟨oDims, junk⟩ : Buf R))).map fun b => ofFlat oDims b

/-- Transpose.cpp 45-93. -/
def transpose (data : Mem R) (isOne : ℕ → Bool) (perm : List ℕ) (junk : Idx → R) : Option (Mem R) :=
  if canBeViewOp data.shape.length isOne perm then
    some (ofFlat (transposeDims data.shape perm) data.flat)
  else
    let n := unchangedInner perm data.shape.length
    if n > 0 then blockTranspose data perm n junk else scalarTranspose data perm junk

/-! ### DepthToSpace and SpaceToDepth -/

/-- `OnnxToKrnlBuilder::reshape` to given dimensions: the data is reinterpreted. -/
def reshapeTo (m : Mem R) (dims : List ℤ) : Mem R := ofFlat dims m.flat

/-- DepthToSpace.cpp 25-91; `dcr` is the mode. -/
def depthToSpace (data : Mem R) (bs : ℤ) (dcr : Bool) (isOne : ℕ → Bool) (junk : Idx → R) : Option (Mem R) :=
  match data.shape with
  | [B, C, H, W] =>
    let newC := C / (bs * bs)
    let dims1 := if dcr then [B, bs, bs, newC, H, W] else [B, newC, bs, bs, H, W]
    let perm := if dcr then [0, 3, 4, 1, 5, 2] else [0, 1, 4, 2, 5, 3]
    (transpose (reshapeTo data dims1) isOne perm junk).map fun t => reshapeTo t [B, newC, H * bs, W * bs]
  | _ => none

/-- SpaceToDepth.cpp 25-85. -/
def spaceToDepth (data : Mem R) (bs : ℤ) (isOne : ℕ → Bool) (junk : Idx → R) : Option (Mem R) :=
  match data.shape with
  | [B, C, H, W] =>
    let newH := H / bs
    let newW := W / bs
    (transpose (reshapeTo data [B, C, newH, bs, newW, bs]) isOne [0, 1, 3, 5, 2, 4] junk).map
      fun t => reshapeTo t [B, C * (bs * bs), newH, newW]
  | _ => none

end Verif.Lower
