import Verif.Zdnnx.Spec

/-!
# Splitting NNPA tensors into tiles

The runtime library that sits between compiled models and the zDNN library: it splits a tensor
into tiles that the accelerator can take, runs the operation on each tile, and puts the results
together.

Simplifications.  Numbers are naturals, so the 32-bit and 64-bit wrap-around of the C code is not
modelled.  A buffer is a function from cells of two bytes to values, and a pointer into a buffer is
an offset.  Allocation always succeeds and freeing is not modelled.  The contents of fresh tile
buffers are arbitrary and come as parameters.  The zDNN operations themselves are parameters.
Debug output is left out.
-/

namespace Verif.Zdnnx

/-- A buffer. -/
abbrev Buf (α : Type) := ℕ → α

/-- `ZDNN_DLFLOAT16`, `ZDNN_BINARY_INT8` and the other element types of a transformed tensor
(zdnnx.c 476–478). -/
inductive DType where
  | dlfloat16
  | int8
  | other
  deriving DecidableEq, Repr

/-- The layouts that `prepare_tile_desc` distinguishes (zdnnx.c 277–325); `other` are the ones
that are not split (zdnnx.c 466–468).  Simplified: `ZDNN_4D`, `ZDNN_NHWC` and `ZDNN_HWCK` are
treated alike by the code and are one here. -/
inductive Layout where
  | d1 | d2 | d2s | d3 | d3s | d4 | nchw | other
  deriving DecidableEq, Repr

/-- A `zdnn_ztensor` without its buffer: the dimensions of its transformed descriptor, its layout
and its element type. -/
structure ZTensor where
  shape : Quad
  layout : Layout
  dtype : DType
  deriving DecidableEq, Repr

/-- The dimensions `dim4`, `dim3`, `dim2`, `dim1` of the descriptor before the transformation, from
the four transformed dimensions: the `switch` of `prepare_tile_desc` (zdnnx.c 272–325). -/
def preDesc : Layout → Quad → Quad
  | .d1, t => ⟨1, 1, 1, t.e1⟩
  | .d2, t => ⟨1, 1, t.e2, t.e1⟩
  | .d2s, t => ⟨1, 1, t.e4, t.e1⟩
  | .d3, t => ⟨1, t.e3, t.e2, t.e1⟩
  | .d3s, t => ⟨1, t.e4, t.e2, t.e1⟩
  | .d4, t => t
  | .nchw, t => ⟨t.e4, t.e1, t.e3, t.e2⟩
  | .other, t => t

/-- `zdnn_generate_transformed_desc` of the zDNN library, by the table that the comments in
`prepare_tile_desc` give for it (zdnnx.c 279–321). -/
def transformedDesc : Layout → Quad → Quad
  | .d1, p => ⟨1, 1, 1, p.e1⟩
  | .d2, p => ⟨1, 1, p.e2, p.e1⟩
  | .d2s, p => ⟨p.e2, 1, 1, p.e1⟩
  | .d3, p => ⟨1, p.e3, p.e2, p.e1⟩
  | .d3s, p => ⟨p.e3, 1, p.e2, p.e1⟩
  | .d4, p => p
  | .nchw, p => ⟨p.e4, p.e2, p.e1, p.e3⟩
  | .other, p => p

/-- The transformed descriptor that `prepare_tile_desc` makes for a tile (zdnnx.c 261–343). -/
def descOf (l : Layout) (t : Quad) : Quad := transformedDesc l (preDesc l t)

/-- The size in bytes of the buffer of a tensor, `zdnn_getsize_ztensor` for two-byte elements
(zdnnx.c 342). -/
def bufferSize (s : Quad) : ℕ :=
  4096 * (s.e4 * cdiv s.e1 64 * s.e3 * cdiv s.e2 32)

/-- The outer axis of the buffer along which tiles of a reused buffer differ: the flags
`REUSE_FULL_BUFFER_D6` to `REUSE_FULL_BUFFER_D3` (zdnnx_private.h 60–63). -/
inductive Axis where
  | d6 | d5 | d4 | d3
  deriving DecidableEq, Repr

/-- `zdnnx_split_info` (zdnnx.h 39–66).  The flags `EQUAL_SPLIT_*` are the comparison of `lastTile`
and `tileShape`; `reuseAxis` stands for the four flags `REUSE_FULL_BUFFER_D*`. -/
structure Split where
  full : ZTensor
  numTiles : Quad
  tileShape : Quad
  lastTile : Quad
  tileDesc : Quad
  noSplit : Bool
  reuse : Bool
  reuseAxis : Option Axis
  deriving DecidableEq, Repr

/-- A tile size along `e4` or `e3`: zero stands for the whole dimension (zdnnx.c 514–515). -/
def outerTile (full size : ℕ) : ℕ := if size = 0 then full else size

/-- A tile size along `e2` or `e1`: zero stands for the whole dimension, and a size that is not the
whole dimension is rounded up to a multiple of `unit` (zdnnx.c 516–548). -/
def innerTile (unit full size : ℕ) : ℕ :=
  if size = 0 then full
  else if size ≠ full ∧ size % unit ≠ 0 then cdiv size unit * unit else size

/-- The shape of the largest tiles (zdnnx.c 511–548). -/
def tileShapeOf (s ts : Quad) : Quad :=
  ⟨outerTile s.e4 ts.e4, outerTile s.e3 ts.e3, innerTile 32 s.e2 ts.e2, innerTile 64 s.e1 ts.e1⟩

/-- The number of tiles along each dimension (zdnnx.c 551–554). -/
def numTilesOf (s t : Quad) : Quad :=
  ⟨cdiv s.e4 t.e4, cdiv s.e3 t.e3, cdiv s.e2 t.e2, cdiv s.e1 t.e1⟩

/-- The shape of the last tiles (zdnnx.c 568–571). -/
def lastTileOf (s t n : Quad) : Quad :=
  ⟨s.e4 - t.e4 * (n.e4 - 1), s.e3 - t.e3 * (n.e3 - 1),
   s.e2 - t.e2 * (n.e2 - 1), s.e1 - t.e1 * (n.e1 - 1)⟩

/-- The decision to let the tiles share the buffer of the full tensor, and along which axis, from
the shape of the full tensor and that of a tile (zdnnx.c 593–628). -/
def reuseAxisOf (s d : Quad) : Option Axis :=
  if d.e4 = 1 then
    if cdiv d.e1 64 = 1 then
      if d.e3 = 1 then some .d3
      else if cdiv d.e2 32 = cdiv s.e2 32 then some .d4 else none
    else if d.e3 = s.e3 ∧ cdiv d.e2 32 = cdiv s.e2 32 then some .d5 else none
  else if cdiv d.e1 64 = cdiv s.e1 64 ∧ d.e3 = s.e3 ∧ cdiv d.e2 32 = cdiv s.e2 32 then some .d6
  else none

/-- A split into a single tile (zdnnx.c 492–508, 555–565, 631–647). -/
def oneTile (z : ZTensor) : Split :=
  ⟨z, ⟨1, 1, 1, 1⟩, z.shape, z.shape, z.shape, true, true, none⟩

/-- The split of a tensor that may be split (zdnnx.c 511–650). -/
def splitSupported (z : ZTensor) (ts : Quad) : Split :=
  let t := tileShapeOf z.shape ts
  let n := numTilesOf z.shape t
  let d := descOf z.layout t
  let r := reuseAxisOf z.shape d
  if n.e4 * n.e3 * n.e2 * n.e1 = 1 then oneTile z
  else if z.dtype = .int8 ∧ r = none then oneTile z
  else ⟨z, n, t, lastTileOf z.shape t n, d, false, r.isSome, r⟩

/-- `zdnnx_prepare_split_info` (zdnnx.c 455–650). -/
def prepareSplit (z : ZTensor) (ts : Quad) : Split :=
  if z.layout = .other ∨ z.dtype = .other then oneTile z else splitSupported z ts

/-- The test of one dimension in `zdnnx_is_full_tile` (utils.c 37–44). -/
def fullAlong (idx n tile last : ℕ) : Bool := if idx = n - 1 then !(last == tile) else true

/-- `zdnnx_is_full_tile` (utils.c 32–47). -/
def isFullTile (sp : Split) (ie : Quad) : Bool :=
  fullAlong ie.e4 sp.numTiles.e4 sp.tileShape.e4 sp.lastTile.e4 &&
  fullAlong ie.e3 sp.numTiles.e3 sp.tileShape.e3 sp.lastTile.e3 &&
  fullAlong ie.e2 sp.numTiles.e2 sp.tileShape.e2 sp.lastTile.e2 &&
  fullAlong ie.e1 sp.numTiles.e1 sp.tileShape.e1 sp.lastTile.e1

/-- The size of a tile along one dimension (zdnnx.c 721–728). -/
def tileAlong (idx n tile last : ℕ) : ℕ := if idx = n - 1 then last else tile

/-- The shape of the tile at an index (zdnnx.c 719–728). -/
def exactTile (sp : Split) (ie : Quad) : Quad :=
  ⟨tileAlong ie.e4 sp.numTiles.e4 sp.tileShape.e4 sp.lastTile.e4,
   tileAlong ie.e3 sp.numTiles.e3 sp.tileShape.e3 sp.lastTile.e3,
   tileAlong ie.e2 sp.numTiles.e2 sp.tileShape.e2 sp.lastTile.e2,
   tileAlong ie.e1 sp.numTiles.e1 sp.tileShape.e1 sp.lastTile.e1⟩

/-- The transformed descriptor that `zdnnx_set_tile` gives to a tile (zdnnx.c 700–735). -/
def tileDescAt (sp : Split) (ie : Quad) : Quad :=
  if sp.noSplit then sp.full.shape
  else if isFullTile sp ie then sp.tileDesc
  else descOf sp.full.layout (exactTile sp ie)

/-- The offset in bytes into the full buffer of a tile that shares it (zdnnx.c 745–774). -/
def reuseOffset (sp : Split) (ie : Quad) : ℕ :=
  let size := bufferSize sp.tileDesc
  let d6 := cdiv (bufferSize sp.full.shape) sp.numTiles.e4
  let d5 := cdiv d6 sp.numTiles.e1
  let d4 := cdiv d5 sp.numTiles.e3
  match sp.reuseAxis with
  | some .d6 => size * ie.e4
  | some .d5 => d6 * ie.e4 + size * ie.e1
  | some .d4 => d6 * ie.e4 + d5 * ie.e1 + size * ie.e3
  | some .d3 => d6 * ie.e4 + d5 * ie.e1 + d4 * ie.e3 + size * ie.e2
  | none => 0

/-- The number of a page of a tensor from its position along `d6`, `d5`, `d4` and `d3`, computed
as in the copy loops (zdnnx.c 139–157).  `d5`, `d4` and `d3` are the extents. -/
def pageAt (s : Quad) (p6 p5 p4 p3 : ℕ) : ℕ :=
  p3 + cdiv s.e2 32 * (p4 + s.e3 * (p5 + cdiv s.e1 64 * p6))

/-- The positions of the pages of a tile, in the order of the copy loops
(zdnnx.c 139–150). -/
def pagePositions (d : Quad) : List (ℕ × ℕ × ℕ × ℕ) :=
  (List.range d.e4).flatMap fun p6 => (List.range (cdiv d.e1 64)).flatMap fun p5 =>
    (List.range d.e3).flatMap fun p4 => (List.range (cdiv d.e2 32)).map fun p3 => (p6, p5, p4, p3)

/-- The page of the tile and the page of the full tensor that the copy loops visit together: the
offsets are those of the largest tile (zdnnx.c 117–184). -/
def pagePairs (sp : Split) (ie : Quad) : List (ℕ × ℕ) :=
  let d := tileDescAt sp ie
  (pagePositions d).map fun p =>
    (pageAt d p.1 p.2.1 p.2.2.1 p.2.2.2,
     pageAt sp.full.shape (ie.e4 * sp.tileDesc.e4 + p.1) (p.2.1 + ie.e1 * cdiv sp.tileDesc.e1 64)
       (p.2.2.1 + ie.e3 * sp.tileDesc.e3) (p.2.2.2 + ie.e2 * cdiv sp.tileDesc.e2 32))

/-- `memcpy` of one page of 2048 cells (zdnnx.c 156, 181). -/
def copyPage {α : Type} (src : Buf α) (q p : ℕ) (dst : Buf α) : Buf α :=
  fun a => if a / 2048 = p then src (2048 * q + a % 2048) else dst a

/-- `zdnnx_copy_data_to_tile` for tiles with their own buffer (zdnnx.c 75–184, 817–819).
Simplified: the loop that copies two bytes at a time is for debugging and is never used. -/
def copyToTile {α : Type} (sp : Split) (ie : Quad) (full tile : Buf α) : Buf α :=
  (pagePairs sp ie).foldl (fun b p => copyPage full p.2 p.1 b) tile

/-- `zdnnx_copy_data_to_full` for tiles with their own buffer (zdnnx.c 75–184, 813–815). -/
def copyToFull {α : Type} (sp : Split) (ie : Quad) (tile full : Buf α) : Buf α :=
  (pagePairs sp ie).foldl (fun b p => copyPage tile p.1 p.2 b) full

/-- The buffer of an input tile after `zdnnx_set_tile` and `zdnnx_copy_data_to_tile`: a place in
the full buffer, or a buffer of its own with the earlier contents `own` (zdnnx.c 742–783). -/
def inputTile {α : Type} (sp : Split) (ie : Quad) (full own : Buf α) : Buf α :=
  if sp.reuse then fun a => full (a + reuseOffset sp ie / 2) else copyToTile sp ie full own

/-- The buffer of an output tile after `zdnnx_set_tile` (zdnnx.c 742–783). -/
def outputTile {α : Type} (sp : Split) (ie : Quad) (full own : Buf α) : Buf α :=
  if sp.reuse then fun a => full (a + reuseOffset sp ie / 2) else own

/-- The full buffer of the output once the operation has written to the tile and
`zdnnx_copy_data_to_full` has run. -/
def storeTile {α : Type} (sp : Split) (ie : Quad) (tile full : Buf α) : Buf α :=
  if sp.reuse then
    fun a => if reuseOffset sp ie / 2 ≤ a then tile (a - reuseOffset sp ie / 2) else full a
  else copyToFull sp ie tile full

/-- The indices of the tiles in the order of the loops (seq_ops.c 201–204). -/
def allTiles (n : Quad) : List Quad :=
  (List.range n.e4).flatMap fun a => (List.range n.e3).flatMap fun b =>
    (List.range n.e2).flatMap fun c => (List.range n.e1).map fun d => ⟨a, b, c, d⟩

/-- Run a step for each tile of a list; a step that does not succeed ends the run. -/
def runTiles {α : Type} (step : Quad → Buf α → Option (Buf α)) : List Quad → Buf α → Option (Buf α)
  | [], out => some out
  | ie :: rest, out => (step ie out).bind (runTiles step rest)

/-! ## Tile sizes -/

/-- The limits of the accelerator: the largest size along each dimension and of a whole tensor
(zdnnx_ops_private.c 31–106). -/
structure Limits where
  dim : Quad
  size : ℕ
  deriving DecidableEq, Repr

/-- Which of the four sizes `select_tile_sizes` may choose (seq_ops.c 50–53). -/
structure Include where
  e4 : Bool
  e3 : Bool
  e2 : Bool
  e1 : Bool
  deriving DecidableEq, Repr

/-- The number of elements of a shape (seq_ops.c 95–96). -/
def volume (t : Quad) : ℕ := t.e4 * t.e3 * t.e2 * t.e1

/-- `e4` too large (seq_ops.c 63–64). -/
def clampE4 (lim : Limits) (inc : Include) (s t : Quad) : Quad :=
  if inc.e4 ∧ s.e4 > lim.dim.e4 then { t with e4 := lim.dim.e4 } else t

/-- `e1` too large (seq_ops.c 65–71). -/
def clampE1 (lim : Limits) (inc : Include) (s t : Quad) : Quad :=
  if inc.e1 ∧ s.e1 > lim.dim.e1 then
    { t with e1 := lim.dim.e1, e4 := if inc.e4 then 1 else t.e4 } else t

/-- `e3` too large (seq_ops.c 72–80). -/
def clampE3 (lim : Limits) (inc : Include) (s t : Quad) : Quad :=
  if inc.e3 ∧ s.e3 > lim.dim.e3 then
    { t with e3 := lim.dim.e3, e4 := if inc.e4 then 1 else t.e4,
             e1 := if inc.e1 ∧ t.e1 > 64 then 64 else t.e1 } else t

/-- `e2` too large (seq_ops.c 81–91). -/
def clampE2 (lim : Limits) (inc : Include) (s t : Quad) : Quad :=
  if inc.e2 ∧ s.e2 > lim.dim.e2 then
    { t with e2 := lim.dim.e2, e4 := if inc.e4 then 1 else t.e4,
             e1 := if inc.e1 ∧ t.e1 > 64 then 64 else t.e1,
             e3 := if inc.e3 then 1 else t.e3 } else t

/-- One turn of the loop that reduces the tensor size (seq_ops.c 101–127). -/
def shrinkOne (inc : Bool) (mx total v : ℕ) : ℕ :=
  if !inc then v else if v = 1 then v else cdiv v (cdiv total mx)

/-- The loop that reduces the tensor size, in the order `e4`, `e1`, `e3`, `e2`
(seq_ops.c 97–133). -/
def shrink (mx : ℕ) (inc : Include) (t : Quad) : Quad :=
  if volume t ≤ mx then t else
  let a := { t with e4 := shrinkOne inc.e4 mx (volume t) t.e4 }
  if volume a ≤ mx then a else
  let b := { a with e1 := shrinkOne inc.e1 mx (volume a) a.e1 }
  if volume b ≤ mx then b else
  let c := { b with e3 := shrinkOne inc.e3 mx (volume b) b.e3 }
  if volume c ≤ mx then c else
  { c with e2 := shrinkOne inc.e2 mx (volume c) c.e2 }

/-- The sizes that respect the limits of the dimensions (seq_ops.c 55–91). -/
def clampAll (lim : Limits) (inc : Include) (s : Quad) : Quad :=
  clampE2 lim inc s (clampE3 lim inc s (clampE1 lim inc s (clampE4 lim inc s s)))

/-- `select_tile_sizes` (seq_ops.c 33–148).  `none` is the division by zero that happens when the
limit of the tensor size is zero, which `ZDNNX_MAX_TILE_SIZE_IN_MB=0` sets
(zdnnx_ops_private.c 79–99). -/
def selectTileSizes (lim : Limits) (inc : Include) (s ts : Quad) : Option Quad :=
  let c := clampAll lim inc s
  if lim.size = 0 ∧ volume c > 0 ∧
      ((inc.e4 ∧ c.e4 ≠ 1) ∨ (inc.e1 ∧ c.e1 ≠ 1) ∨ (inc.e3 ∧ c.e3 ≠ 1) ∨ (inc.e2 ∧ c.e2 ≠ 1)) then
    none
  else
    let t := shrink lim.size inc c
    if t = s then some ts
    else some ⟨if inc.e4 then t.e4 else ts.e4, if inc.e3 then t.e3 else ts.e3,
               if inc.e2 then t.e2 else ts.e2, if inc.e1 then t.e1 else ts.e1⟩

/-- No tile size chosen yet. -/
def noSizes : Quad := ⟨0, 0, 0, 0⟩

/-- All four sizes may be chosen. -/
def includeAll : Include := ⟨true, true, true, true⟩

/-! ## Sequential operations -/

/-- A zDNN operation with one input and an output of the same shape: the buffer of the output
afterwards, or `none` when the status is not `ZDNN_OK`. -/
abbrev Unary (α : Type) := Quad → Buf α → Buf α → Option (Buf α)

/-- A zDNN operation with two inputs and an output of the same shape. -/
abbrev Binary (α : Type) := Quad → Buf α → Buf α → Buf α → Option (Buf α)

/-- One turn of the loops of the unary operations (seq_ops.c 205–233). -/
def unaryStep {α : Type} (op : Unary α) (sp : Split) (ownX ownY : Quad → Buf α) (x : Buf α)
    (ie : Quad) (out : Buf α) : Option (Buf α) :=
  (op (tileDescAt sp ie) (inputTile sp ie x (ownX ie)) (outputTile sp ie out (ownY ie))).map
    fun y => storeTile sp ie y out

/-- A unary operation on the tiles of a split, one after the other. -/
def unaryTiled {α : Type} (op : Unary α) (sp : Split) (ownX ownY : Quad → Buf α) (x out : Buf α) :
    Option (Buf α) :=
  if sp.noSplit then op sp.full.shape x out
  else runTiles (unaryStep op sp ownX ownY x) (allTiles sp.numTiles) out

/-- `zdnnx_seq_unary_elementwise` (seq_ops.c 145–241).  Input and output have the same shape,
layout and type, so one descriptor stands for both. -/
def seqUnary {α : Type} (lim : Limits) (op : Unary α) (z : ZTensor) (ownX ownY : Quad → Buf α)
    (x out : Buf α) : Option (Buf α) :=
  (selectTileSizes lim includeAll z.shape noSizes).bind fun ts =>
    unaryTiled op (prepareSplit z ts) ownX ownY x out

/-- One turn of the loops of the binary operations (seq_ops.c 299–331). -/
def binaryStep {α : Type} (op : Binary α) (sp : Split) (ownA ownB ownY : Quad → Buf α)
    (a b : Buf α) (ie : Quad) (out : Buf α) : Option (Buf α) :=
  (op (tileDescAt sp ie) (inputTile sp ie a (ownA ie)) (inputTile sp ie b (ownB ie))
    (outputTile sp ie out (ownY ie))).map fun y => storeTile sp ie y out

/-- A binary operation on the tiles of a split, one after the other. -/
def binaryTiled {α : Type} (op : Binary α) (sp : Split) (ownA ownB ownY : Quad → Buf α)
    (a b out : Buf α) : Option (Buf α) :=
  if sp.noSplit then op sp.full.shape a b out
  else runTiles (binaryStep op sp ownA ownB ownY a b) (allTiles sp.numTiles) out

/-- `zdnnx_seq_binary_elementwise` (seq_ops.c 243–342). -/
def seqBinary {α : Type} (lim : Limits) (op : Binary α) (z : ZTensor)
    (ownA ownB ownY : Quad → Buf α) (a b out : Buf α) : Option (Buf α) :=
  (selectTileSizes lim includeAll z.shape noSizes).bind fun ts =>
    binaryTiled op (prepareSplit z ts) ownA ownB ownY a b out

/-- The sizes of softmax: `e1` is never split (seq_ops.c 352–354). -/
def includeRows : Include := ⟨true, true, true, false⟩

/-- `zdnnx_seq_softmax` (seq_ops.c 344–402).  Its loops leave out `e1`, which has one tile. -/
def seqSoftmax {α : Type} (lim : Limits) (op : Unary α) (z : ZTensor) (ownX ownY : Quad → Buf α)
    (x out : Buf α) : Option (Buf α) :=
  (selectTileSizes lim includeRows z.shape noSizes).bind fun ts =>
    let sp := prepareSplit z { ts with e1 := 0 }
    if sp.noSplit then op z.shape x out
    else runTiles (unaryStep op sp ownX ownY x) (allTiles { sp.numTiles with e1 := 1 }) out

/-- A zDNN matrix product: the shapes of `A`, `B`, `C` and `Y`, then the buffers of `A`, `B`, `C`
and `Y` (seq_ops.c 404–415).  The choice between its three entry points by the transposition and
broadcasting flags is part of the parameter. -/
abbrev MatMul (α : Type) :=
  ZTensor → ZTensor → ZTensor → ZTensor → Buf α → Buf α → Buf α → Buf α → Option (Buf α)

/-- The operands of a matrix product: descriptors and input buffers. -/
structure MMArgs (α : Type) where
  za : ZTensor
  zb : ZTensor
  zc : ZTensor
  zy : ZTensor
  a : Buf α
  b : Buf α
  c : Buf α

/-- The earlier contents of the buffers of the tiles. -/
structure MMOwn (α : Type) where
  a : Quad → Buf α
  b : Quad → Buf α
  c : Quad → Buf α
  y : Quad → Buf α

/-- Whether all operands are stacked (seq_ops.c 430–431, omp_ops.c 182–183). -/
def MMArgs.stacked {α : Type} (g : MMArgs α) : Bool :=
  g.za.layout == .d3s && g.zb.layout == .d3s && g.zc.layout == .d2s

/-- The four splits of a matrix product from the tile sizes along `e4`, `e2` and `e1`
(seq_ops.c 442–445, omp_ops.c 193–196). -/
structure MMSplits where
  a : Split
  b : Split
  c : Split
  y : Split

def MMArgs.splits {α : Type} (g : MMArgs α) (ts : Quad) : MMSplits :=
  ⟨prepareSplit g.za ⟨ts.e4, 0, ts.e2, 0⟩, prepareSplit g.zb ⟨ts.e4, 0, 0, ts.e1⟩,
   prepareSplit g.zc ⟨ts.e4, 0, 0, ts.e1⟩, prepareSplit g.zy ⟨ts.e4, 0, ts.e2, ts.e1⟩⟩

/-- The tensor that `zdnnx_set_tile` makes: its descriptor keeps the layout and type. -/
def tileTensor (sp : Split) (ie : Quad) : ZTensor := { sp.full with shape := tileDescAt sp ie }

/-- One turn of the loops of the matrix product, for the output tile `(b, 0, m, n)`
(seq_ops.c 476–505, omp_ops.c 222–252). -/
def matmulStep {α : Type} (op : MatMul α) (g : MMArgs α) (w : MMOwn α) (q : MMSplits)
    (ie : Quad) (out : Buf α) : Option (Buf α) :=
  let ia : Quad := ⟨ie.e4, 0, ie.e2, 0⟩
  let ib : Quad := ⟨if g.stacked then ie.e4 else 0, 0, 0, ie.e1⟩
  (op (tileTensor q.a ia) (tileTensor q.b ib) (tileTensor q.c ib) (tileTensor q.y ie)
    (inputTile q.a ia g.a (w.a ie)) (inputTile q.b ib g.b (w.b ie)) (inputTile q.c ib g.c (w.c ie))
    (outputTile q.y ie out (w.y ie))).map fun y => storeTile q.y ie y out

/-- The bounds of the loops of the matrix product (seq_ops.c 468–470, omp_ops.c 211–213). -/
def MMSplits.bounds (q : MMSplits) : Quad :=
  ⟨q.a.numTiles.e4, 1, q.a.numTiles.e2, q.b.numTiles.e1⟩

/-- The sizes that one call of `select_tile_sizes` may choose in the matrix product
(seq_ops.c 436–439). -/
def incA (ta : Bool) : Include := ⟨true, false, !ta, false⟩
def incB (tb : Bool) : Include := ⟨true, false, false, !tb⟩
def incY (ta tb : Bool) : Include := ⟨true, false, !ta, !tb⟩

/-- The tile sizes of the sequential matrix product (seq_ops.c 433–439). -/
def seqMatMulSizes {α : Type} (lim : Limits) (ta tb : Bool) (g : MMArgs α) : Option Quad :=
  (selectTileSizes lim (incA ta) g.za.shape noSizes).bind fun t1 =>
    (selectTileSizes lim (incB tb) g.zb.shape t1).bind fun t2 =>
      selectTileSizes lim (incY ta tb) g.zy.shape t2

/-- `zdnnx_seq_matmul` (seq_ops.c 417–515). -/
def seqMatMul {α : Type} (lim : Limits) (ta tb : Bool) (op : MatMul α) (g : MMArgs α)
    (w : MMOwn α) (out : Buf α) : Option (Buf α) :=
  (seqMatMulSizes lim ta tb g).bind fun ts =>
    let q := g.splits ts
    if q.a.noSplit ∧ q.b.noSplit then op g.za g.zb g.zc g.zy g.a g.b g.c out
    else runTiles (matmulStep op g w q) (allTiles q.bounds) out

/-! ## Parallel operations

The loops over the tiles are OpenMP loops.  The tiles write to different cells, so any order of
the tiles stands for any schedule: `order` is a rearrangement of the tiles. -/

/-- `zdnnx_get_transformed_dim_per_tile` along `e4` and `e1` (zdnnx.c 397–416). -/
def dimPerTile4 (d tiles : ℕ) : ℕ := cdiv d tiles
def dimPerTile1 (d tiles : ℕ) : ℕ := cdiv (cdiv d tiles) 64 * 64

/-- The loop that halves a tile size while it exceeds a limit (omp_ops.c 402–404). -/
def halve (mx : ℕ) : ℕ → ℕ → ℕ
  | 0, v => v
  | fuel + 1, v => if v > mx then halve mx fuel (v / 2) else v

/-- The loops that halve a tile size while the tile has too many elements (omp_ops.c 590–594,
598–602). -/
def halveWhile (total : ℕ → ℕ) (mx : ℕ) : ℕ → ℕ → ℕ
  | 0, v => v
  | fuel + 1, v => if total v > mx then halveWhile total mx fuel (v / 2) else v

/-- The view of a tensor whose pages all lie along `e4` (omp_ops.c 375–392, zdnnx.c 418–441).
The view shares the descriptors with the tensor itself, so the tensor has the new shape from here
on. -/
def collapse (z : ZTensor) : ZTensor :=
  { z with shape := ⟨z.shape.e4 * z.shape.e3 * (z.shape.e2 / 32) * (z.shape.e1 / 64), 1, 32, 64⟩,
           layout := .d4 }

/-- Whether the buffer has at least 3 MB (omp_ops.c 372, 463). -/
def isBig (z : ZTensor) : Bool := decide (3 * 1024 * 1024 ≤ bufferSize z.shape)

/-- The tensor that the elementwise operations split (omp_ops.c 374–397). -/
def viewOf (z : ZTensor) : ZTensor :=
  if isBig z ∧ z.shape.e1 % 64 = 0 ∧ z.shape.e2 % 32 = 0 then collapse z else z

/-- The tile size along `e4` of the elementwise operations (omp_ops.c 399–408).  `threads` is the
number of zAIU threads; there is one thread per zAIU (omp_ops.c 57–67). -/
def ompTileSize (lim : Limits) (threads : ℕ) (z : ZTensor) : ℕ :=
  if isBig z then
    let v := dimPerTile4 (viewOf z).shape.e4 threads
    halve lim.dim.e4 v v
  else 0

/-- One turn of the parallel loops: the status of the operation on the tile is not looked at
(omp_ops.c 430–446). -/
def ompUnaryStep {α : Type} (op : Unary α) (sp : Split) (ownX ownY : Quad → Buf α) (x : Buf α)
    (ie : Quad) (out : Buf α) : Option (Buf α) :=
  let y := outputTile sp ie out (ownY ie)
  some (storeTile sp ie ((op (tileDescAt sp ie) (inputTile sp ie x (ownX ie)) y).getD y) out)

/-- The operation on a tile of the parallel loops, the sequential operation.  A tile has the layout
and type of its tensor. -/
def seqUnaryOn {α : Type} (lim : Limits) (op : Unary α) (z : ZTensor) (ownX ownY : Quad → Buf α) :
    Unary α := fun s x out => seqUnary lim op { z with shape := s } ownX ownY x out

/-- `zdnnx_omp_unary_elementwise` (omp_ops.c 363–452).  `none` is a crash or a status that is not
`ZDNN_OK`; with no thread the tile size is a division by zero (`OM_NUM_ZAIU_THREADS=0`,
omp_ops.c 37–55). -/
def ompUnary {α : Type} (lim : Limits) (threads : ℕ) (op : Unary α) (z : ZTensor)
    (ownX ownY : Quad → Buf α) (order : List Quad) (x out : Buf α) : Option (Buf α) :=
  if isBig z ∧ threads = 0 then none
  else
    let v := viewOf z
    let sp := prepareSplit v ⟨ompTileSize lim threads z, 0, 0, 0⟩
    if sp.noSplit then seqUnary lim op v ownX ownY x out
    else runTiles (ompUnaryStep (seqUnaryOn lim op v ownX ownY) sp ownX ownY x) order out

/-- The split that the parallel unary operation uses. -/
def ompSplit (lim : Limits) (threads : ℕ) (z : ZTensor) : Split :=
  prepareSplit (viewOf z) ⟨ompTileSize lim threads z, 0, 0, 0⟩

/-- One turn of the parallel loops of the binary operations (omp_ops.c 524–546). -/
def ompBinaryStep {α : Type} (op : Binary α) (sp : Split) (ownA ownB ownY : Quad → Buf α)
    (a b : Buf α) (ie : Quad) (out : Buf α) : Option (Buf α) :=
  let y := outputTile sp ie out (ownY ie)
  some (storeTile sp ie ((op (tileDescAt sp ie) (inputTile sp ie a (ownA ie))
    (inputTile sp ie b (ownB ie)) y).getD y) out)

/-- The sequential operation as the operation on a tile of the parallel loops. -/
def seqBinaryOn {α : Type} (lim : Limits) (op : Binary α) (z : ZTensor)
    (ownA ownB ownY : Quad → Buf α) : Binary α :=
  fun s a b out => seqBinary lim op { z with shape := s } ownA ownB ownY a b out

/-- `zdnnx_omp_binary_elementwise` (omp_ops.c 454–552). -/
def ompBinary {α : Type} (lim : Limits) (threads : ℕ) (op : Binary α) (z : ZTensor)
    (ownA ownB ownY : Quad → Buf α) (order : List Quad) (a b out : Buf α) : Option (Buf α) :=
  if isBig z ∧ threads = 0 then none
  else
    let v := viewOf z
    let sp := prepareSplit v ⟨ompTileSize lim threads z, 0, 0, 0⟩
    if sp.noSplit then seqBinary lim op v ownA ownB ownY a b out
    else runTiles (ompBinaryStep (seqBinaryOn lim op v ownA ownB ownY) sp ownA ownB ownY a b)
      order out

/-- The tile sizes along `e4` and `e2` of the parallel softmax (omp_ops.c 572–608). -/
def ompSoftmaxSizes (lim : Limits) (threads : ℕ) (s : Quad) : ℕ × ℕ :=
  let v := dimPerTile4 s.e4 threads
  let t4 := if v > lim.dim.e4 then lim.dim.e4 else v
  let t2 := if s.e2 > lim.dim.e2 then lim.dim.e2 else 0
  let total := t4 * s.e3 * t2 * s.e1
  if total ≤ lim.size then (t4, t2)
  else if total ≤ lim.size * t4 then (halveWhile (fun v => v * s.e3 * t2 * s.e1) lim.size t4 t4, t2)
  else (1, halveWhile (fun v => 1 * s.e3 * v * s.e1) lim.size t2 t2)

/-- The sequential softmax as the operation on a tile of the parallel loops. -/
def seqSoftmaxOn {α : Type} (lim : Limits) (op : Unary α) (z : ZTensor)
    (ownX ownY : Quad → Buf α) : Unary α :=
  fun s x out => seqSoftmax lim op { z with shape := s } ownX ownY x out

/-- The split that the parallel softmax uses. -/
def ompSoftmaxSplit (lim : Limits) (threads : ℕ) (z : ZTensor) : Split :=
  let t := ompSoftmaxSizes lim threads z.shape
  prepareSplit z ⟨t.1, 0, t.2, 0⟩

/-- `zdnnx_omp_softmax` (omp_ops.c 554–640).  Its loops leave out `e3` and `e1`, which have one
tile each.  The assertion on the status makes a failure a crash. -/
def ompSoftmax {α : Type} (lim : Limits) (threads : ℕ) (op : Unary α) (z : ZTensor)
    (ownX ownY : Quad → Buf α) (order : List Quad) (x out : Buf α) : Option (Buf α) :=
  if threads = 0 then none
  else
    let sp := ompSoftmaxSplit lim threads z
    if sp.noSplit then seqSoftmax lim op z ownX ownY x out
    else runTiles (unaryStep (seqSoftmaxOn lim op z ownX ownY) sp ownX ownY x) order out

/-- The tile sizes of the parallel matrix product: `none` when `K` is too large, or at the
division by zero with no thread (`compute_tile_sizes_for_matmul`, omp_ops.c 73–165).  Simplified:
the loop at 153–157 that makes more tiles while the size exceeds the limit is left out; it is not
entered when the limit of `e1` is a multiple of 64. -/
def ompMatMulSizes {α : Type} (lim : Limits) (threads : ℕ) (g : MMArgs α) : Option Quad :=
  let BS := g.za.shape.e4
  let M := g.za.shape.e2
  let K := g.za.shape.e1
  let N := g.zb.shape.e1
  if K > lim.dim.e1 then none
  else
    let enough : Bool := (threads == 1 && decide (BS ≥ 1)) || (decide (threads > 1) && decide (BS ≥ threads))
    let bsOnly : Bool := enough && decide (M ≤ lim.dim.e2) && decide (N ≤ lim.dim.e1)
    let t4 := if bsOnly then dimPerTile4 BS threads else if BS ≠ 1 then 1 else 0
    let t2 := if M > lim.dim.e2 then 8192 else 0
    let tilesN := if M > lim.dim.e2 then 1 else threads
    if N > lim.dim.e1 then some ⟨t4, 0, t2, 4096⟩
    else if bsOnly then some ⟨t4, 0, t2, 0⟩
    else if tilesN = 0 then none
    else some ⟨t4, 0, t2, dimPerTile1 N tilesN⟩

/-- `zdnnx_omp_matmul` (omp_ops.c 167–260).  `op` is the sequential product.  The assertion on the
status makes a failure a crash. -/
def ompMatMul {α : Type} (lim : Limits) (threads : ℕ) (op : MatMul α) (g : MMArgs α)
    (w : MMOwn α) (order : List Quad) (out : Buf α) : Option (Buf α) :=
  (ompMatMulSizes lim threads g).bind fun ts =>
    let q := g.splits ts
    if q.a.noSplit ∧ q.b.noSplit then op g.za g.zb g.zc g.zy g.a g.b g.c out
    else runTiles (matmulStep op g w q) order out

/-- The sequential product as the operation on the tiles of the parallel one. -/
def seqMatMulOn {α : Type} (lim : Limits) (ta tb : Bool) (op : MatMul α) (w : MMOwn α) :
    MatMul α := fun za zb zc zy a b c out => seqMatMul lim ta tb op ⟨za, zb, zc, zy, a, b, c⟩ w out

/-! ## Tensors -/

/-- The tensor's shape is one that its layout allows: dimensions that the layout does not have are
one. -/
def Fits (z : ZTensor) : Prop := descOf z.layout z.shape = z.shape

instance (z : ZTensor) : Decidable (Fits z) := by unfold Fits; infer_instance

/-- A tensor that may be split. -/
structure Plain (z : ZTensor) : Prop where
  pos : Positive z.shape
  fits : Fits z
  dtype : z.dtype = .dlfloat16
  layout : z.layout ≠ .other

/-- The layouts of the unstacked product, of the stacked one and of the one with a single right
matrix for all stacks. -/
def MMLayouts (a b c y : Layout) : Prop :=
  (a = .d2 ∧ b = .d2 ∧ c = .d1 ∧ y = .d2) ∨ (a = .d3s ∧ b = .d3s ∧ c = .d2s ∧ y = .d3s) ∨
  (a = .d3s ∧ b = .d2 ∧ c = .d1 ∧ y = .d3s)

instance (a b c y : Layout) : Decidable (MMLayouts a b c y) := by unfold MMLayouts; infer_instance

/-- The operands of a matrix product. -/
structure MMOk (za zb zc zy : ZTensor) : Prop where
  a : Plain za
  b : Plain zb
  c : Plain zc
  y : Plain zy
  lay : MMLayouts za.layout zb.layout zc.layout zy.layout
  stackA : za.shape.e4 = zy.shape.e4
  stackB : zb.layout = .d3s → zb.shape.e4 = zy.shape.e4 ∧ zc.shape.e4 = zy.shape.e4

end Verif.Zdnnx
