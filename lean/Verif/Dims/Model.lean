import Mathlib.Data.List.Basic
import Mathlib.Data.Nat.Notation
import Mathlib.Algebra.BigOperators.Group.List.Basic

/-!
# Model of the analysis of dynamic dimensions

Models `src/Dialect/ONNX/ONNXDimAnalysis.cpp`: the analysis which finds out which dynamic dimensions of a function are equal
at run time. Its answers (`sameDim`, `sameShape`, ...) are used for lowering without broadcasts, fusing elementwise operations,
lowering Reshape, removing `onnx.Dim` and for shape inference of Reshape.

Values are numbers. All values are ranked (with an unranked value the analysis has no target operations and does
nothing, `collectOperationsFromModule`, 521-551). Regions of operations are not modelled: a function is a list of operations.
-/

namespace Verif.Dims

/-- An SSA value. -/
abbrev Val := ℕ

/-- `DimAnalysis::DimT` (ONNXDimAnalysis.hpp:29): a tensor and an axis. -/
abbrev Dim := Val × ℕ

/-- Shape of a ranked tensor type; `none` is a dynamic dimension. -/
abbrev Ty := List (Option ℕ)

/-- The operations that the analysis tells apart. `constant` has the first element of the constant, converted to `int64_t`
(`getScalarValue`, OpHelper.cpp:570-596). `rnn` is GRU, LSTM or RNN (operands: X, W, R, B, sequence_lens, initial_h, initial_c).
`nary` is any of the broadcasting operations of ONNXDimAnalysis.cpp:1203-1208 other than Add and MatMul. `matmul true` is
MatMulInteger. -/
inductive Kind where
  | constant (first : ℤ)
  | dim (axis : ℕ)
  | cast
  | concat (axis : ℤ)
  | gemm (transA transB : Bool)
  | matmul (integer : Bool)
  | rnn (layout : ℤ)
  | add
  | nary
  | centerCropPad (axes : Option (List ℤ))
  | constantOfShape
  | expand
  | maxUnpool
  | reshape (allowzero : ℤ)
  | tile
  | squeeze
  | other
deriving DecidableEq

/-- An operation; an operand is `none` if it is a NoneType value. -/
structure Op where
  kind : Kind
  operands : List (Option Val)
  results : List Val
deriving DecidableEq

/-- What the analysis reads of a function. `sameQ d e` says that the shape helper of the operation that defines `d` gives for `d`
the (specific) question mark of the operand dimension `e`; `target` are the operations in the scope of the analysis. -/
structure Graph where
  ops : List Op
  ty : Val → Ty
  i64 : Val → Bool
  sameQ : Dim → Dim → Bool
  target : Op → Bool
  args : List Val
  returned : List Val
  argName : ℕ → ℕ → Option String
  resName : ℕ → ℕ → Option String
  forOutputs : Bool

/-- `Value::getDefiningOp`; `none` is a block argument. -/
def defOp (g : Graph) (v : Val) : Option Op := g.ops.find? (fun o => decide (v ∈ o.results))

/-- `Value::getUsers` (in the order of the operations). -/
def users (g : Graph) (v : Val) : List Op := g.ops.filter (fun o => decide (some v ∈ o.operands))

/-- Operand number `i`, if it is there and not a NoneType value. -/
def Op.opd (o : Op) (i : ℕ) : Option Val := (o.operands[i]?).join

/-- The operands that are values. -/
def Op.vals (o : Op) : List Val := o.operands.filterMap id

/-- `insertDimWhenUseful` (ONNXDimAnalysis.cpp:87-117): the dimension that is inserted, if any. -/
def insertWhen (g : Graph) (v : Val) (i : ℕ) : List Dim :=
  match defOp g v with
  | none => [(v, i)]
  | some o =>
    match o.kind with
    | .constant _ => []
    | .dim axis => [(v, axis)]
    | .cast => [(v, i)]
    | _ => if (g.ty v)[i]? = some none then [(v, i)] else []

/-- `handleAndTestInBound` (119-126). -/
def normAxis (g : Graph) (v : Val) (a : ℤ) : Option ℕ :=
  let k := if a < 0 then a + (g.ty v).length else a
  if 0 ≤ k ∧ k < (g.ty v).length then some k.toNat else none

/-- `DimAnalysis::sameDynDim` (840-860), after the test of the axes: same tensor and axis, or in one of the sets. -/
def sameSet (m : List (List Dim)) (d e : Dim) : Bool :=
  d = e || m.any (fun S => decide (d ∈ S) && decide (e ∈ S))

/-- `DimAnalysis::sameDynDim` (840-860). -/
def sameDynDim (g : Graph) (m : List (List Dim)) (v : Val) (a : ℤ) (w : Val) (b : ℤ) : Bool :=
  match normAxis g v a, normAxis g w b with
  | some i, some j => sameSet m (v, i) (w, j)
  | _, _ => false

/-- The comparison of two dimensions in `DimAnalysis::sameDim` (817-838), after the test of the axes. -/
def sameDimAt (g : Graph) (m : List (List Dim)) (v : Val) (i : ℕ) (w : Val) (j : ℕ) : Bool :=
  if v = w ∧ i = j then true
  else
    match (g.ty v)[i]?, (g.ty w)[j]? with
    | some (some x), some (some y) => decide (x = y)
    | some none, some none => sameSet m (v, i) (w, j)
    | _, _ => false

/-- `DimAnalysis::sameDim` (817-838). -/
def sameDim (g : Graph) (m : List (List Dim)) (v : Val) (a : ℤ) (w : Val) (b : ℤ) : Bool :=
  match normAxis g v a, normAxis g w b with
  | some i, some j => sameDimAt g m v i w j
  | _, _ => false

/-! ### Consuming operations -/

/-- Concat (ONNXDimAnalysis.cpp:171-203). -/
def consumeConcat (g : Graph) (d : Dim) (xs : List Val) (axis : ℤ) : List Dim :=
  let rank := (g.ty (xs.headD 0)).length
  let axis := if axis < 0 then axis + rank else axis
  if d.1 ∈ xs ∧ d.2 < rank ∧ (d.2 : ℤ) ≠ axis then
    xs.flatMap fun w => if w = d.1 then [] else insertWhen g w d.2
  else []

/-- Gemm (204-225) and MatMul (308-331): the two dimensions that are contracted. -/
def consumePair (g : Graph) (d a b : Dim) : List Dim :=
  if a = d then insertWhen g b.1 b.2 else if b = d then insertWhen g a.1 a.2 else []

/-- The dimensions of GRU, LSTM and RNN that are the size of the batch (226-307, 332-369). -/
def batchDims (o : Op) (layout : ℤ) : List Dim :=
  let k := if layout = 0 then 1 else 0
  ((o.opd 0).map fun x => (x, k)).toList ++ ((o.opd 4).map fun x => (x, 0)).toList ++
    ((o.opd 5).map fun x => (x, k)).toList ++ ((o.opd 6).map fun x => (x, k)).toList

/-- `exploreSameDimsFromConsumingOperators` (157-371), for one operation. -/
def consume (g : Graph) (d : Dim) (o : Op) : List Dim :=
  match o.kind with
  | .concat axis => consumeConcat g d o.vals axis
  | .gemm ta tb =>
    match o.opd 0, o.opd 1 with
    | some a, some b => consumePair g d (a, if ta then 0 else 1) (b, if tb then 1 else 0)
    | _, _ => []
  | .matmul _ =>
    match o.opd 0, o.opd 1 with
    | some a, some b =>
      if 2 ≤ (g.ty a).length ∧ 2 ≤ (g.ty b).length then
        consumePair g d (a, (g.ty a).length - 1) (b, (g.ty b).length - 2)
      else []
    | _, _ => []
  | .rnn layout =>
    if d ∈ batchDims o layout then (batchDims o layout).flatMap fun e => insertWhen g e.1 e.2 else []
  | _ => []

/-- `exploreSameDimsFromConsumingOperators` (157-371): it ends at the first user that is not a target (`return`, 168-169). -/
def consuming (g : Graph) (d : Dim) : List Dim :=
  ((users g d.1).takeWhile g.target).flatMap (consume g d)

/-! ### Defining operations -/

/-- `findAndAddSameDim` (128-152), called by `exploreSameDimsUsingShapeHelper` (377-424). -/
def fromHelper (g : Graph) (o : Op) (d : Dim) : List Dim :=
  o.vals.flatMap fun v => (List.range (g.ty v).length).flatMap fun i =>
    if g.sameQ d (v, i) then insertWhen g v i else []

/-- `areDims` and `getDims` (OpHelper.cpp:477-519): the one-element tensors that a shape is made of. The recursion over
the operations has a bound on its depth here (`none` if it is reached). -/
def dimsOf (g : Graph) : ℕ → Val → Option (List Val)
  | 0, _ => none
  | n + 1, v =>
    if (g.ty v).length ≠ 1 then none
    else
      match defOp g v with
      | some ⟨.concat _, xs, _⟩ => ((xs.filterMap id).mapM (dimsOf g n)).map List.flatten
      | _ => if g.ty v = [some 1] ∧ g.i64 v = true then some [v] else none

/-- `areDimsFromConcat` followed by `getDims` (OpHelper.cpp:503-519). -/
def concatDims (g : Graph) (v : Val) : Option (List Val) :=
  match defOp g v with
  | some ⟨.concat _, _, _⟩ => dimsOf g (g.ops.length + 1) v
  | _ => none

/-- Search of `outputDimIndex` in the axes of CenterCropPad (461-481). -/
def findAxis (g : Graph) (y : Val) (axes : List ℤ) (k : ℕ) : Option ℕ :=
  (axes.zipIdx.find? fun p => normAxis g y p.1 = some k).map (·.2)

/-- The operand with the shape of the output and the index of the dimension in it (`exploreSameDimsUsingShapeInput`, 447-504). -/
def shapeInput (g : Graph) (o : Op) (d : Dim) : Option (Val × ℕ) :=
  match o.kind with
  | .centerCropPad axes =>
    let axes := axes.getD ((List.range (g.ty d.1).length).map Int.ofNat)
    (findAxis g d.1 axes d.2).bind fun i => (o.opd 1).map fun s => (s, i)
  | .constantOfShape => (o.opd 0).map fun s => (s, d.2)
  | .expand => (o.opd 1).map fun s => (s, d.2)
  | .maxUnpool => (o.opd 2).map fun s => (s, d.2)
  | .reshape z => if z = 0 then (o.opd 1).map fun s => (s, d.2) else none
  | .tile =>
    (o.opd 0).bind fun x =>
      if (g.ty x)[d.2]? = some (some 1) then (o.opd 1).map fun s => (s, d.2) else none
  | _ => none

/-- `exploreSameDimsUsingShapeInput` (444-518). An index past the dimensions of the shape (undefined behaviour) inserts nothing
here; see `C85_index`. -/
def fromShapeInput (g : Graph) (o : Op) (d : Dim) : List Dim :=
  match shapeInput g o d with
  | none => []
  | some (s, i) =>
    match concatDims g s with
    | none => []
    | some ws =>
      match ws[i]? with
      | none => []
      | some w => insertWhen g w i

/-- All pairs of operands `i < k` (1211-1214). -/
def pairs : List Val → List (Val × Val)
  | [] => []
  | x :: xs => xs.map (fun y => (x, y)) ++ pairs xs

/-- Is the operation in the list of 1203-1208? -/
def isNary : Kind → Bool
  | .add => true
  | .nary => true
  | .matmul false => true
  | _ => false

/-- Broadcasting of two operands (1215-1229). -/
def fromPair (g : Graph) (m : List (List Dim)) (d : Dim) (p : Val × Val) : List Dim :=
  let ra := (g.ty p.1).length
  let rb := (g.ty p.2).length
  if ra ≠ 0 ∧ rb ≠ 0 then
    let neg : ℤ := (d.2 : ℤ) - (max ra rb : ℕ)
    if sameDim g m p.1 neg p.2 neg then insertWhen g p.1 ((ra : ℤ) + neg).toNat else []
  else []

/-- The dynamic dimensions of a tensor and the product of the static ones (1262-1277). -/
def dynDims (t : Ty) : List ℕ := (t.zipIdx.filter fun p => p.1.isNone).map (·.2)

/-- See `dynDims`. -/
def staticSize (t : Ty) : ℕ := (t.map fun x => x.getD 1).prod

/-- One dynamic dimension of the data of a Reshape (1289-1302). -/
def matchStep (g : Graph) (m : List (List Dim)) (x y : Val) (outs : List ℕ) (st : List ℕ × Option ℕ) (i : ℕ) :
    List ℕ × Option ℕ :=
  match outs.find? fun j => decide (j ∉ st.1) && sameDim g m x i y j with
  | some j => (st.1 ++ [j], st.2)
  | none => (st.1, some (st.2.getD i))

/-- The special case for Reshape (1235-1318). -/
def fromReshape (g : Graph) (m : List (List Dim)) (d : Dim) (x y : Val) : List Dim :=
  let ins := dynDims (g.ty x)
  let outs := dynDims (g.ty y)
  if ins.length = outs.length ∧ staticSize (g.ty x) = staticSize (g.ty y) then
    let st := ins.foldl (matchStep g m x y outs) ([], none)
    match st.2 with
    | none => []
    | some i => if st.1.length + 1 = outs.length ∧ d.2 ∉ st.1 then insertWhen g x i else []
  else []

/-- The part of `visitDim` for the defining operation, after DimOp and CastOp (1181-1319). -/
def fromOp (g : Graph) (m : List (List Dim)) (d : Dim) (o : Op) : List Dim :=
  fromHelper g o d ++ fromShapeInput g o d ++
    (if isNary o.kind then (pairs o.vals).flatMap (fromPair g m d) else []) ++
    match o.kind, o.opd 0, o.results with
    | .reshape z, some x, y :: _ => if z = 0 then fromReshape g m d x y else []
    | _, _, _ => []

/-- The part of `visitDim` for the defining operation (1151-1319). -/
def fromDef (g : Graph) (m : List (List Dim)) (d : Dim) : List Dim :=
  match defOp g d.1 with
  | none => []
  | some o =>
    match o.kind with
    | .constant _ => []
    | .dim axis => (o.opd 0).toList.flatMap fun x => insertWhen g x axis
    | .cast => (o.opd 0).toList.flatMap fun x => insertWhen g x d.2
    | _ => fromOp g m d o

/-- `DimAnalysis::visitDim` (1129-1319): dimensions found to be the same as `d`. -/
def visit (g : Graph) (m : List (List Dim)) (d : Dim) : List Dim := consuming g d ++ fromDef g m d

/-! ### Sets of dimensions -/

/-- Insertion in a set. -/
def ins (S : List Dim) (d : Dim) : List Dim := if d ∈ S then S else S ++ [d]

/-- Insertion of many dimensions. -/
def union (S T : List Dim) : List Dim := T.foldl ins S

/-- One set of `updateDimSets` (1076-1087); `m` are the sets at that time. -/
def updateSet (g : Graph) (m : List (List Dim)) (S : List Dim) : List Dim := union S (S.flatMap (visit g m))

/-- `updateDimSets` (1071-1090): each set is updated in turn, with the sets before it already updated. -/
def updateAux (g : Graph) : List (List Dim) → List (List Dim) → List (List Dim)
  | done, [] => done
  | done, S :: todo => updateAux g (done ++ [updateSet g (done ++ S :: todo) S]) todo

/-- `updateDimSets` (1071-1090): the new sets, and whether any of them is larger. -/
def update (g : Graph) (m : List (List Dim)) : List (List Dim) × Bool :=
  let m' := updateAux g [] m
  (m', decide ((m'.map List.length).sum ≠ (m.map List.length).sum))

/-- `areOverlapping` (44-61). -/
def overlapping (S T : List Dim) : Bool := S.any fun d => decide (d ∈ T)

/-- The inner loop of `mergeDimSets` (1106-1119): the sets that overlap the left one are merged into it. -/
def absorb : List Dim → List (List Dim) → List Dim × List (List Dim)
  | S, [] => (S, [])
  | S, T :: ts =>
    if overlapping S T then absorb (union S T) ts
    else ((absorb S ts).1, T :: (absorb S ts).2)

/-- The outer loop (1102-1120); the first argument bounds the number of sets. -/
def mergePass : ℕ → List (List Dim) → List (List Dim)
  | 0, m => m
  | _ + 1, [] => []
  | n + 1, S :: ts => (absorb S ts).1 :: mergePass n (absorb S ts).2

/-- Passes until no set is erased (1093-1126); the first argument bounds the number of passes. -/
def mergeLoop : ℕ → List (List Dim) → List (List Dim)
  | 0, m => m
  | n + 1, m =>
    let m' := mergePass m.length m
    if m'.length < m.length then mergeLoop n m' else m'

/-- `mergeDimSets` (1092-1127). -/
def mergeSets (m : List (List Dim)) : List (List Dim) := mergeLoop m.length m

/-- The loop of `analyze` (1035-1047) that finds equal dimensions, with a bound on the number of its steps (`none` if it is
reached). `ord` is the order in which the hash map of the sets is traversed. -/
def eqLoop (g : Graph) (ord : List (List Dim) → List (List Dim)) : ℕ → List (List Dim) → Option (List (List Dim))
  | 0, _ => none
  | n + 1, m =>
    let r := update g (ord m)
    if r.2 then eqLoop g ord n (mergeSets r.1) else some r.1

/-! ### Offsets -/

/-- `DimRelation` (ONNXDimAnalysis.hpp:37-49) with `offset2 = 0`: `dim1 + offset = dim2`. -/
structure Rel where
  src : Dim
  off : ℤ
  tgt : Dim
deriving DecidableEq

/-- The first element of a value defined by a constant. -/
def constOf (g : Graph) (v : Val) : Option ℤ :=
  match defOp g v with
  | some ⟨.constant c, _, _⟩ => some c
  | _ => none

/-- The special case for Add (1447-1467); `none`: not an Add with a constant operand. -/
def offAdd (g : Graph) (d : Dim) (o : Op) : Option (List Rel) :=
  match o.kind, o.opd 0, o.opd 1 with
  | .add, some a, some b =>
    match constOf g b with
    | some c => some [⟨(a, d.2), c, d⟩]
    | none =>
      match constOf g a with
      | some c => some [⟨(b, d.2), c, d⟩]
      | none => none
  | _, _, _ => none

/-- The special case for Concat on its axis (1469-1498). -/
def offConcatAt (g : Graph) (d : Dim) (xs : List Val) : List Rel :=
  match xs.filter fun x => decide ((g.ty x)[d.2]? = some none) with
  | [x] =>
    let total := (xs.map fun w => (((g.ty w)[d.2]?).join).getD 0).sum
    if 0 < total then [⟨(x, d.2), total, d⟩] else []
  | _ => []

/-- The special case for Concat; `none`: not a Concat, or not its axis. -/
def offConcat (g : Graph) (d : Dim) (o : Op) : Option (List Rel) :=
  match o.kind with
  | .concat axis =>
    if (d.2 : ℤ) = (if axis < 0 then axis + (g.ty d.1).length else axis) then some (offConcatAt g d o.vals) else none
  | _ => none

/-- The input of the Concat with the element number `k` of the shape (1503-1509, 1546). -/
def pieceAt (g : Graph) (k : ℕ) : ℕ → List Val → Option Val
  | _, [] => none
  | cur, w :: ws =>
    if cur ≤ k ∧ k < cur + staticSize (g.ty w) then some w else pieceAt g k (cur + staticSize (g.ty w)) ws

/-- The operation that computes a piece of the shape, behind a Reshape (1510-1512). -/
def behindReshape (g : Graph) (w : Val) : Option Op :=
  match defOp g w with
  | some ⟨.reshape z, xs, ys⟩ => ((Op.mk (.reshape z) xs ys).opd 0).bind (defOp g)
  | r => r

/-- The value behind a Squeeze (1520-1521). -/
def behindSqueeze (g : Graph) (v : Val) : Val :=
  match defOp g v with
  | some ⟨.squeeze, some x :: _, _⟩ => x
  | _ => v

/-- The dimension read by a DimOp. -/
def dimSource (g : Graph) (v : Val) : Option Dim :=
  match defOp g (behindSqueeze g v) with
  | some ⟨.dim axis, some x :: _, _⟩ => some (x, axis)
  | _ => none

/-- A dimension plus a constant (1514-1543). -/
def offPiece (g : Graph) (d : Dim) (w : Val) : List Rel :=
  match behindReshape g w with
  | some ⟨.add, [some a, some b], _⟩ =>
    match constOf g b with
    | some c => (dimSource g a).toList.map fun e => ⟨e, c, d⟩
    | none =>
      match constOf g a with
      | some c => (dimSource g b).toList.map fun e => ⟨e, c, d⟩
      | none => []
  | _ => []

/-- The special case for Expand (1500-1550). -/
def offExpand (g : Graph) (d : Dim) (o : Op) : List Rel :=
  match (o.opd 1).bind (defOp g) with
  | some ⟨.concat _, xs, _⟩ => (pieceAt g d.2 0 (xs.filterMap id)).toList.flatMap (offPiece g d)
  | _ => []

/-- The general case (1552-1572). -/
def offGeneral (g : Graph) (m : List (List Dim)) (d : Dim) (o : Op) : List Rel :=
  o.vals.flatMap fun v => (List.range (g.ty v).length).flatMap fun (i : ℕ) =>
    if sameDim g m v i d.1 d.2 then [⟨(v, i), 0, d⟩] else []

/-- The cases of `visitDimForOffsets` for a defining operation (1443-1573). -/
def offOp (g : Graph) (m : List (List Dim)) (d : Dim) (o : Op) : List Rel :=
  match offAdd g d o with
  | some l => l
  | none =>
    match offConcat g d o with
    | some l => l
    | none =>
      match o.kind with
      | .expand => offExpand g d o
      | _ => offGeneral g m d o

/-- `visitDimForOffsets` (1432-1573). -/
def visitOffsets (g : Graph) (m : List (List Dim)) (d : Dim) : List Rel :=
  match defOp g d.1 with
  | none => []
  | some o =>
    match o.kind with
    | .constant _ => []
    | _ => offOp g m d o

/-- `dimRelations[d]`: relations from `d`, as offset and target. -/
def relsOf (rels : List Rel) (d : Dim) : List (ℤ × Dim) :=
  (rels.filter fun r => decide (r.src = d)).map fun r => (r.off, r.tgt)

/-- First target for each offset (`try_emplace`, 1372). -/
def firsts : List (ℤ × Dim) → List (ℤ × Dim)
  | [] => []
  | p :: ps => p :: (firsts ps).filter fun q => decide (q.1 ≠ p.1)

/-- Phase 1 for one set (1356-1390): the new relations. -/
def shareSet (rels : List Rel) (S : List Dim) : List Rel :=
  S.flatMap fun d => if relsOf rels d = [] then (firsts (S.flatMap (relsOf rels))).map fun p => ⟨d, p.1, p.2⟩ else []

/-- Phase 1 (1355-1391). -/
def share (m : List (List Dim)) (rels : List Rel) : List Rel :=
  m.foldl (fun rs S => rs ++ shareSet rs S) rels

/-- Targets with one offset, compared with the first of them (1410-1417). -/
def newEqs (g : Graph) (m : List (List Dim)) : List Dim → List (Dim × Dim)
  | [] => []
  | t :: ts => (ts.filter fun e => ¬ sameDim g m t.1 t.2 e.1 e.2).map fun e => (t, e)

/-- Phase 2 for one set (1396-1419). -/
def inferSet (g : Graph) (m : List (List Dim)) (rels : List Rel) (S : List Dim) : List (Dim × Dim) :=
  if S.length < 2 then []
  else
    let l := S.flatMap (relsOf rels)
    (l.map (·.1)).dedup.flatMap fun o => newEqs g m ((l.filter fun p => decide (p.1 = o)).map (·.2))

/-- The new set for an equality: `build(dim2, build(dim1))` (1423). -/
def eqSet (p : Dim × Dim) : List Dim := ins [p.1] p.2

/-- One round of `propagateOffsetRelations` (1352-1429): sets and relations after it, and whether anything changed. -/
def offStep (g : Graph) (ord : List (List Dim) → List (List Dim)) (m : List (List Dim)) (rels : List Rel) :
    List (List Dim) × List Rel × Bool :=
  let rels' := share (ord m) rels
  let eqs := (ord m).flatMap (inferSet g m rels')
  let upd := decide (rels'.length ≠ rels.length) || !eqs.isEmpty
  (if upd then mergeSets (m ++ eqs.map eqSet) else m, rels', upd)

/-- `propagateOffsetRelations` (1348-1430) with a bound on the number of rounds. -/
def offLoop (g : Graph) (ord : List (List Dim) → List (List Dim)) :
    ℕ → List (List Dim) → List Rel → Option (List (List Dim) × List Rel)
  | 0, _, _ => none
  | n + 1, m, rels =>
    let r := offStep g ord m rels
    if r.2.2 then offLoop g ord n r.1 r.2.1 else some (r.1, r.2.1)

/-! ### The analysis -/

/-- The dynamic dimensions of a value (`build(Value)`, 798-815). -/
def dynOf (g : Graph) (v : Val) : List Dim := (dynDims (g.ty v)).map fun i => (v, i)

/-- The dynamic dimensions of arguments or results with their names, if they have one (`buildFor`, 739-769). -/
def argDims (g : Graph) (vs : List Val) (name : ℕ → ℕ → Option String) : List (Dim × Option String) :=
  vs.zipIdx.flatMap fun p => (dynOf g p.1).map fun d => (d, name p.2 d.2)

/-- Arguments and results of the function (`buildFunctionArgsRes`, 771-788). -/
def boundaryDims (g : Graph) : List (Dim × Option String) :=
  argDims g g.args g.argName ++ if g.forOutputs then argDims g g.returned g.resName else []

/-- One set for each name (790-795). -/
def namedSets (g : Graph) : List (List Dim) :=
  ((boundaryDims g).filterMap (·.2)).dedup.map fun n =>
    union [] (((boundaryDims g).filter fun p => decide (p.2 = some n)).map (·.1))

/-- The sets before the analysis (constructors, 659-706, and `build`, 708-815). -/
def initSets (g : Graph) : List (List Dim) :=
  ((g.ops.filter g.target).flatMap fun o => (o.results.flatMap (dynOf g)).map fun d => [d]) ++
    ((boundaryDims g).filter fun p => p.2.isNone).map (fun p => [p.1]) ++ namedSets g

/-- `DimAnalysis::analyze` (1032-1069) with a bound on the steps of its loops. -/
def analyze (g : Graph) (ord : List (List Dim) → List (List Dim)) (fuel : ℕ) : Option (List (List Dim) × List Rel) :=
  if (g.ops.filter g.target).isEmpty then some (initSets g, [])
  else
    (eqLoop g ord fuel (initSets g)).bind fun m =>
      offLoop g ord fuel m ((ord m).flatMap fun S => S.flatMap (visitOffsets g m))

/-! ### Questions -/

/-- `DimAnalysis::sameShape` (862-872). -/
def sameShape (g : Graph) (m : List (List Dim)) (v w : Val) : Bool :=
  decide ((g.ty v).length = (g.ty w).length) &&
    (List.range (g.ty v).length).all fun i => sameDim g m v i w i

/-- `DimAnalysis::broadcastLastDim` (895-911); for rank 0 the code reads before the shape: `false` here. -/
def broadcastLastDim (g : Graph) (m : List (List Dim)) (v w : Val) : Bool :=
  decide ((g.ty v).length = (g.ty w).length) && decide ((g.ty v).getLast? = some (some 1)) &&
    (List.range ((g.ty v).length - 1)).all fun i => sameDim g m v i w i

/-- `DimAnalysis::sameDynShape` (874-893). -/
def sameDynShape (g : Graph) (m : List (List Dim)) (v w : Val) : Bool :=
  decide ((g.ty v).length = (g.ty w).length) &&
    (List.range (g.ty v).length).all fun i =>
      match (g.ty v)[i]?, (g.ty w)[i]? with
      | some (some _), some (some _) => true
      | _, _ => sameDim g m v i w i

/-- `DimAnalysis::getDimOffset` (913-948). -/
def getDimOffset (g : Graph) (m : List (List Dim)) (rels : List Rel) (v : Val) (a : ℤ) (w : Val) (b : ℤ) : Option ℤ :=
  match normAxis g v a, normAxis g w b with
  | some i, some j =>
    if sameDimAt g m v i w j then some 0
    else
      match (relsOf rels (v, i)).find? fun p => decide (p.2 = (w, j)) with
      | some p => some p.1
      | none => ((relsOf rels (w, j)).find? fun p => decide (p.2 = (v, i))).map fun p => -p.1
  | _, _ => none

/-- `DimAnalysis::sameDimWithOffset` (950-974). -/
def sameDimWithOffset (g : Graph) (m : List (List Dim)) (rels : List Rel) (v : Val) (a o1 : ℤ) (w : Val) (b o2 : ℤ) :
    Bool :=
  match normAxis g v a, normAxis g w b with
  | some i, some j =>
    if o1 - o2 = 0 then sameDimAt g m v i w j
    else decide (getDimOffset g m rels v a w b = some (o1 - o2))
  | _, _ => false

end Verif.Dims
