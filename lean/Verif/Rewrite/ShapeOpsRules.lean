import Verif.Rewrite.DimRules

/-!
# The patterns that expose dimensions to shape inference (model)

Source: /repo/src/Dialect/ONNX/Transforms/SimplifyShapeRelatedOps.cpp 78-453, OpHelper.cpp 479-520,
ShapeHelper.cpp 73-133, 899-941, Tensor/Shape.cpp 30-70, Tensor/Slice.cpp 28-135.

Simplified: a Cast made by `OnnxBuilder::cast` (DialectBuilder.cpp 79-89) has the default of `saturate`; the meaning of
Cast in `Term.lean` does not depend on it, which is right for the integers here unless the result has 8-bit floats.
Extents of types are natural numbers: a type with a negative extent cannot be made (an assertion of MLIR).
-/

namespace Verif.Rewrite

variable {V : Type}

/-- `emitConcatOpForDims`, SimplifyShapeRelatedOps.cpp 93-111. Without inputs the first one is read all the same. -/
def emitConcat (A : Alg V) (ds : List (Ex V)) (out : STy) : Outcome V :=
  match ds with
  | [] => .crash
  | [d] =>
    if out.dims = some [] then .into (.op .squeeze [d, .const (ofInts A [0]) i64] out) else .into d
  | d :: _ => .into (.op (.concat 0) ds ⟨some [some ds.length], d.ty.elt⟩)

/-- One extent of a tensor, SimplifyShapeRelatedOps.cpp 171-175: a constant when it is recorded, else a Dim. -/
def dimValue (A : Alg V) (x : Ex V) (ds : List (Option ℕ)) (i : ℕ) : Ex V :=
  match ds.getD i none with
  | some n => .const (ofInts A [(n : ℤ)]) i64
  | none => .op (.dim i) [x] ⟨some [some 1], i64⟩

/-- `ShapeToDimConcatPattern`, SimplifyShapeRelatedOps.cpp 142-183. A start after the end is an error. -/
def shapeToDims (A : Alg V) : Ex V → Outcome V
  | .op (.shape start stop) [x] ty =>
    match x.ty.dims with
    | none => .skip
    | some ds =>
      let s := normalizeClamped start ds.length
      let e := normalizeClamped (stop.getD ds.length) ds.length
      if e < s then .skip
      else emitConcat A ((List.range' s.toNat (e - s).toNat).map (dimValue A x ds)) ty
  | _ => .skip

/-- `areDimsFromConcat`, OpHelper.cpp 504-506. -/
def dimsFromConcat (e : Ex V) : Bool := areDims e && isConcat e

/-- `PassThroughCastPattern`, SimplifyShapeRelatedOps.cpp 190-218. -/
def passCast (A : Alg V) : Ex V → Outcome V
  | .op (.cast _ d) [x] ty =>
    if dimsFromConcat x then emitConcat A ((getDims x).map fun v => .op (.cast 1 d) [v] ⟨v.ty.dims, d⟩) ty
    else .skip
  | _ => .skip

/-- An element of a vector of the compiler: none when the index is negative or too large. -/
def at? {α : Type} (l : List α) (i : ℤ) : Option α := if i < 0 then none else l[i.toNat]?

/-- The index of `PassThroughGatherPattern`, SimplifyShapeRelatedOps.cpp 249-257: what is added to a negative index is
the rank of the data. -/
def gatherPos (rank : ℤ) (i : ℤ) : ℤ := if i < 0 then i + rank else i

/-- `PassThroughGatherPattern`, SimplifyShapeRelatedOps.cpp 221-273. -/
def passGather (A : Alg V) : Ex V → Outcome V
  | .op (.gather axis) [x, i] ty =>
    if axis ≠ 0 then .skip
    else if dimsFromConcat x then
      match constInts A i with
      | none => .skip
      | some l =>
        match (l.map (gatherPos ((x.ty.dims.map List.length).getD 0 : ℕ))).mapM (at? (getDims x)) with
        | none => .crash
        | some ds => emitConcat A ds ty
    else .skip
  | _ => .skip

/-- `IndexExpr::clamp`, IndexExpr.cpp 1103-1114, for literals. -/
def clampIE (lo hi x : ℤ) : ℤ := if x < lo then lo else if hi < x then hi else x

/-- The start of Slice on an axis of extent `n`, Slice.cpp 89-96. -/
def sliceFrom (n start step : ℤ) : ℤ :=
  let s := if start < 0 then start + n else start
  if step < 0 then clampIE 0 (n - 1) s else clampIE 0 n s

/-- The end of Slice on an axis of extent `n`, Slice.cpp 98-109. -/
def sliceTo (n stop step : ℤ) : ℤ :=
  let e := if stop < 0 then stop + n else stop
  let e := if stop ≤ -2147483648 then -1 else e
  let e := if 2147483647 ≤ stop then n else e
  if step < 0 then clampIE (-1) n e else clampIE 0 n e

/-- The loop over the axes in `ONNXSliceOpShapeHelper::computeShape`, Slice.cpp 64-120, for data of rank 1. -/
def sliceLoop (n : ℤ) (starts stops steps : List ℤ) : ℕ → ℕ → ℤ × ℤ × ℤ → Option (ℤ × ℤ × ℤ)
  | _, 0, acc => some acc
  | i, k + 1, _ =>
    match starts[i]?, stops[i]?, steps[i]? with
    | some a, some b, some c =>
      if c = 0 then none else sliceLoop n starts stops steps (i + 1) k (sliceFrom n a c, sliceTo n b c, c)
    | _, _, _ => none

/-- Start, end and step of Slice of data of rank 1, Slice.cpp 34-55, 123-135. -/
def sliceBounds (n : ℤ) (axes : Option (List ℤ)) (starts stops steps : List ℤ) : Option (ℤ × ℤ × ℤ) :=
  if (axes.getD [0]).all (fun a => a = 0 || a = -1) then
    sliceLoop n starts stops steps 0 (axes.getD [0]).length (0, n, 1)
  else none

/-- The loop for a positive step, SimplifyShapeRelatedOps.cpp 314-316. -/
def upTo (i stop step : ℤ) : List ℤ :=
  if h : i < stop ∧ 0 < step then i :: upTo (i + step) stop step else []
termination_by (stop - i).toNat
decreasing_by omega

/-- The loop for a negative step, SimplifyShapeRelatedOps.cpp 317-319. -/
def downTo (i stop step : ℤ) : List ℤ :=
  if h : stop < i ∧ step < 0 then i :: downTo (i + step) stop step else []
termination_by (i - stop).toNat
decreasing_by omega

/-- The positions that a Slice takes, SimplifyShapeRelatedOps.cpp 311-326. -/
def slicePositions (b : ℤ × ℤ × ℤ) : List ℤ := if 0 < b.2.2 then upTo b.1 b.2.1 b.2.2 else downTo b.1 b.2.1 b.2.2

/-- An optional operand that is absent or a constant. -/
def constOrNone (A : Alg V) : Ex V → Option (Option (List ℤ))
  | .none => some none
  | e => (constInts A e).map some

/-- `PassThroughSlicePattern`, SimplifyShapeRelatedOps.cpp 276-341. The bounds of an axis whose extent is not recorded
are not literals, which is not checked. -/
def passSlice (A : Alg V) : Ex V → Outcome V
  | .op .slice [x, s, e, a, st] ty =>
    if dimsFromConcat x then
      match constInts A s, constInts A e, constInts A st, constOrNone A a with
      | some s, some e, some st, some a =>
        match x.ty.dims with
        | some [some n] =>
          match sliceBounds n a s e st with
          | none => .skip
          | some b =>
            if slicePositions b = [] then .skip
            else match (slicePositions b).mapM (at? (getDims x)) with
              | none => .crash
              | some ds => emitConcat A ds ty
        | _ => .crash
      | _, _, _, _ => .skip
    else .skip
  | _ => .skip

/-- A tensor of one element along one axis, SimplifyShapeRelatedOps.cpp 375-380. -/
def isOneElt (e : Ex V) : Bool := e.ty.dims = some [some 1]

/-- `PassThroughConcatPattern`, SimplifyShapeRelatedOps.cpp 360-393. -/
def passConcat (A : Alg V) : Ex V → Outcome V
  | .op (.concat _) args ty =>
    if areDimsL args then
      if args.all isOneElt then .skip else emitConcat A (getDimsL args) ty
    else .skip
  | _ => .skip

/-- `getDimsInt64`, SimplifyShapeRelatedOps.cpp 78-90, for one dimension: the constant, or dynamic; for an argument of
the function, which no operation defines, a null pointer is followed. -/
def dimInt (A : Alg V) (isInput : ℕ → Bool) : Ex V → Option (Option ℤ)
  | .const t _ => some (some ((t.data.map A.toInt).headD 0))
  | .arg i _ => if isInput i then none else some none
  | _ => some none

/-- One extent in `updateType`, ShapeHelper.cpp 906-913: dynamic for -1, and a type cannot have other negative
extents. -/
def requested : Option ℤ → Option (Option ℕ)
  | none => some none
  | some d => if d = -1 then some none else if d < 0 then none else some (some d.toNat)

/-- `refineDims`, ShapeHelper.cpp 73-133: the recorded extents are believed. -/
def refine (inferred existing : List (Option ℕ)) : Option (List (Option ℕ)) :=
  if existing = [] ∨ inferred = [] then some inferred
  else if existing.length ≠ inferred.length then none
  else some (List.zipWith (fun i e => if e = none then i else e) inferred existing)

/-- `updateOutputType`, SimplifyShapeRelatedOps.cpp 115-127, on an operation `o` with operands `args`. -/
def updateOut (o : Op) (args : List (Ex V)) (ty : STy) (user : List (Option ℤ)) : Outcome V :=
  match ty.dims with
  | none => .crash
  | some old =>
    if user = old.map (fun d => d.map fun (n : ℕ) => (n : ℤ)) then .skip
    else match (user.mapM requested).bind (fun inf => refine inf old) with
      | none => .crash
      | some new => if new = old then .skip else .into (.op o args ⟨some new, ty.elt⟩)

/-- `UpdateReshapePattern`, SimplifyShapeRelatedOps.cpp 396-427. -/
def updateReshape (A : Alg V) (isInput : ℕ → Bool) : Ex V → Outcome V
  | .op (.reshape az) [x, s] ty =>
    if az ≠ 0 then .skip
    else if dimsFromConcat s then
      match (getDims s).mapM (dimInt A isInput) with
      | none => .crash
      | some user => if some 0 ∈ user then .skip else updateOut (.reshape az) [x, s] ty user
    else .skip
  | _ => .skip

/-- `UpdateConstantOfShapePattern`, SimplifyShapeRelatedOps.cpp 430-453. -/
def updateConstantOfShape (A : Alg V) (isInput : ℕ → Bool) : Ex V → Outcome V
  | .op (.constantOfShape c d) [s] ty =>
    if dimsFromConcat s then
      match (getDims s).mapM (dimInt A isInput) with
      | none => .crash
      | some user => updateOut (.constantOfShape c d) [s] ty user
    else .skip
  | _ => .skip

end Verif.Rewrite
