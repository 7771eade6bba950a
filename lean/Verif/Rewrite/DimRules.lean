import Verif.Rewrite.ConcatRules

/-!
# Canonicalization patterns of Dim, Shape, Size, Where and Expand (model)

Source: /repo/src/Dialect/ONNX/ONNXOps/Canonicalize.td 1009-1032, 1114-1122, 1167-1178, Canonicalize.cpp 168-193,
238-306, 454-560, 1298-1475, 1945-2038, 2111-2209.
-/

namespace Verif.Rewrite

variable {V : Type}

/-! ### Dim, Shape and Size -/

/-- `DimOpToConstantPattern`, Canonicalize.td 1114-1122, OpHelper.cpp 523-531. -/
def dimToConstant (A : Alg V) : Ex V → Outcome V
  | .op (.dim axis) [x] _ =>
    match x.ty.dims with
    | none => .skip
    | some ds =>
      if axis < 0 ∨ (ds.length : ℤ) ≤ axis then .crash
      else match ds.getD axis.toNat none with
        | some n => .into (.const (ofInts A [(n : ℤ)]) i64)
        | none => .skip
  | _ => .skip

/-- `isConstOf`, OpHelper.cpp 608-616. -/
def isConstOf (A : Alg V) (n : ℤ) (e : Ex V) : Bool :=
  match constInts A e with
  | some l => l.all (· = n)
  | none => false

/-- The axis of Dim counted from the front, Canonicalize.cpp 1971-1974, 2017-2020. -/
def normDim (axis : ℤ) (rank : ℕ) : ℤ := if axis < 0 then axis + rank else axis

/-- `DimOpFromReshapeInputPattern`, Canonicalize.cpp 1960-2004. -/
def dimFromReshape (A : Alg V) : Ex V → Outcome V
  | .op (.dim axis) [.op (.reshape az) [_, .op (.concat _) dims _] rty] _ =>
    match rty.dims with
    | none => .skip
    | some ds =>
      if az ≠ 0 then .skip
      else if dims.length ≠ ds.length then .skip
      else if normDim axis ds.length < 0 then .crash
      else match dims[(normDim axis ds.length).toNat]? with
        | none => .crash
        | some d => if isConstOf A (-1) d || isConstOf A 0 d then .skip else .into d
  | _ => .skip

/-- `DimOpFromTransposeInputPattern`, Canonicalize.cpp 2006-2038. Without the attribute `perm` a null
attribute is read. -/
def dimFromTranspose : Ex V → Outcome V
  | .op (.dim axis) [.op (.transpose perm) [x] tty] _ =>
    match tty.dims with
    | none => .skip
    | some ds =>
      match perm with
      | none => .crash
      | some p =>
        if normDim axis ds.length < 0 then .crash
        else match p[(normDim axis ds.length).toNat]? with
          | none => .crash
          | some a => .into (.op (.dim a) [x] ⟨some [some 1], i64⟩)
  | _ => .skip

/-- `normalizeClampedPerSpec`, Shape.cpp 37-45. -/
def normalizeClamped (axis rank : ℤ) : ℤ :=
  let a := if axis < 0 then axis + rank else axis
  let b := if a < 0 then 0 else a
  if b > rank then rank else b

/-- `ShapeToConstantPattern`, Canonicalize.td 1010-1018, Canonicalize.cpp 168-193, Shape.cpp 83-101. -/
def shapeToConstant (A : Alg V) : Ex V → Outcome V
  | .op (.shape start stop) [x] _ =>
    match x.ty.dims with
    | none => .skip
    | some ds =>
      if ds.all Option.isSome then
        if normalizeClamped (stop.getD ds.length) ds.length < normalizeClamped start ds.length then .crash
        else .into (.const (ofInts A (((ds.take (normalizeClamped (stop.getD ds.length) ds.length).toNat).drop
          (normalizeClamped start ds.length).toNat).map fun d => ((d.getD 0 : ℕ) : ℤ))) i64)
      else .skip
  | _ => .skip

/-- `SizeToConstantPattern`, Canonicalize.td 1024-1032, OpHelper.cpp 534-542. -/
def sizeToConstant (A : Alg V) : Ex V → Outcome V
  | .op .size [x] _ =>
    match x.ty.dims with
    | none => .skip
    | some ds =>
      if ds.all Option.isSome then .into (.const (scalar (A.ofInt ((ds.map fun d => d.getD 0).prod : ℕ))) i64)
      else .skip
  | _ => .skip

/-! ### Where -/

/-- `isNegativeSplatConstant`, Canonicalize.cpp 239-256, for integers (the other operand of Equal holds 64-bit
integers). -/
def negativeSplat (A : Alg V) (e : Ex V) : Bool :=
  match constInts A e with
  | some (n :: l) => l.all (· = n) && n < 0
  | _ => false

/-- `areAllDimSizes`, Canonicalize.cpp 282-306, for one value. -/
def isDimSize (A : Alg V) : Ex V → Bool
  | .op (.dim _) _ _ => true
  | .const t d => isScalarTy (.static t.shape d) && (d.kind = .sint || d.kind = .uint || d.kind = .bool) &&
      0 < (t.data.map A.toInt).headD 0
  | _ => false

/-- `AlwaysFalseWherePattern`, Canonicalize.td 1174-1178. -/
def alwaysFalseWhere (A : Alg V) : Ex V → Outcome V
  | .op .where_ [.op (.binary .equal) [.op (.concat _) dims _, neg] _, _, f] _ =>
    if negativeSplat A neg && dims.all (isDimSize A) then .into f else .skip
  | _ => .skip

/-- `isAllNegativeSmallIntegerConstant`, Canonicalize.cpp 261-279: it lets 0 pass. -/
def negativeSmall (A : Alg V) : Ex V → Bool
  | .const t d => t.data.length ≤ 10 && (d.kind ≠ .float && t.data.all fun v => A.toInt v ≤ 0)
  | _ => false

/-- `areDefinedBy<ONNXConcatOp, ONNXConstantOp>` on the operands of Equal, in either order: the Concat and the
constant. -/
def concatAndConst : Ex V → Ex V → Option (Ex V × Ex V)
  | .op (.concat ax) as ty, .const t d => some (.op (.concat ax) as ty, .const t d)
  | .const t d, .op (.concat ax) as ty => some (.op (.concat ax) as ty, .const t d)
  | _, _ => none

/-- One round of the loop over the operands of the Concat, Canonicalize.cpp 2167-2191: the result of Equal at
that position. `none`: the pattern gives up. `some none`: an access out of bounds. -/
def equalAt (A : Alg V) (cs : List ℤ) (i : ℕ) : Ex V → Option (Option Bool)
  | .op (.dim _) _ _ => some (some false)
  | .const t d =>
    if isScalarTy (.static t.shape d) then
      (constI64 A (.const t d)).map fun l => (cs[i]?).map fun b => l.headD 0 = b
    else none
  | _ => none

/-- The loop over the results, Canonicalize.cpp 2197-2206. -/
def whereOps (A : Alg V) (xs : List ℤ) : ℕ → List Bool → List (Ex V) → Option (List (Ex V))
  | i, b :: bs, d :: ds =>
    (if b then (xs[i]?).map fun n => Ex.const (ofInts A [n]) i64 else some d).bind fun e =>
      (whereOps A xs (i + 1) bs ds).map (e :: ·)
  | _, _, _ => some []

/-- `RemoveWhereEqualPattern`, Canonicalize.cpp 2111-2209. The operands examined are those of the Concat that is the
third operand of Where, not those of the Concat compared by Equal. -/
def removeWhereEqual (A : Alg V) : Ex V → Outcome V
  | .op .where_ [.op (.binary .equal) [a, b] _, .const x xd, .op (.concat _) ops yty] ty =>
    match concatAndConst a b with
    | none => .skip
    | some (cat, c) =>
      if cat.ty.dims = none ∨ yty.dims = none then .skip
      else if negativeSmall A c = false then .skip
      else match constI64 A c with
        | none => .skip
        | some cs =>
          match ops.zipIdx.mapM fun p => equalAt A cs p.2 p.1 with
          | none => .skip
          | some bs =>
            match bs.mapM id with
            | none => .crash
            | some bs =>
              match constI64 A (.const x xd) with
              | none => .skip
              | some xs =>
                match whereOps A xs 0 bs ops with
                | none => .crash
                | some l => .into (.op (.concat 0) l ty)
  | _ => .skip

/-! ### Expand -/

/-- The operators with the two patterns below, Canonicalize.cpp 2644, 2651, 2698-2699, 2813-2814, 2866-2867. -/
def isArith (b : Bin) : Bool := b = .add || b = .sub || b = .mul || b = .div

/-- The replacement of `PropagateScalarConstantExpandPattern`, Canonicalize.cpp 497-511. -/
def expandOf (b : Bin) (l r s : Ex V) (ty : STy) : Outcome V :=
  if isScalarConst l && isScalarConst r then
    match s.ty.dims with
    | none => .skip
    | some ds => if ds = [some 0] then .skip
      else .into (.op .expand [.op (.binary b) [l, r] (.unranked l.ty.elt), s] ty)
  else .skip

/-- `PropagateScalarConstantExpandPattern`, Canonicalize.cpp 461-513. -/
def propagateScalarExpand : Ex V → Outcome V
  | .op (.binary b) [l, r] ty =>
    if isArith b then
      match l, r with
      | .op .expand [l', s] _, r => expandOf b l' r s ty
      | l, .op .expand [r', s] _ => expandOf b l r' s ty
      | _, _ => .skip
    else .skip
  | _ => .skip

/-- `PropagateReshapeThroughBinaryOpPattern`, Canonicalize.cpp 515-560. -/
def propagateReshapeBinary : Ex V → Outcome V
  | .op (.binary b) [.op (.reshape az) [x, s] _, r] ty =>
    if isArith b && isScalarTy r.ty then
      .into (.op (.reshape az) [.op (.binary b) [x, r] (.unranked x.ty.elt), s] ty)
    else .skip
  | _ => .skip

/-- The loop that builds the new shape, Canonicalize.cpp 1342-1350: `i` is the position, `n` the new rank and `ds` the old
extents that are left. `none`: an old extent past the end is read. The loop ends before the fuel does. -/
def unsqueezeLoop (A : Alg V) (axes : List ℤ) (n : ℕ) : ℕ → ℕ → List (Ex V) → Option (List (Ex V))
  | 0, _, _ => none
  | fuel + 1, i, ds =>
    if n ≤ i ∧ ds.isEmpty then some []
    else if (i : ℤ) ∈ axes then (unsqueezeLoop A axes n fuel (i + 1) ds).map (.const (ofInts A [1]) i64 :: ·)
    else match ds with
      | [] => none
      | d :: ds => (unsqueezeLoop A axes n fuel (i + 1) ds).map (d :: ·)

/-- `ReplaceUnsqueezeOfExpandRewritePattern`, Canonicalize.cpp 1300-1358: the rank added to a negative axis is the
rank of the operand. -/
def unsqueezeOfExpand (A : Alg V) : Ex V → Outcome V
  | .op .unsqueeze [.op .expand [x, s] _, axes] ty =>
    match constInts A axes with
    | none => .skip
    | some ax =>
      if isScalarTy x.ty && areDims s then
        match unsqueezeLoop A (ax.map fun a => if a < 0 then a + (getDims s).length else a)
            ((getDims s).length + ax.length) ((getDims s).length + ax.length + 1) 0 (getDims s) with
        | none => .crash
        | some ds => .into (.op .expand [x, .op (.concat 0) ds ⟨some [some ((getDims s).length + ax.length)], i64⟩] ty)
      else .skip
  | _ => .skip

/-- The axes of Slice, Canonicalize.cpp 1413-1428. `none`: the pattern gives up. -/
def sliceAxesI64 (A : Alg V) (axes starts : Ex V) (outRank : ℕ) : Option (List ℤ) :=
  match starts.ty.dims with
  | some (some n :: _) =>
    match axes with
    | .none => some ((List.range n).map fun (k : ℕ) => (k : ℤ))
    | e => (constInts A e).map fun l => l.map fun v => if 0 ≤ v then v else v + outRank
  | _ => none

/-- The number that stands for a dynamic extent, `ShapedType::kDynamic`. -/
def kDynamic : ℤ := -9223372036854775808

/-- The loop that builds the new shape, Canonicalize.cpp 1451-1462. `none`: an access out of bounds. -/
def sliceDims (A : Alg V) (ax : List ℤ) (out : List (Option ℕ)) (old : List (Ex V)) : Option (List (Ex V)) :=
  out.zipIdx.mapM fun p =>
    if (p.2 : ℤ) ∈ ax then
      some (Ex.const (ofInts A [match p.1 with | some n => (n : ℤ) | none => kDynamic]) i64)
    else old[p.2]?

/-- `ReplaceSliceOfExpandRewritePattern`, Canonicalize.cpp 1376-1472: the extents of the sliced axes of the operand
must be recorded, those of the result are not checked. -/
def sliceOfExpand (A : Alg V) : Ex V → Outcome V
  | .op .slice [.op .expand [x, s] ety, starts, _, axes, _] ty =>
    match ety.dims, ty.dims with
    | some ds, some out =>
      if isScalarTy x.ty && areDims s then
        match sliceAxesI64 A axes starts out.length with
        | none => .skip
        | some ax =>
          if ax.any fun a => a < 0 ∨ (ds.length : ℤ) ≤ a then .crash
          else if ax.any fun a => ds.getD a.toNat none = none then .skip
          else match sliceDims A ax out (getDims s) with
            | none => .crash
            | some nd => .into (.op .expand [x, .op (.concat 0) nd ⟨some [some out.length], i64⟩] ty)
      else .skip
    | _, _ => .skip
  | _ => .skip

end Verif.Rewrite
