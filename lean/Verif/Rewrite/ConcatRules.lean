import Verif.Rewrite.ReshapeRules

/-!
# Canonicalization patterns of Identity, Cast, Tile, Split, Concat and Slice (model)

Source: /repo/src/Dialect/ONNX/ONNXOps/Canonicalize.td 466-525, Canonicalize.cpp 122-134, 1810-1937,
2448-2500, 2553-2618.
-/

namespace Verif.Rewrite

variable {V : Type}

/-- `IdentityEliminationPattern`, Canonicalize.td 467-468. -/
def identityElim : Ex V → Outcome V
  | .op .identity [v] _ => .into v
  | _ => .skip

/-- `CastEliminationPattern`, Canonicalize.td 485-488. -/
def castElim : Ex V → Outcome V
  | .op (.cast _ d) [v] _ => if v.ty.elt = d then .into v else .skip
  | _ => .skip

/-- The result type of one of the new casts of `castVariadicInput`, Canonicalize.cpp 122-134: the element
type of the input until `inferShapes`, which does nothing for an input without rank, sets it to `d`. The
shape that `inferShapes` records is left open. -/
def castInputTy (d : DT) (v : Ex V) : STy :=
  .unranked (if v.ty.dims.isSome then d else v.ty.elt)

/-- `SwapCastConcatPattern`, Canonicalize.td 499-502. -/
def swapCastConcat : Ex V → Outcome V
  | .op (.cast s d) [.op (.concat axis) inputs _] ty =>
    .into (.op (.concat axis) (inputs.map fun v => .op (.cast s d) [v] (castInputTy d v)) ty)
  | _ => .skip

/-- `SwapCastSlicePattern`, Canonicalize.td 506-509. -/
def swapCastSlice : Ex V → Outcome V
  | .op (.cast s d) [.op .slice (x :: rest) _] ty =>
    .into (.op .slice (.op (.cast s d) [x] (.unranked d) :: rest) ty)
  | _ => .skip

/-- `RemoveIdentityTilePattern`, Canonicalize.td 523-529. -/
def removeIdentityTile (A : Alg V) : Ex V → Outcome V
  | .op .tile [v, r] ty =>
    match constInts A r with
    | some l => if l.all (· = 1) ∧ v.ty = ty then .into v else .skip
    | none => .skip
  | _ => .skip

/-- `PullOpThroughSplitPattern` for Relu and LeakyRelu, Canonicalize.cpp 2556-2618, registered at
2896-2904: seen from one of the users of the Split. -/
def pullThroughSplit : Ex V → Outcome V
  | .op (.unary n a) [.op (.split axis i) [x, s] t] ty =>
    if (n = "Relu" ∨ n = "LeakyRelu") ∧ t = ty then
      .into (.op (.split axis i) [.op (.unary n a) [x] x.ty, s] t)
    else .skip
  | _ => .skip

/-- `isMergeableConcat`, Canonicalize.cpp 1817-1822. Whether a value has one use is not part of a fragment:
it is an input of the model. -/
def mergeable (oneUse : Ex V → Bool) (axis : ℤ) (e : Ex V) : Option (List (Ex V)) :=
  match e with
  | .op (.concat a) args ty =>
    if a = axis ∧ oneUse (.op (.concat a) args ty) then some args else none
  | _ => none

/-- `RecomposeConcatPattern`, Canonicalize.cpp 1824-1865. -/
def recomposeConcat (oneUse : Ex V → Bool) : Ex V → Outcome V
  | .op (.concat axis) inputs ty =>
    match inputs with
    | [v] => .into v
    | _ =>
      if inputs.any fun v => (mergeable oneUse axis v).isSome then
        .into (.op (.concat axis) (inputs.flatMap fun v => (mergeable oneUse axis v).getD [v]) ty)
      else .skip
  | _ => .skip

/-- The loop `eraseOperand(idx)` over the recorded positions, Canonicalize.cpp 1895-1898, 1929-1932: the
positions are those in the list before anything was erased. A position past the end: `none`. -/
def eraseOps {α : Type} : List ℕ → List α → Option (List α)
  | [], l => some l
  | i :: is, l => if i < l.length then eraseOps is (l.eraseIdx i) else none

/-- Positions of the operands with a property. -/
def positions {α : Type} (p : α → Bool) (l : List α) : List ℕ :=
  (l.zipIdx.filter fun x => p x.1).map Prod.snd

/-- The extent along the axis is recorded as 0, Canonicalize.cpp 1879-1889. -/
def zeroAt (axis : ℤ) (e : Ex V) : Bool :=
  match e.ty.dims with
  | some ds => ds.length ≠ 0 ∧ ds[axis.toNat]? = some (some 0)
  | none => false

/-- Reading `shape[axis]` is out of bounds. -/
def badAxis (axis : ℤ) (e : Ex V) : Bool :=
  match e.ty.dims with
  | some ds => ds.length ≠ 0 ∧ (axis < 0 ∨ (ds.length : ℤ) ≤ axis)
  | none => false

/-- `RemoveDimZeroInputInConcatPattern`, Canonicalize.cpp 1868-1904. -/
def removeDimZero : Ex V → Outcome V
  | .op (.concat axis) inputs ty =>
    if inputs.any (badAxis axis) then .crash
    else if (positions (zeroAt axis) inputs).isEmpty then .skip
    else match eraseOps (positions (zeroAt axis) inputs) inputs with
      | some l => .into (.op (.concat axis) l ty)
      | none => .crash
  | _ => .skip

/-- The recorded shape is `[0]`, Canonicalize.cpp 1915-1923. -/
def emptyVec (e : Ex V) : Bool := e.ty.dims = some [some 0]

/-- `RemoveEmptyInputInConcatPattern`, Canonicalize.cpp 1906-1937. -/
def removeEmpty : Ex V → Outcome V
  | .op (.concat axis) inputs ty =>
    if (positions emptyVec inputs).isEmpty then .skip
    else match eraseOps (positions emptyVec inputs) inputs with
      | some [v] => .into v
      | some l => .into (.op (.concat axis) l ty)
      | none => .crash
  | _ => .skip

/-- `isScalarTensor`, OpHelper.cpp 868-872. -/
def isScalarTy (ty : STy) : Bool := ty.dims = some [] || ty.dims = some [some 1]

/-- What `computeShape` of Slice finds for the start along the only axis of data of extent `n`, Slice.cpp 29-137.
`none`: an error is reported. Simplified: with the axis given twice (which ONNX does not allow) the first
start is taken instead of the last one. -/
def sliceStart (n : ℕ) (starts : List ℤ) (axes steps : Option (List ℤ)) : Option ℤ :=
  match axes with
  | some [] => some 0
  | some (a :: _) =>
    if (if a < 0 then a + 1 else a) = 0 then first starts steps else none
  | none => first starts steps
where
  first (starts : List ℤ) (steps : Option (List ℤ)) : Option ℤ :=
    match starts, steps with
    | s :: _, some (st :: _) =>
      if st = 0 then none
      else some (if st < 0 then max 0 (min (if s < 0 then s + n else s) (n - 1))
        else max 0 (min (if s < 0 then s + n else s) n))
    | _, _ => none

/-- Optional operand of Slice: absent, or constant; anything else makes `computeShape` fail or leaves a value
that is not a literal. -/
def optConst (A : Alg V) : Ex V → Option (Option (List ℤ))
  | .none => some none
  | e => (constInts A e).map some

/-- `SliceConcatNoOpPattern`, Canonicalize.cpp 2448-2500. -/
def sliceConcatNoOp (A : Alg V) : Ex V → Outcome V
  | .op .slice [.op (.concat _) inputs cty, starts, _, axes, steps] ty =>
    match cty.dims with
    | none => .skip
    | some ds =>
      if 1 < ds.length then .skip
      else if isScalarTy ty = false then .skip
      else match constInts A starts with
        | none => .skip
        | some s =>
          match ds with
          | [some n] =>
            match optConst A axes, optConst A steps with
            | some ax, some st =>
              match sliceStart n s ax st with
              | none => .skip
              | some k =>
                if inputs.length ≤ k.toNat then .crash
                else if (inputs.take (k.toNat + 1)).all fun v => isScalarTy v.ty then
                  match inputs[k.toNat]? with
                  | some v => .into v
                  | none => .crash
                else .skip
            | _, _ => .crash
          | _ => .crash
  | _ => .skip

end Verif.Rewrite
