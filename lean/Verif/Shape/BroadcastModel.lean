import Verif.IndexExpr.Model

/-!
# Model of broadcasting in shape inference and lowering

Source: `/repo/src/Dialect/ONNX/ONNXOps/ShapeHelper.cpp`.

Dimensions are index expressions; `κ` are the quantities known at compile time.
-/

namespace Verif.Shape
open Verif.IndexExpr

/-- `isLiteral`/`getLiteral` of a dimension: dimensions are read with `getShapeAsDim`, which makes a
literal of every known extent. -/
def litOf (κ : Nat → Option Int) : Expr → Option Int
  | .lit n => some n
  | .sym x => κ x
  | _ => none

/-- The rank of the output, ShapeHelper.cpp 372-378. The additional operand of Expand is one more
operand here. -/
def outRank (ops : List (List Expr)) : Nat := (ops.map List.length).foldl max 0

/-- Ones in front up to the rank of the output, 381-404. -/
def padTo (r : Nat) (dims : List Expr) : List Expr := List.replicate (r - dims.length) (.lit 1) ++ dims

/-- The body of the loop 423-462, for one operand and one dimension; `none` is the reported error. -/
def bcastDim (κ : Nat → Option Int) (uni : Bool) (cur next : Expr) : Option Expr :=
  if litOf κ cur = some 1 then some (if uni then cur else next)
  else match litOf κ cur with
    | some c => match litOf κ next with
      | some n => if n ≠ 1 ∧ c ≠ n then none else some cur
      | none => some cur
    | none =>
      if litOf κ next = some 1 then some cur
      else if (litOf κ next).isSome then some next
      else some (if uni then cur else .max cur [next])

/-- The loop over the dimensions `j`, 423. -/
def bcastDims (κ : Nat → Option Int) (uni : Bool) : List Expr → List Expr → Option (List Expr)
  | a :: as, b :: bs =>
    (bcastDim κ uni a b).bind fun c => (bcastDims κ uni as bs).map fun cs => c :: cs
  | _, _ => some []

/-- The loop over the operands `i`, 422. -/
def bcastOps (κ : Nat → Option Int) (uni : Bool) : List Expr → List (List Expr) → Option (List Expr)
  | cur, [] => some cur
  | cur, d :: ds => (bcastDims κ uni cur d).bind fun c => bcastOps κ uni c ds

/-- `inputsDims`. -/
def inputsDims (ops : List (List Expr)) : List (List Expr) := ops.map (padTo (outRank ops))

/-- `ONNXBroadcastOpShapeHelper::customComputeShape`, 359-466. -/
def bcastShape (κ : Nat → Option Int) (uni : Bool) (ops : List (List Expr)) : Option (List Expr) :=
  match inputsDims ops with
  | [] => none
  | d :: ds => bcastOps κ uni d ds

/-- The static part of `hasNoBroadcast` for one dimension, 487-505: all literals, not mixing ones with
others. -/
def noBcastCol (κ : Nat → Option Int) (col : List (Option Expr)) : Bool :=
  let lits := col.map fun e => e.bind (litOf κ)
  lits.all Option.isSome && !(lits.any (· == some 1) && lits.any (· != some 1))

/-- One and something else among the extents before the first unknown one, which ends the analysis at
once, 501-504. -/
def mixedCol (κ : Nat → Option Int) (col : List (Option Expr)) : Bool :=
  let lits := (col.map fun e => e.bind (litOf κ)).takeWhile Option.isSome
  lits.any (· == some 1) && lits.any (· != some 1)

/-- The loop 484-505: `some b` if the answer is found, `none` if dimension analysis has to be asked. -/
def noBcastStatic (κ : Nat → Option Int) : List (List (Option Expr)) → Option Bool
  | [] => some true
  | col :: cols =>
    if mixedCol κ col then some false
    else if noBcastCol κ col then noBcastStatic κ cols
    else none

/-- `hasNoBroadcast`, 481-529. `same i` is the answer of dimension analysis to whether operands 0 and
`i` have the same shape; `false` if there is no dimension analysis. -/
def hasNoBroadcast (κ : Nat → Option Int) (ops : List (List Expr)) (same : Nat → Bool) : Bool :=
  let r := outRank ops
  match noBcastStatic κ ((List.range r).map fun j => (inputsDims ops).map fun d => d[j]?) with
  | some b => b
  | none => (List.range (ops.length - 1)).all fun i => same (i + 1)

/-- `getAccessExprs` for one dimension, 751-815: `others` are the extents of the other operands at
this position, `flatLast` means inner dimensions were flattened and this is the last one. -/
def accessDim (κ : Nat → Option Int) (noBroadcasting flatLast : Bool) (operandDim : Expr)
    (others : List Expr) (loop : Expr) : Expr :=
  let noMatterWhat := !noBroadcasting && others.all fun d => decide (litOf κ d = some 1)
  if litOf κ operandDim = some 1 then .lit 0
  else if noBroadcasting || noMatterWhat then loop
  else if flatLast then loop
  else .select (.cmp .gt operandDim (.lit 1)) loop (.lit 0)

/-- `getAccessExprs`, 722-819, for operand `i` of rank `rank`. `loop` are the loop indices; `none` is
an out-of-range access of a vector. -/
def accessExprs (κ : Nat → Option Int) (uni noBcast flattened : Bool) (ops : List (List Expr)) (i : Nat)
    (rank : Nat) (loop : List Expr) : Option (List Expr) :=
  (List.range rank).mapM fun r =>
    let dimIndex := loop.length - rank + r
    ((inputsDims ops)[i]?.bind fun d => d[dimIndex]?).bind fun operandDim =>
      (((inputsDims ops).eraseIdx i).mapM fun d => d[dimIndex]?).bind fun others =>
        loop[dimIndex]?.map fun l =>
          accessDim κ (noBcast || (uni && i == 0)) (flattened && r + 1 == rank) operandDim others l

/-- The vectors of `hasManageableBroadcastForInnerDims` and its results so far. -/
structure Collapse where
  isScalar : List Bool
  hasBroadcast : List Bool
  loops : Nat
  literalSize : Int
  dynamicSize : Expr

/-- 600-655: are all extents different from 1 at this position the same as the last such? `sameDim i j`
is the answer of dimension analysis. -/
def compatible (κ : Nat → Option Int) (sameDim : Nat → Nat → Bool) (col : List Expr) (ns : Nat) : Bool :=
  (List.range col.length).all fun d =>
    match col[d]?, col[ns]? with
    | some e, some f =>
      decide (litOf κ e = some 1) || d == ns ||
        match litOf κ f, litOf κ e with
        | some m, some n => decide (m = n)
        | _, _ => sameDim ns d
    | _, _ => true

/-- The last position whose extent is not literally 1, `nonScalarID`, 572-588. -/
def lastNonOne (isOne : List Bool) : Option Nat :=
  (List.range isOne.length).reverse.find? fun d => isOne[d]? == some false

/-- One iteration of the loop over the dimensions from the last to the first, 560-712. `none` means
the function returns with what it has. -/
def collapseStep (κ : Nat → Option Int) (sameDim : Nat → Nat → Bool) (s : Collapse) (col : List Expr) :
    Option Collapse :=
  let isOne := col.map fun e => decide (litOf κ e = some 1)
  let isScalar := List.zipWith (· && ·) s.isScalar isOne
  if (List.zipWith (fun sc hb => !sc && hb) isScalar s.hasBroadcast).any id then none
  else match lastNonOne isOne with
    | none => some { s with isScalar := isScalar, loops := s.loops + 1 }
    | some ns =>
      if !compatible κ sameDim col ns then none
      else if (List.zipWith (fun sc o => !sc && o) isScalar isOne).any id then none
      else
        let e := col[ns]?.getD (.lit 1)
        let s' := { s with
          isScalar := isScalar
          hasBroadcast := List.zipWith (· || ·) s.hasBroadcast isScalar
          loops := s.loops + 1 }
        match litOf κ e with
        | some n => some { s' with literalSize := s.literalSize * n }
        | none => some { s' with dynamicSize := .mul s.dynamicSize e }

/-- The loop; `sameDim` is given per position. -/
def collapseLoop (κ : Nat → Option Int) (sameDim : Nat → Nat → Nat → Bool) :
    Collapse → List (List Expr) → Collapse
  | s, [] => s
  | s, col :: cols =>
    match collapseStep κ (sameDim s.loops) s col with
    | none => s
    | some s' => collapseLoop κ sameDim s' cols

/-- `hasManageableBroadcastForInnerDims`, 535-720: the number of inner loops to collapse (zero if it
returns false) and the two factors of their size. `sameDim k i j` tells what dimension analysis knows
about the dimensions `k` before the last of operands `i` and `j`. -/
def manageable (κ : Nat → Option Int) (sameDim : Nat → Nat → Nat → Bool) (ops : List (List Expr)) :
    Collapse :=
  let dims := inputsDims ops
  collapseLoop κ sameDim
    { isScalar := dims.map fun _ => true, hasBroadcast := dims.map fun _ => false, loops := 0,
      literalSize := 1, dynamicSize := .lit 1 }
    ((List.range (outRank ops)).map fun k =>
      dims.map fun d => d.reverse.getD k (.lit 1))

end Verif.Shape
