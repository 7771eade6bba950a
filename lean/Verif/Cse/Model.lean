import Verif.Cse.Spec
/-!
# Common subexpressions and node names: the code (C127)

Models `/repo/src/Transform/ONNXCSEWithNodeName.cpp`. The elimination itself is MLIR's pass; `cse`
models what it does to the operations of one block. Operations with regions, or several results, are
left out, and so are node names that are not strings. Removal of dead operations is left out.
-/
namespace Verif.Cse

/-- `nodeNameMap` after the loop of `saveAndRemoveNodeNames` (ONNXCSEWithNodeName.cpp:82-100); `needs`
is `needsNodeName` (ONNXCSEWithNodeName.cpp:70-80), which looks at the kind of the operation. -/
def savedNames (needs : Nat → Bool) : List Op → List (Nat × Nat)
  | [] => []
  | op :: ops =>
    match needs op.kind, op.nodeName with
    | true, some n => (op.id, n) :: savedNames needs ops
    | _, _ => savedNames needs ops

/-- The operations after `saveAndRemoveNodeNames`. -/
def removeName (needs : Nat → Bool) (op : Op) : Op :=
  if needs op.kind then { op with nodeName := none } else op

/-- Two operations are the same for MLIR: kinds, all attributes and operands. -/
def same (a b : Op) : Bool :=
  decide (a.kind = b.kind) && decide (a.attrs = b.attrs) && decide (a.nodeName = b.nodeName) &&
    decide (a.operands = b.operands)

/-- The operands of an operation after replacements. -/
def replaceOperands (σ : Nat → Nat) (op : Op) : Op := { op with operands := op.operands.map σ }

/-- MLIR's elimination in one block (`createCSEPass`, called at ONNXCSEWithNodeName.cpp:102-116):
`σ` are the replacements so far and `known` the operations that were kept. -/
def cse (pureOp : Nat → Bool) : (Nat → Nat) → List Op → List Op → List Op
  | _, _, [] => []
  | σ, known, op :: ops =>
    let op' := replaceOperands σ op
    if pureOp op'.kind then
      match known.find? (same op') with
      | some k => cse pureOp (fun v => if v = op.id then k.id else σ v) known ops
      | none => op' :: cse pureOp σ (op' :: known) ops
    else op' :: cse pureOp σ known ops

/-- A look into `nodeNameMap`. -/
def lookup (m : List (Nat × Nat)) (i : Nat) : Option Nat :=
  match m with
  | [] => none
  | (j, n) :: rest => if j = i then some n else lookup rest i

/-- `restoreNodeNames` (ONNXCSEWithNodeName.cpp:118-148). -/
def restoreName (needs : Nat → Bool) (m : List (Nat × Nat)) (op : Op) : Op :=
  if needs op.kind then
    match lookup m op.id with
    | some n => { op with nodeName := some n }
    | none => op
  else op

/-- `runOnOperation` (ONNXCSEWithNodeName.cpp:150-167). -/
def runPass (needs pureOp : Nat → Bool) (ops : List Op) : List Op :=
  (cse pureOp id [] (ops.map (removeName needs))).map
    (restoreName needs (savedNames needs ops))

end Verif.Cse
