import Verif.InputShapes.Spec
/-!
# The shapes of inputs that are made at run time: the code (C129)

Models `parseEntry`, `parseShapeInfo`, `parseInputSpecs` and the check of dimensions in
`omTensorListCreateFromInputSignature`, `/repo/src/Runtime/OMTensorListHelper.cpp`. Numbers are already
read: the splitting of the option at commas, colons and `x` is not modelled. The results are none when
the functions report an error.
-/
namespace Verif.InputShapes

/-- `parseEntry` (OMTensorListHelper.cpp:54-85): the first and the last input. What follows -1 is not
looked at. -/
def parseEntry (n : Nat) (e : Entry) : Option (Int × Int) :=
  if e.low ≠ -1 ∧ (e.low < 0 ∨ e.low ≥ n) then none
  else if e.low ≥ 0 then
    match e.high with
    | none => some (e.low, e.low)
    | some h => if h < e.low ∨ h ≥ n then none else some (e.low, h)
  else some (e.low, e.low)

/-- The loops that set entries (OMTensorListHelper.cpp:115-119): `count` entries, from `k` on. -/
def setFrom (dims : List Int) : Nat → Nat → List (List Int) → List (List Int)
  | _, 0, ov => ov
  | k, c + 1, ov => setFrom dims (k + 1) c (ov.set k dims)

/-- The dimensions of an entry are set for its inputs (OMTensorListHelper.cpp:114-120). -/
def store (n : Nat) (p : Int × Int) (dims : List Int) (ov : List (List Int)) : List (List Int) :=
  if p.1 = -1 then setFrom dims 0 n ov
  else setFrom dims p.1.toNat (p.2 - p.1 + 1).toNat ov

/-- An iteration of `parseShapeInfo` (OMTensorListHelper.cpp:97-120). -/
def shapeStep (n : Nat) (e : Entry) (ov : List (List Int)) : Option (List (List Int)) :=
  match parseEntry n e with
  | none => none
  | some p => if e.dims.any (fun d => decide (d < -1)) then none else some (store n p e.dims ov)

/-- The loop of `parseShapeInfo` (OMTensorListHelper.cpp:96-121). -/
def shapeLoop (n : Nat) : List Entry → List (List Int) → Option (List (List Int))
  | [], ov => some ov
  | e :: es, ov =>
    match shapeStep n e ov with
    | none => none
    | some ov' => shapeLoop n es ov'

/-- `parseShapeInfo` (OMTensorListHelper.cpp:90-123). -/
def parseShapeInfo (n : Nat) (es : List Entry) : Option (List (List Int)) :=
  shapeLoop n es (List.replicate n [])

/-- A dimension of the signature and one of the option (OMTensorListHelper.cpp:378-396). -/
def mergeDim (sigDim overDim : Int) : Option Int :=
  if sigDim ≥ 0 ∧ overDim ≥ 0 then
    if sigDim ≠ overDim then none else some sigDim
  else if sigDim < 0 ∧ overDim ≥ 0 then some overDim
  else if sigDim ≥ 0 then some sigDim
  else none

/-- The loop over the dimensions (OMTensorListHelper.cpp:377-397). -/
def mergeDims : List Int → List Int → Option (List Int)
  | [], _ => some []
  | s, [] => some s
  | s :: ss, o :: os =>
    match mergeDim s o with
    | none => none
    | some v =>
      match mergeDims ss os with
      | none => none
      | some vs => some (v :: vs)

/-- The loop over the inputs (OMTensorListHelper.cpp:373-399). -/
def mergeAll : List (List Int) → List (List Int) → Option (List (List Int))
  | [], _ => some []
  | s, [] => some s
  | s :: ss, o :: os =>
    match mergeDims s o with
    | none => none
    | some v =>
      match mergeAll ss os with
      | none => none
      | some vs => some (v :: vs)

/-- `parseInputSpecs` (OMTensorListHelper.cpp:363-401), on the dimensions. -/
def parseInputSpecs (sig : List (List Int)) (es : List Entry) : Option (List (List Int)) :=
  match parseShapeInfo sig.length es with
  | none => none
  | some ov => mergeAll sig ov

/-- The shapes of the inputs of `omTensorListCreateFromInputSignature`
(OMTensorListHelper.cpp:483-533): none when a dimension is still unknown. -/
def create (sig : List (List Int)) (es : List Entry) : Option (List (List Int)) :=
  match parseInputSpecs sig es with
  | none => none
  | some ts => if ts.any (fun t => t.any fun d => decide (d < 0)) then none else some ts

end Verif.InputShapes
