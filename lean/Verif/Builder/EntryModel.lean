import Verif.Builder.ShapeOptModel

/-!
Model of the verification of the inputs in the entry point of a compiled model.

Source: /repo/src/Conversion/KrnlToLLVM/KrnlEntryPoint.cpp 430-621 and /repo/src/Conversion/KrnlToLLVM/KrnlToLLVMHelper.cpp 347-420.

The signature in JSON is read as a list of types.  Printing of messages is left out.
-/

namespace Verif.Builder

/-- A tensor given by the user (`OMTensor`): number of the type and shape. -/
structure InTensor where
  dtype : ℤ
  shape : List ℤ

/-- An input in the signature: number of the element type, `none` for a type `parseType` does not know (string), and dimensions. -/
structure InSig where
  dtype : Option ℤ
  dims : List (Option ℕ)

/-- A comparison emitted into the entry point; the code returns NULL when it fails. -/
inductive Check where
  | count (n : ℕ)
  | dtype (i : ℕ) (t : ℤ)
  | rank (i r : ℕ)
  | nonneg (i d : ℕ)
  | dimEq (i d : ℕ) (v : ℕ)
  | dimLe (i d : ℕ) (v : ℕ)
  | dimGe (i d : ℕ) (v : ℕ)

/-- The data type (467-485). -/
def emitType (i : ℕ) (s : InSig) : List Check :=
  match s.dtype with
  | some t => [.dtype i t]
  | none => []

/-- One dimension (499-540). -/
def emitDim (i : ℕ) (p : Option ℕ × ℕ) : Check :=
  match p.1 with
  | none => .nonneg i p.2
  | some v => .dimEq i p.2 v

/-- One input (459-540). -/
def emitInput (p : InSig × ℕ) : List Check :=
  emitType p.2 p.1 ++ .rank p.2 p.1.dims.length :: p.1.dims.zipIdx.map (emitDim p.2)

/-- `emitVerificationCodeForInputTensors` (430-542). -/
def emitInputs (sig : List InSig) : List Check := .count sig.length :: sig.zipIdx.flatMap emitInput

/-- One bound (585-619). -/
def emitBound (upper : Bool) (i : ℕ) (p : Option ℕ × ℕ) : Option Check :=
  match p.1 with
  | none => none
  | some v => some (if upper then .dimLe i p.2 v else .dimGe i p.2 v)

/-- The bounds of one input (567-619); `none` when the input does not exist or has fewer dimensions. -/
def emitBoundInput (upper : Bool) (sig : List InSig) (dims : List (Option ℕ)) (i : ℕ) : Option (List Check) :=
  (sig[i]?).bind fun s => if dims.length ≤ s.dims.length then some (dims.zipIdx.filterMap (emitBound upper i)) else none

/-- The inputs of one entry (559-566). -/
def boundIds (n : ℕ) (i : ℤ) : List ℕ := if i = -1 then List.range n else [i.toNat]

/-- One entry (558-620). -/
def emitBoundEntry (upper : Bool) (sig : List InSig) (p : ℤ × List (Option ℕ)) : Option (List Check) :=
  ((boundIds sig.length p.1).mapM (emitBoundInput upper sig p.2)).map List.flatten

/-- `emitVerificationCodeForDimensionBoundOfInputTensors` (542-621); the entries are not in the order of their numbers. -/
def emitBounds (upper : Bool) (sig : List InSig) (m : List (ℤ × List (Option ℕ))) : Option (List Check) :=
  (m.mapM (emitBoundEntry upper sig)).map List.flatten

/-- All checks (191-206). -/
def emitChecks (sig : List InSig) (ub lb : List (ℤ × List (Option ℕ))) : Option (List Check) :=
  (emitBounds true sig ub).bind fun u => (emitBounds false sig lb).map fun l => emitInputs sig ++ u ++ l

/-- Read size `d` of tensor `i`; `none` when this is out of bounds. -/
def readSize (ts : List InTensor) (i d : ℕ) : Option ℤ := (ts[i]?).bind fun t => t.shape[d]?

/-- One check at run time; `none` for a read out of bounds. -/
def runCheck (ts : List InTensor) : Check → Option Bool
  | .count n => some (n = ts.length)
  | .dtype i t => (ts[i]?).map fun x => x.dtype = t
  | .rank i r => (ts[i]?).map fun x => x.shape.length = r
  | .nonneg i d => (readSize ts i d).map fun x => ¬ x < 0
  | .dimEq i d v => (readSize ts i d).map fun x => x = (v : ℤ)
  | .dimLe i d v => (readSize ts i d).map fun x => ¬ (v : ℤ) < x
  | .dimGe i d v => (readSize ts i d).map fun x => ¬ (v : ℤ) > x

/-- The checks one after the other; the first that fails ends the call. -/
def runChecks (ts : List InTensor) : List Check → Option Bool
  | [] => some true
  | c :: cs => (runCheck ts c).bind fun b => if b then runChecks ts cs else some false

end Verif.Builder
