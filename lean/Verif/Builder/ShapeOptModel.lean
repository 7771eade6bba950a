import Mathlib.Data.List.Basic
import Mathlib.Data.Int.Order.Basic

/-!
Model of the options that change the types of the inputs of a model, and of the names of dimensions.

Sources: /repo/src/Support/TypeUtilities.cpp 108-179, /repo/src/Builder/ModelInputShaper.cpp,
/repo/src/Builder/FrontendDialectTransformer.cpp, /repo/src/Dialect/ONNX/ONNXDimAnalysis.cpp 1007-1030.

Strings are lists of characters.  A failing assertion and an exception of `std::stoi` are `none`.  A dimension is `none` when it is
dynamic (`ShapedType::kDynamic`).
-/

namespace Verif.Builder

/-- The rest of the calls of `std::getline(stream, token, sep)`, with the part of the current token read so far. -/
def getlinesAux (sep : Char) : List Char → List Char → List (List Char)
  | [], cur => if cur = [] then [] else [cur]
  | c :: s, cur => if c = sep then cur :: getlinesAux sep s [] else getlinesAux sep s (cur ++ [c])

/-- The tokens of a loop `while (std::getline(stream, token, sep))`: nothing follows a separator at the end. -/
def getlines (sep : Char) (s : List Char) : List (List Char) := getlinesAux sep s []

/-- `s.substr(0, s.find(c))`. -/
def before (c : Char) (s : List Char) : List Char := s.takeWhile (· ≠ c)

/-- `s.substr(s.find(c) + 1)`; when `c` does not occur, `npos + 1` is zero. -/
def after (c : Char) (s : List Char) : List Char := if c ∈ s then (s.dropWhile (· ≠ c)).tail else s

/-- `isspace`. -/
def isSpace (c : Char) : Bool := c.toNat = 32 ∨ (9 ≤ c.toNat ∧ c.toNat ≤ 13)

/-- The number a sequence of digits stands for. -/
def digitsVal (ds : List Char) : ℕ := ds.foldl (fun a c => 10 * a + (c.toNat - 48)) 0

/-- `std::stoi`: leading white space, a sign, digits; what follows is ignored; exceptions when there is no digit or when `int` is too
small. -/
def stoi (s : List Char) : Option ℤ :=
  let t := s.dropWhile isSpace
  let u := if t.head? = some '-' ∨ t.head? = some '+' then t.tail else t
  let ds := u.takeWhile Char.isDigit
  let v : ℤ := if t.head? = some '-' then -(digitsVal ds : ℤ) else digitsVal ds
  if ds = [] then none else if -2147483648 ≤ v ∧ v ≤ 2147483647 then some v else none

/-- One dimension (TypeUtilities.cpp 137-143). -/
def parseDim (s : List Char) : Option (Option ℕ) :=
  (stoi s).bind fun d => if d = -1 then some none else if 0 < d then some (some d.toNat) else none

/-- The numbers from `a` to `b` (164-165). -/
def idRange (a b : ℤ) : List ℤ := (List.range (b + 1 - a).toNat).map fun (k : ℕ) => a + (k : ℤ)

/-- The inputs an entry is for (147-171). -/
def parseIds (s : List Char) : Option (List ℤ) :=
  if 1 < s.count '-' then none
  else if after '-' s = [] then none
  else if before '-' s ≠ [] then
    (stoi (before '-' s)).bind fun a => (stoi (after '-' s)).bind fun b => if 0 ≤ a ∧ 0 ≤ b then some (idRange a b) else none
  else (stoi s).bind fun i => if 0 ≤ i ∨ i = -1 then some [i] else none

/-- One entry (127-171). -/
def parseEntry (s : List Char) : Option (List ℤ × List (Option ℕ)) :=
  ((getlines 'x' (after ':' s)).mapM parseDim).bind fun dims => (parseIds (before ':' s)).map fun ids => (ids, dims)

/-- `std::map::find`. -/
def lookupKey {β : Type} (m : List (ℤ × β)) (i : ℤ) : Option β := (m.find? fun p => p.1 = i).map (·.2)

/-- `std::map::insert`, `emplace`: an existing entry stays. -/
def insertNew {β : Type} (m : List (ℤ × β)) (i : ℤ) (b : β) : List (ℤ × β) :=
  if (lookupKey m i).isSome then m else m ++ [(i, b)]

/-- `operator[]` with assignment: an existing entry is replaced. -/
def assignKey {β : Type} (m : List (ℤ × β)) (i : ℤ) (b : β) : List (ℤ × β) := (i, b) :: m

/-- `parseShapeInformation` (108-179). -/
def parseShapeInformation (s : List Char) : Option (List (ℤ × List (Option ℕ))) :=
  (getlines ',' s).foldlM (fun m e => (parseEntry e).map fun p => p.1.foldl (fun m i => insertNew m i p.2) m) []

/-- One entry of `IMPORTER_FORCE_DYNAMIC` (ModelInputShaper.cpp 33-48). -/
def parseForced (s : List Char) : Option (ℤ × List ℤ) :=
  ((getlines ',' (after ':' s)).mapM stoi).bind fun dims =>
    (stoi (before ':' s)).map fun i => (i, if dims = [] then [-1] else dims)

/-- The constructor of `ModelInputShaper` for a value of the variable (27-54). -/
def parseForceDynamic (s : List Char) : Option (List (ℤ × List ℤ)) :=
  ((getlines '|' s).foldlM (fun m e => (parseForced e).map fun p => insertNew m p.1 p.2) []).map fun m => if m = [] then [(-1, [-1])] else m

/-- `forceShape` (62-75). -/
def forceShape (forced : List ℤ) (dims : List (Option ℕ)) : List (Option ℕ) :=
  dims.zipIdx.map fun p => if (-1 : ℤ) ∈ forced ∨ (p.2 : ℤ) ∈ forced then none else p.1

/-- The custom shape (108-116). -/
def customShape (user dims : List (Option ℕ)) : List (Option ℕ) :=
  dims.zipIdx.map fun p => (user[p.2]?).getD p.1

/-- The shape of `--shapeInformation` (92-117). -/
def reshapeInfo (info : List (ℤ × List (Option ℕ))) (input : ℕ) (dims : List (Option ℕ)) : List (Option ℕ) :=
  match lookupKey info input with
  | some user => customShape user dims
  | none =>
    match lookupKey info (-1) with
    | some user => customShape user dims
    | none => dims

/-- `ModelInputShaper::reshape` for a ranked tensor (78-122); `forced` is `none` when the variable is not set. -/
def reshape (forced : Option (List (ℤ × List ℤ))) (info : List (ℤ × List (Option ℕ))) (input : ℕ) (dims : List (Option ℕ)) :
    List (Option ℕ) :=
  match forced with
  | none => reshapeInfo info input dims
  | some m =>
    match lookupKey m (-1) with
    | some f => forceShape f dims
    | none =>
      match lookupKey m input with
      | some f => forceShape f dims
      | none => reshapeInfo info input dims

/-- `onnx::TensorShapeProto::Dimension`. -/
inductive ProtoDim where
  | value (v : ℤ)
  | param (name : List Char)
  | unknown
  deriving DecidableEq

/-- Conversion of `int64_t` to `int`. -/
def toInt32 (v : ℤ) : ℤ := (v + 2147483648) % 4294967296 - 2147483648

/-- The dimension of the type (FrontendDialectTransformer.cpp 308-331); `none` when the assertion fails. -/
def importDim : ProtoDim → Option (Option ℕ)
  | .value v =>
    if v = 0 then some none
    else if toInt32 v = 0 then none
    else if 0 < toInt32 v then some (some (toInt32 v).toNat) else some none
  | .param _ => some none
  | .unknown => some none

/-- One dimension in the string of names (320-327). -/
def addDimParam (acc : List Char) (p : ProtoDim × ℕ) : List Char :=
  match p.1 with
  | .param name => (if acc = [] then acc else acc ++ [',']) ++ Nat.toDigits 10 p.2 ++ ':' :: name
  | _ => acc

/-- The string `dim_params` of `ImportTensorType` (295-335). -/
def dimParams (dims : List ProtoDim) : List Char := dims.zipIdx.foldl addDimParam []

/-- `StringRef::split(list, sep)`: all parts, also empty ones. -/
def splitAll (sep : Char) : List Char → List Char → List (List Char)
  | [], cur => [cur]
  | c :: s, cur => if c = sep then cur :: splitAll sep s [] else splitAll sep s (cur ++ [c])

/-- `StringRef::split(sep).second`: empty when there is no separator. -/
def splitSecond (sep : Char) (s : List Char) : List Char := (s.dropWhile (· ≠ sep)).tail

/-- One part of the names of the dimensions of an argument (ONNXDimAnalysis.cpp 1025-1028). -/
def readDimParam (m : List (ℤ × List Char)) (s : List Char) : Option (List (ℤ × List Char)) :=
  (stoi (before ':' s)).map fun i => assignKey m i (splitSecond ':' s)

/-- `DimAnalysis::getONNXDimParams` (1007-1030). -/
def getONNXDimParams (s : List Char) : Option (List (ℤ × List Char)) :=
  if s = [] then some [] else (splitAll ',' s []).foldlM readDimParam []

/-- One entry of `--dimParams` (FrontendDialectTransformer.cpp 462-472). -/
def parseDimParamsEntry (m : List (ℤ × List Char) × List Char) (s : List Char) : Option (List (ℤ × List Char) × List Char) :=
  if s.head? = some ':' then none
  else
    (stoi (before ':' s)).map fun idx =>
      let names := (after ':' s).map fun c => if c = '=' then ':' else c
      if idx < 0 then (m.1, names) else (assignKey m.1 idx names, m.2)

/-- `getInputDimParamsMapFromOption` (456-475): the names for inputs, and for all inputs. -/
def parseDimParams (s : List Char) : Option (List (ℤ × List Char) × List Char) := (getlines '|' s).foldlM parseDimParamsEntry ([], [])

/-- The names for one input (532-544). -/
def inputDimParams (opts : List (ℤ × List Char) × List Char) (input : ℕ) (dims : List ProtoDim) : List Char :=
  match lookupKey opts.1 input with
  | some s => s
  | none => if opts.2 ≠ [] then opts.2 else dimParams dims

/-- The list `inputDimParams` (515-550). -/
def inputDimParamsList (opts : List (ℤ × List Char) × List Char) (inputs : List (List ProtoDim)) : List (List Char) :=
  inputs.zipIdx.map fun p => inputDimParams opts p.2 p.1

/-- The list `outputDimParams` (588-593). -/
def outputDimParamsList (outputs : List (List ProtoDim)) : List (List Char) := (outputs.map dimParams).filter (· ≠ [])

/-- `moveFuncAttrsToArgAttrs` (1486-1527): the attribute of argument or result `i`; empty strings are not attached. -/
def attached (l : List (List Char)) (i : ℕ) : Option (List Char) :=
  match l[i]? with
  | some s => if s = [] then none else some s
  | none => none

end Verif.Builder
