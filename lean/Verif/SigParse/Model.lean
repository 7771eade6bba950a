import Verif.SigParse.Spec
/-!
# Reading signatures at run time: the code (C128)

Models `/repo/src/Runtime/OMTensorListHelper.cpp:206-355`. Loops have fuel, which is more than the
length of the text; every iteration takes at least one character.
-/
namespace Verif.SigParse

open Verif.Signature (Str lit)

def isWs (c : Char) : Bool := c == ' ' || c == '\t' || c == '\n' || c == '\r'

/-- `skipWS` (OMTensorListHelper.cpp:206-209). -/
def skipWS (s : Str) : Str := s.dropWhile isWs

/-- `consume` (OMTensorListHelper.cpp:211-217). -/
def consume (s : Str) (c : Char) : Option Str :=
  match skipWS s with
  | [] => none
  | x :: r => if x = c then some r else none

/-- `parseJsonStr` (OMTensorListHelper.cpp:219-230): the string, and the text after it. -/
def parseStr (s : Str) : Option (Str × Str) :=
  match skipWS s with
  | [] => none
  | x :: r =>
    if x = '"' then
      if '"' ∈ r then some (r.takeWhile (fun c => c != '"'), (r.dropWhile (fun c => c != '"')).tail)
      else none
    else none

/-- The text after `parseJsonStr` when its result is not looked at. -/
def afterStr (s : Str) : Str :=
  match parseStr s with
  | some p => p.2
  | none => if (skipWS s).head? = some '"' then (skipWS s).tail else skipWS s

def isDigit (c : Char) : Bool := decide (48 ≤ c.toNat ∧ c.toNat ≤ 57)

/-- The number that digits stand for. -/
def number (s : Str) : Nat := s.foldl (fun n c => n * 10 + (c.toNat - 48)) 0

/-- `strtoll` gives the nearest number of 64 bits. -/
def clamp (v : Int) : Int := max (-(2 ^ 63)) (min v (2 ^ 63 - 1))

/-- The digits of `strtoll`. -/
def digits (neg : Bool) (s : Str) : Option (Int × Str) :=
  match s.takeWhile isDigit with
  | [] => none
  | d :: ds =>
    some (clamp (if neg then -(number (d :: ds) : Int) else number (d :: ds)), s.dropWhile isDigit)

/-- `parseJsonInt` (OMTensorListHelper.cpp:232-242). -/
def parseInt (s : Str) : Option (Int × Str) :=
  match skipWS s with
  | [] => none
  | c :: r => if c = '-' then digits true r else if c = '+' then digits false r
      else digits false (c :: r)

/-- `OM_DATA_TYPE_MLIR_NAME` (OnnxDataTypeMetaData.inc). -/
def mlirNames : List Str :=
  [lit "undefined", lit "f32", lit "ui8", lit "i8", lit "ui16", lit "i16", lit "i32", lit "i64",
   lit "string", lit "i1", lit "f16", lit "f64", lit "ui32", lit "ui64", lit "complex64",
   lit "complex128", lit "bf16", lit "f8e4m3fn", lit "f8e4m3fnuz", lit "f8e5m2", lit "ui4", lit "i4"]

/-- `typeStringToOMDataType` (OMTensorListHelper.cpp:262-272). -/
def typeCode (t : Str) : Nat :=
  if t = lit "float" then 1
  else if t = lit "double" then 11
  else match mlirNames.findIdx? (fun n => decide (t = n)) with
    | some i => i
    | none => 0

/-- The loop over dimensions (OMTensorListHelper.cpp:330-346). -/
def dimsLoop : Nat → Str → List Int → Option (List Int × Str)
  | 0, _, _ => none
  | fuel + 1, s, acc =>
    match skipWS s with
    | [] => none
    | c :: r =>
      if c = ']' then some (acc, r)
      else if c = ',' then dimsLoop fuel r acc
      else match parseInt (c :: r) with
        | none => none
        | some p => dimsLoop fuel p.2 (acc ++ [p.1])

/-- The members of an object with one of the two keys, or another one
(OMTensorListHelper.cpp:316-350). -/
def field (fuel : Nat) (key : Str) (s : Str) (e : SigEntry) : Option (SigEntry × Str) :=
  if key = lit "type" then
    match parseStr s with
    | none => none
    | some p => if typeCode p.1 = 0 then none else some ({ e with type := some (typeCode p.1) }, p.2)
  else if key = lit "dims" then
    match consume s '[' with
    | none => none
    | some r =>
      match dimsLoop fuel r e.dims with
      | none => none
      | some p => some ({ e with dims := p.1 }, p.2)
  else some (e, afterStr s)

/-- The loop over the members of an object (OMTensorListHelper.cpp:300-351). -/
def fieldLoop : Nat → Str → SigEntry → Option (SigEntry × Str)
  | 0, _, _ => none
  | fuel + 1, s, e =>
    match skipWS s with
    | [] => none
    | c :: r =>
      if c = '}' then some (e, r)
      else if c = ',' then fieldLoop fuel r e
      else match parseStr (c :: r) with
        | none => none
        | some p =>
          match consume p.2 ':' with
          | none => none
          | some r' =>
            match field fuel p.1 r' e with
            | none => none
            | some q => fieldLoop fuel q.2 q.1

/-- The loop over objects (OMTensorListHelper.cpp:288-353). -/
def entryLoop : Nat → Str → List SigEntry → Option (List SigEntry)
  | 0, _, _ => none
  | fuel + 1, s, acc =>
    match skipWS s with
    | [] => some acc
    | c :: r =>
      if c = ']' then some acc
      else if c = ',' then entryLoop fuel r acc
      else match consume (c :: r) '{' with
        | none => none
        | some r' =>
          match fieldLoop fuel r' { type := none, dims := [] } with
          | none => none
          | some p => entryLoop fuel p.2 (acc ++ [p.1])

/-- `parseSignatureInfo` (OMTensorListHelper.cpp:279-355); none when it returns false. -/
def parseSignature (s : Str) : Option (List SigEntry) :=
  match consume s '[' with
  | none => none
  | some r =>
    match entryLoop (s.length + 1) r [] with
    | none => none
    | some es => if es = [] then none else some es

end Verif.SigParse
