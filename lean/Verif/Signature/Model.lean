import Verif.Signature.Spec
/-!
# Signatures: the code (C110)

Models the text of signatures made by `ONNXEntryPointLowering`
(`/repo/src/Conversion/ONNXToKrnl/ConvertONNXToKrnl.cpp:40-195`), its storage by
`recordEntryPointSignatures` (`/repo/src/Conversion/KrnlToLLVM/KrnlEntryPoint.cpp:623-688`) and
the functions generated by `genSignatureFunction`
(`/repo/src/Conversion/KrnlToLLVM/ConvertKrnlToLLVM.cpp:330-471`).

Not modelled: z/OS (EBCDIC), the default names `input_i`/`output_i` (they are names like others),
and the printing of element types by MLIR, which is given by the name of the type.
-/
namespace Verif.Signature

/-- `concatTypeString` (ConvertONNXToKrnl.cpp:77-115). The element type is printed without
quotation marks; that of strings is printed with them. -/
def concatTypeString (name : Str) : Ty → Str
  | .tensor elem dims =>
    lit "   { \"type\" : " ++ elem ++ lit " , \"dims\" : [" ++
      sepBy (lit " , ") (dims.map decimal) ++ lit "] " ++ lit ", \"name\" : \"" ++ name ++
      lit "\"" ++ lit " }\n"
  | .strings dims =>
    lit "   { \"type\" : " ++ lit "\"string\"" ++ lit " , \"dims\" : [" ++
      sepBy (lit " , ") (dims.map decimal) ++ lit "] " ++ lit ", \"name\" : \"" ++ name ++
      lit "\"" ++ lit " }\n"
  | .seq t => lit "   {\"seq\" : " ++ concatTypeString name t ++ lit " }\n"

/-- The loops over the inputs and the outputs (ConvertONNXToKrnl.cpp:131-142, 149-161). -/
def concatAll (xs : List (Ty × Str)) : Str :=
  sepBy (lit " , ") (xs.map fun x => concatTypeString x.2 x.1)

/-- The text before the types are quoted (ConvertONNXToKrnl.cpp:129-165). -/
def rawSignature (inputs outputs : List (Ty × Str)) : Str :=
  lit "[ " ++ concatAll inputs ++ lit "\n]" ++ [nul] ++ lit "@[" ++
    concatAll outputs ++ lit "\n]" ++ [nul]

/-- `find` and `replace` in a loop (ConvertONNXToKrnl.cpp:166-172): after a replacement the search
goes on behind the position of the key's length, not of the replacement's.  The first argument
bounds the number of steps. -/
def replaceAll (key val : Str) : Nat → Str → Str
  | 0, s => s
  | _ + 1, [] => []
  | n + 1, c :: s =>
    if key.isPrefixOf (c :: s) then
      val.take key.length ++ replaceAll key val n (val.drop key.length ++ (c :: s).drop key.length)
    else c :: replaceAll key val n s

/-- `typeMap` (ConvertONNXToKrnl.cpp:179-191), in the order of a `std::map`. -/
def typeMap : List (Str × Str) :=
  [(" f16 ", " \"f16\" "), (" f32 ", " \"f32\" "), (" f64 ", " \"f64\" "),
   (" i1 ", " \"i1\" "), (" i16 ", " \"i16\" "), (" i32 ", " \"i32\" "),
   (" i64 ", " \"i64\" "), (" i8 ", " \"i8\" "), (" ui16 ", " \"ui16\" "),
   (" ui32 ", " \"ui32\" "), (" ui64 ", " \"ui64\" "), (" ui8 ", " \"ui8\" ")].map
    fun p => (lit p.1, lit p.2)

/-- `getSignature` (ConvertONNXToKrnl.cpp:117-175). -/
def getSignature (inputs outputs : List (Ty × Str)) : Str :=
  typeMap.foldl (fun s p => replaceAll p.1 p.2 s.length s) (rawSignature inputs outputs)

/-- `signature.split('@')`: at the first at sign. -/
def splitAt (s : Str) : Str × Str :=
  (s.takeWhile (· ≠ '@'), (s.dropWhile (· ≠ '@')).drop 1)

/-- The three global constants of an entry point (KrnlEntryPoint.cpp:651-687): its name, with the
end of string, and its signatures. -/
structure Globals where
  entry : Str
  inSig : Str
  outSig : Str

/-- `recordEntryPointSignatures` (KrnlEntryPoint.cpp:623-688). -/
def record (name sig : Str) : Globals :=
  { entry := name ++ [nul], inSig := (splitAt sig).1, outSig := (splitAt sig).2 }

/-- The entry points of the module (KrnlEntryPoint.cpp:106-123): when there is only one it has the
default name, and the same with the postfix. -/
def recordAll (pfx : Str) (es : List Entry) : List Globals :=
  match es with
  | [e] =>
    let sig := getSignature e.inputs e.outputs
    let g := record (lit "run_main_graph") sig
    if lit "run_main_graph" ++ pfx ≠ lit "run_main_graph" then
      [g, record (lit "run_main_graph" ++ pfx) sig]
    else [g]
  | es => es.map fun e => record (lit "run_" ++ e.func) (getSignature e.inputs e.outputs)

/-- `strncmp(a, b, n) == 0`: none when memory behind the arrays is read. -/
def strncmpEq : Nat → Str → Str → Option Bool
  | 0, _, _ => some true
  | n + 1, a :: as, b :: bs =>
    if a ≠ b then some false else if a = nul then some true else strncmpEq n as bs
  | _ + 1, _, _ => none

/-- What a signature function returns. -/
inductive Found where
  | null
  | ptr (array : Str)
  | undefined
  deriving DecidableEq

/-- The generated function (ConvertKrnlToLLVM.cpp:430-469): the entry points are compared with the
argument one after the other. -/
def lookup (which : Globals → Str) (arg : Str) : List Globals → Found
  | [] => .null
  | g :: gs =>
    match strncmpEq g.entry.length arg g.entry with
    | none => .undefined
    | some true => .ptr (which g)
    | some false => lookup which arg gs

/-- What the caller of the function sees: the characters up to the end of the string; none if
there is no end in the array. -/
def cString (array : Str) : Option Str :=
  if nul ∈ array then some (array.takeWhile (· ≠ nul)) else none

/-- `omInputSignature` and `omOutputSignature` of the compiled model, for an argument given as a
C string. -/
def omInputSignature (pfx : Str) (es : List Entry) (name : Str) : Found :=
  lookup Globals.inSig (name ++ [nul]) (recordAll pfx es)

def omOutputSignature (pfx : Str) (es : List Entry) (name : Str) : Found :=
  lookup Globals.outSig (name ++ [nul]) (recordAll pfx es)

end Verif.Signature
