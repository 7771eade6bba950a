import Verif.Driver.Spec
/-!
# The driver: the code (C111)

Models `/repo/src/Compiler/CommandUtils.cpp`, the parts of `/repo/src/Compiler/OMCompile.cpp` that
are about names, `/repo/src/onnx-mlir.cpp:72-88`, the choice of the tag in
`/repo/src/Compiler/CompilerUtils.cpp:927-950` and `SymbolPostfix`
(`/repo/src/Dialect/Mlir/DialectBuilder.hpp:877-888`).

Not modelled: Windows, configuration files and environment variables with options, containers
except for the text of the command, the compilation itself.
-/
namespace Verif.Driver
open Verif.Session (Str lower)

/-! ## The flags of `OMCompile` -/

/-- `std::isspace` in the C locale. -/
def isSpace (c : Char) : Bool :=
  c == ' ' || c == '\t' || c == '\n' || c == '\x0b' || c == '\x0c' || c == '\r'

/-- The state of `parseFlags` (CommandUtils.cpp:26-31). -/
structure Scan where
  flags : List Str := []
  cur : Str := []
  dq : Bool := false
  sq : Bool := false
  esc : Bool := false

/-- The body of the loop of `parseFlags` (CommandUtils.cpp:33-71). -/
def scan (st : Scan) (c : Char) : Scan :=
  if st.esc then { st with cur := st.cur ++ [c], esc := false }
  else if c == '\\' then { st with esc := true }
  else if c == '"' && !st.sq then { st with dq := !st.dq }
  else if c == '\'' && !st.dq then { st with sq := !st.sq }
  else if isSpace c && !st.dq && !st.sq then
    if st.cur ≠ [] then { st with flags := st.flags ++ [st.cur], cur := [] } else st
  else { st with cur := st.cur ++ [c] }

/-- `parseFlags` (CommandUtils.cpp:26-79). -/
def parseFlags (s : Str) : List Str :=
  let st := s.foldl scan {}
  if st.cur ≠ [] then st.flags ++ [st.cur] else st.flags

/-- `getOutputBasenameFromFlags` (CommandUtils.cpp:81-103): any flag that begins with `-o` is taken
for the option `-o`. -/
def getOutputBasenameFromFlags : List Str → Str
  | [] => []
  | f :: rest =>
    if (lit "-o=").isPrefixOf f then
      if f.length > 3 then f.drop 3 else getOutputBasenameFromFlags rest
    else if (lit "-o").isPrefixOf f then
      match rest with
      | v :: _ => v
      | [] => []
    else getOutputBasenameFromFlags rest

/-- `EmissionTargetType` as far as names of files depend on it. -/
inductive Target where
  | lib
  | jni
  | obj
  | mlir
  deriving DecidableEq

/-- `flag.find(pat) <= 6`. -/
def findBy6 (pat flag : Str) : Bool :=
  (List.range 7).any fun i => pat.isPrefixOf (flag.drop i)

/-- `getEmissionTargetFromFlags` (CommandUtils.cpp:105-130). -/
def getEmissionTargetFromFlags : List Str → Target
  | [] => .lib
  | f :: rest =>
    if (lit "-Emit").isPrefixOf f || (lit "--Emit").isPrefixOf f then
      if findBy6 (lit "Lib") f then .lib
      else if findBy6 (lit "JNI") f then .jni
      else if findBy6 (lit "Obj") f then .obj
      else .mlir
    else getEmissionTargetFromFlags rest

/-- `s.substr(0, s.find_last_of("."))`. -/
def beforeLastDot (s : Str) : Str :=
  match s.reverse.dropWhile (· ≠ '.') with
  | [] => s
  | _ :: front => front.reverse

/-- `getTargetFilename` (CommandUtils.cpp:160-181). -/
def getTargetFilename (base : Str) : Target → Str
  | .obj => base ++ lit ".o"
  | .lib => base ++ lit ".so"
  | .jni => base ++ lit ".jar"
  | .mlir => base ++ lit ".onnx.mlir"

/-- `getInputFilename` (CommandUtils.cpp:143-158). -/
def getInputFilename (input : Str) (flags : List Str) : Str :=
  if input ≠ [] then input
  else
    match flags.find? fun a => !(a.head? == some '-') &&
        ((lit ".mlir").isSuffixOf a || (lit ".onnx").isSuffixOf a ||
          (lit ".onnxtext").isSuffixOf a) with
    | some a => a
    | none => []

/-- `getOutputFilename` (CommandUtils.cpp:183-195). -/
def getOutputFilename (input : Str) (flags : List Str) : Str :=
  let base := getOutputBasenameFromFlags flags
  let base := if base = [] then beforeLastDot (getInputFilename input flags) else base
  getTargetFilename base (getEmissionTargetFromFlags flags)

/-- `getModelTag` (CommandUtils.cpp:197-210). -/
def getModelTag : List Str → Str
  | [] => []
  | f :: rest =>
    if (lit "--tag=").isPrefixOf f then f.drop 6
    else if (lit "-tag=").isPrefixOf f then f.drop 5
    else getModelTag rest

/-- `fs::path(a) / b` for a relative path. -/
def joinPath (a b : Str) : Str :=
  if a = [] ∨ a.getLast? = some '/' then a ++ b else a ++ '/' :: b

/-- The loop of `applyOutputPath` (CommandUtils.cpp:219-248); none when there is no `-o`. -/
def applyLoop (dir : Str) : List Str → Option (List Str)
  | [] => none
  | f :: rest =>
    if (lit "-o=").isPrefixOf f ∧ f.length > 3 then
      let base := f.drop 3
      if '/' ∉ base then some ((lit "-o=" ++ joinPath dir base) :: rest) else some (f :: rest)
    else
      match rest with
      | v :: rest' =>
        if f = lit "-o" then
          if '/' ∉ v then some (f :: joinPath dir v :: rest') else some (f :: v :: rest')
        else (applyLoop dir (v :: rest')).map (f :: ·)
      | [] => none

/-- `applyOutputPath` (CommandUtils.cpp:212-257). -/
def applyOutputPath (flags : List Str) (dir input : Str) : List Str :=
  if dir = [] then flags
  else
    match applyLoop dir flags with
    | some fs => fs
    | none =>
      flags ++ [lit "-o", joinPath dir (Session.dropExt (Session.fileName input))]

/-- `getAbsolutePathUsingCurrentDir` (CommandUtils.cpp:132-142). -/
def absolutePath (cwd name : Str) : Str :=
  if name = [] then name else if name.head? = some '/' then name else joinPath cwd name

/-- What `OMCompile::compile` (OMCompile.cpp:569-695) runs and reports: the arguments of the
compiler, the output file, the file of constants it looks for, and the tag. -/
structure Report where
  args : List Str
  output : Str
  constants : Str
  tag : Str

/-- `OMCompile::compile` in local mode, with the accessors `getOutputFilename` (721-727),
`getOutputConstantFilename` (729-735) and `getModelTag` (737-743). -/
def compile (cwd model : Str) (flags : Str) (outputPath : Str) : Report :=
  let fv := parseFlags flags
  let input := getInputFilename model fv
  let fv := if outputPath ≠ [] then applyOutputPath fv outputPath input else fv
  let out := absolutePath cwd (getOutputFilename input fv)
  { args := if model ≠ [] then fv ++ [input] else fv
    output := out
    constants := absolutePath cwd
      (Session.dropExt (Session.fileName out) ++ lit ".constants.bin")
    tag := getModelTag fv }

/-! ## The compiler -/

/-- The values of an option. -/
def valuesOf (name : Str) (items : List Item) : List Str :=
  items.filterMap fun i => match i with
    | .opt n (some v) => if n = name then some v else none
    | _ => none

/-- The positional arguments. -/
def positional (items : List Item) : List Str :=
  items.filterMap fun i => match i with
    | .pos a => some a
    | _ => none

/-- What is generated for an option `EmitX` (CompilerOptions.cpp:339-355). -/
def targetOf (name : Str) : Target :=
  if name = lit "EmitLib" then .lib
  else if name = lit "EmitJNI" then .jni
  else if name = lit "EmitObj" then .obj
  else .mlir

/-- The options `EmitX`. -/
def emitsOf (items : List Item) : List Target :=
  items.filterMap fun i => match i with
    | .opt n none => if n ∈ emitNames then some (targetOf n) else none
    | _ => none

/-- An option may be given once. -/
def single {α : Type} (dflt : α) : List α → Option α
  | [] => some dflt
  | [x] => some x
  | _ => none

/-- The name of the output without extension (onnx-mlir.cpp:72-88). -/
def outputBase (o input : Str) : Str :=
  if o = ['-'] ∨ (o.reverse.takeWhile fun c => !(Session.isSep c)).all (· == '.') then
    if input = ['-'] then lit "stdin" else beforeLastDot input
  else o

/-- `equals_insensitive("NONE")`. -/
def isNone (tag : Str) : Bool := lower tag = lit "none"

/-- The regular expression `([0-9a-z_.-]+)`. -/
def validTag (tag : Str) : Bool :=
  !tag.isEmpty && tag.all fun c =>
    ('0' ≤ c && c ≤ '9') || ('a' ≤ c && c ≤ 'z') || c == '_' || c == '.' || c == '-'

/-- The attribute `onnx-mlir.symbol-postfix` (CompilerUtils.cpp:934-950); none if the tag is
invalid. -/
def postfixAttr (tag base : Str) : Option Str :=
  let tag := if tag = [] then lower (Session.fileName base) else tag
  if !isNone tag && !validTag tag then none
  else if isNone tag then some [] else some tag

/-- `SymbolPostfix` (DialectBuilder.hpp:877-888): what is appended to symbols. -/
def symbolPostfix (attr : Str) : Str := if attr = [] then [] else '_' :: lower attr

/-- What the compiler writes: the file, the file with constants, if there is one, and what is
appended to the symbols. -/
structure Written where
  file : Str
  constants : Str
  pfx : Str
  target : Target
  deriving DecidableEq

/-- The compiler (onnx-mlir.cpp:72-170, CompilerUtils.cpp:927-950, 586-609); none when there is an
error in the options.  The file of constants is named in
`/repo/src/Conversion/KrnlToLLVM/ConvertKrnlToLLVM.cpp:1057`. -/
def compiler (takes : Str → Bool) (arguments : List Str) : Option Written := do
  let items ← parseCl takes arguments
  let o ← single ['-'] (valuesOf (lit "o") items)
  let tag ← single [] (valuesOf (lit "tag") items)
  let target ← single .lib (emitsOf items)
  let input ← single ['-'] (positional items)
  let base := outputBase o input
  let attr ← postfixAttr tag base
  pure { file := getTargetFilename base target
         constants := base ++ lit ".constants.bin"
         pfx := symbolPostfix attr
         target := target }

/-! ## Containers -/

/-- A flag in the command for the container (OMCompile.cpp:505-514): quotation marks are
escaped. -/
def escapeFlag (f : Str) : Str := f.flatMap fun c => if c = '"' then ['\\', '"'] else [c]

/-- The command for the container (OMCompile.cpp:500-521). -/
def containerCmd (compilerPath : Str) (flags : List Str) (input : Str) : Str :=
  compilerPath ++ flags.flatMap (fun f => ' ' :: escapeFlag f) ++ ' ' :: input

end Verif.Driver
