import Verif.Config.Spec
/-!
# Configuration files: the code (C122)

Models `/repo/src/Compiler/JsonConfigObject.cpp`, `loadCompileOptionsFromConfig` of
`/repo/src/Compiler/CompilerOptions.cpp`, and the list of arguments that `main` of
`/repo/src/onnx-mlir.cpp` passes to the parser of options.

The parser and the printer of JSON of LLVM and the file system are parameters. Not modelled: the
messages, `dump`, the accelerators that read other keys, and errors while a file is written.
-/
namespace Verif.Config

/-- The members of `JsonConfigObject` (JsonConfigObject.hpp:109-118). The pointer `jsonObject` is
never null, see its constructor (JsonConfigObject.cpp:30-31). -/
structure Object where
  content : List (Str × Json) := []
  filePath : Str := []
  loaded : Bool := false

/-- `jsonOrError->getAsObject()` and the storing of the object
(JsonConfigObject.cpp:66-79). -/
def storeParsed (o : Object) (path : Str) : Option Json → Bool × Object
  | some (.obj l) => (true, { content := l, filePath := path, loaded := true })
  | _ => (false, o)

/-- Reading and parsing the file (JsonConfigObject.cpp:47-64). -/
def readFile (parse : Str → Option Json) (o : Object) (path : Str) : File → Bool × Object
  | .text s => storeParsed o path (parse s)
  | _ => (false, o)

/-- `JsonConfigObject::loadFromFile` (JsonConfigObject.cpp:35-80). -/
def loadFromFile (parse : Str → Option Json) (fs : Str → File) (o : Object) (path : Str) :
    Bool × Object :=
  if o.loaded then
    (if o.filePath = path then (true, o) else (false, o))
  else readFile parse o path (fs path)

/-- `JsonConfigObject::storeToFile` (JsonConfigObject.cpp:82-105): the answer, and the file
system after it. `writable` says whether a path can be opened for writing. -/
def storeToFile (print : List (Str × Json) → Str) (writable : Str → Bool) (fs : Str → File)
    (o : Object) (path : Str) : Bool × (Str → File) :=
  if o.content.isEmpty then (false, fs)
  else if !writable path then (false, fs)
  else (true, fun p => if p = path then .text (print o.content ++ ['\n']) else fs p)

/-- `JsonConfigObject::getArray` (JsonConfigObject.cpp:111-121). -/
def getArray (o : Object) (key : Str) : Option (List Json) :=
  match o.content.lookup key with
  | some (.arr l) => some l
  | _ => none

/-- `Value::getAsString`, used in the loop of `getCompileOptions`. -/
def asString : Json → Option Str
  | .str s => some s
  | _ => none

/-- The loop of `getCompileOptions` (JsonConfigObject.cpp:134-138). -/
def pushStrings : List Json → List Str → List Str
  | [], args => args
  | v :: vs, args =>
    match asString v with
    | some s => pushStrings vs (args ++ [s])
    | none => pushStrings vs args

/-- `JsonConfigObject::getCompileOptions` (JsonConfigObject.cpp:130-140). -/
def getCompileOptions (o : Object) (args : List Str) : Bool × List Str :=
  match getArray o compileOptions with
  | none => (false, args)
  | some l => if l.isEmpty then (false, args) else (true, pushStrings l args)

/-! ## The command line -/

/-- `arg.size() > 1 && arg[0] == '-'` (CompilerOptions.cpp:1624). -/
def isOption : Str → Bool
  | '-' :: _ :: _ => true
  | _ => false

/-- The loop that looks for the name of the input (CompilerOptions.cpp:1621-1632), over the
arguments after the name of the program. -/
def inputFile : List Str → Str
  | [] => []
  | a :: rest => if isOption a then inputFile rest else a

/-- `arg.find(p) == 0`. -/
def beginsWith (p a : Str) : Bool := p.isPrefixOf a

def twoDashes : Str := optionName true
def oneDash : Str := optionName false

/-- The loop that looks for `--config-file` (CompilerOptions.cpp:1638-1652), over the arguments
after the name of the program. -/
def configFile : List Str → Str → Str
  | [], c => c
  | [a], c =>
    if beginsWith (twoDashes ++ ['=']) a then a.drop 14
    else if beginsWith (oneDash ++ ['=']) a then a.drop 13
    else c
  | a :: v :: rest, c =>
    if beginsWith (twoDashes ++ ['=']) a then configFile (v :: rest) (a.drop 14)
    else if beginsWith twoDashes a then configFile rest v
    else if beginsWith (oneDash ++ ['=']) a then configFile (v :: rest) (a.drop 13)
    else if beginsWith oneDash a then configFile rest v
    else configFile (v :: rest) c

def notSlash (c : Char) : Bool := c != '/'
def isSlash (c : Char) : Bool := c == '/'

/-- `std::filesystem::path::parent_path` followed by `/ "omconfig.json"`
(CompilerOptions.cpp:1655-1657): the file name is removed, then the separators before it, unless
nothing else is left. Two separators at the beginning are taken as one. -/
def besideDefault (input : Str) : Str :=
  match input.reverse.dropWhile notSlash with
  | [] => omconfig
  | s :: front =>
    match (s :: front).dropWhile isSlash with
    | [] => '/' :: omconfig
    | c :: dir => (c :: dir).reverse ++ '/' :: omconfig

/-- The path of the configuration file (CompilerOptions.cpp:1654-1659). -/
def configPath (args : List Str) : Str :=
  let c := configFile args []
  if c.isEmpty then besideDefault (inputFile args) else c

/-- `std::filesystem::exists`. -/
def File.exists : File → Bool
  | .missing => false
  | _ => true

/-- `loadCompileOptionsFromConfig` (CompilerOptions.cpp:1618-1683): the answer, the options, and
the global object. -/
def loadCompileOptions (parse : Str → Option Json) (fs : Str → File) (global : Object)
    (args : List Str) : Bool × List Str × Object :=
  let p := configPath args
  if !(fs p).exists then (false, [], global)
  else
    match loadFromFile parse fs global p with
    | (false, g) => (false, [], g)
    | (true, g) =>
      match getCompileOptions g [] with
      | (b, extra) => (b, extra, g)

/-- The arguments that `main` gives to the parser of options (onnx-mlir.cpp:43-56), after the name
of the program. The answer of `loadCompileOptionsFromConfig` is not looked at. -/
def allArgs (parse : Str → Option Json) (fs : Str → File) (args : List Str) : List Str :=
  (loadCompileOptions parse fs {} args).2.1 ++ args

/-- A sequence of loads of one object, each with the file system of its time. -/
def loads (parse : Str → Option Json) : List ((Str → File) × Str) → Object → Object
  | [], o => o
  | (fs, p) :: rest, o => loads parse rest (loadFromFile parse fs o p).2

end Verif.Config
