import Mathlib.Data.List.Basic

/-!
Model of the importer from ONNX graphs to MLIR.

Source: /repo/src/Builder/FrontendDialectTransformer.cpp and /repo/src/Builder/SymbolTable.hpp.

Types, locations and attributes are left out: an operation with its attributes is an element of `O`, the literal of an initializer
an element of `L`.  Values of the imported program are numbers.  The handlers of Cast, MaxPool, Dropout, Pad, Slice, CategoryMapper
and of custom operations, which add default inputs, are left out.
-/

namespace Verif.Builder

/-- What a node stands for: an operation with a handler, or a call of a function of the model or of a schema (`ImportNode`,
FrontendDialectTransformer.cpp 1409-1438; the choice is left out). -/
inductive OpRef (O : Type) where
  | prim (o : O)
  | call (f : String)

mutual
/-- `onnx::NodeProto`; the subgraphs are in the order of the regions. -/
inductive ONode (O L : Type) where
  | mk (op : OpRef O) (ins outs : List String) (graphs : List (OGraph O L))
/-- `onnx::GraphProto`. -/
inductive OGraph (O L : Type) where
  | mk (inits : List (String × L)) (inputs : List String) (nodes : List (ONode O L)) (outputs : List String)
end

/-- `onnx::FunctionProto`. -/
structure OFunction (O L : Type) where
  inputs : List String
  nodes : List (ONode O L)
  outputs : List String

mutual
/-- Operations of the imported program: a constant, `ONNXNoneOp`, an operation. -/
inductive SOp (O L : Type) where
  | const (l : L) (res : ℕ)
  | none (res : ℕ)
  | op (o : O) (args : List ℕ) (regions : List (SRegion O L)) (res : List ℕ)
/-- A region of one block: block arguments, operations, operands of the terminator. -/
inductive SRegion (O L : Type) where
  | mk (params : List ℕ) (body : List (SOp O L)) (rets : List ℕ)
end

/-- One `VariableScope` (SymbolTable.hpp 20-62). -/
abbrev Scope := List (String × ℕ)

/-- `VariableScope::get` (156-160). -/
def Scope.get (s : Scope) (x : String) : Option ℕ := (s.find? fun p => p.1 == x).map (·.2)

/-- `SymbolMapping::GetByOnnxName` (118-124): the scopes are searched from the outermost to the innermost. -/
def getByName : List Scope → String → Option ℕ
  | [], _ => none
  | s :: rest, x =>
    match s.get x with
    | some v => some v
    | none => getByName rest x

/-- `SymbolMapping::AddMapping` (126-131): to the innermost scope; `none` when an assertion fails. -/
def addMapping : List Scope → String → ℕ → Option (List Scope)
  | [], _, _ => none
  | [s], x, v => if (s.get x).isSome then none else some [s ++ [(x, v)]]
  | s :: t :: rest, x, v => (addMapping (t :: rest) x v).map (s :: ·)

/-- Bindings one after the other. -/
def addMappings (sc : List Scope) (l : List (String × ℕ)) : Option (List Scope) :=
  l.foldlM (fun sc p => addMapping sc p.1 p.2) sc

variable {O L : Type}

/-- `getNodeInputs` (FrontendDialectTransformer.cpp 863-873): an empty name is a new none value, a name that is not found is
dropped; with the operations created and the next number. -/
def getNodeInputs (sc : List Scope) : List String → ℕ → List ℕ × List (SOp O L) × ℕ
  | [], n => ([], [], n)
  | x :: xs, n =>
    if x = "" then
      let r := getNodeInputs sc xs (n + 1)
      (n :: r.1, SOp.none n :: r.2.1, r.2.2)
    else
      match getByName sc x with
      | some v => let r := getNodeInputs sc xs n; (v :: r.1, r.2.1, r.2.2)
      | none => getNodeInputs sc xs n

/-- Trailing none values (`buildOutputAndOperation`, 767-771): `k` of them. -/
def padInputs (k n : ℕ) : List ℕ × List (SOp O L) := (List.range' n k, (List.range' n k).map SOp.none)

/-- Names of the outputs with the results, left out when empty (854-860). -/
def namedResults (outs : List String) (res : List ℕ) : List (String × ℕ) := (outs.zip res).filter fun p => p.1 ≠ ""

/-- The signature of an operation: the number of operands and of results of its definition, `none` when variadic
(`getNumberOfOperands`, `getNumberOfResults`). -/
structure Arity (O : Type) where
  operands : O → Option ℕ
  results : O → Option ℕ

/-- The number of trailing operands to add (767-771). -/
def missing (e : Option ℕ) (n : ℕ) : ℕ :=
  match e with
  | none => 0
  | some k => k - n

/-- The number of results of the operation created (773-816). -/
def numResults (e : Option ℕ) (n : ℕ) : ℕ := n + missing e n

/-- The import of a call: from the function, the input values and the next number to the operations of its body, the values
found for its outputs, and the next number. -/
abbrev CallImport (O L : Type) := String → List ℕ → ℕ → Option (List (SOp O L) × List ℕ × ℕ)

mutual
/-- `ImportNode` through `buildOperation` and `buildOutputAndOperation` (875-884, 752-861), and `ImportFunctionCallNode`
(1213-1386): the operations created, the symbol table and the next number.  In a call a name that is not found is a null pointer
(`LookupOnnxName`, 253-256), and the function may not have found more outputs than the node has names (1381-1385). -/
def importNode (ar : Arity O) (call : CallImport O L) (sc : List Scope) (n : ℕ) : ONode O L → Option (List (SOp O L) × List Scope × ℕ)
  | .mk (.prim o) ins outs graphs =>
    let r := getNodeInputs (O := O) (L := L) sc ins n
    let k := missing (ar.operands o) r.1.length
    let pad := padInputs (O := O) (L := L) k r.2.2
    let n1 := r.2.2 + k
    let res := List.range' n1 (numResults (ar.results o) outs.length)
    (importGraphs ar call sc (n1 + res.length) graphs).bind fun q =>
      (addMappings sc (namedResults outs res)).map fun sc' =>
        (r.2.1 ++ pad.2 ++ [SOp.op o (r.1 ++ pad.1) q.1 res], sc', q.2)
  | .mk (.call f) ins outs _ =>
    if ins.all fun x => x = "" ∨ (getByName sc x).isSome then
      let r := getNodeInputs (O := O) (L := L) sc ins n
      (call f r.1 r.2.2).bind fun q =>
        if q.2.1.length ≤ outs.length then
          (addMappings sc (outs.zip q.2.1)).map fun sc' => (r.2.1 ++ q.1, sc', q.2.2)
        else none
    else none
/-- The loop over the nodes (580-583). -/
def importNodes (ar : Arity O) (call : CallImport O L) (sc : List Scope) (n : ℕ) : List (ONode O L) → Option (List (SOp O L) × List Scope × ℕ)
  | [] => some ([], sc, n)
  | nd :: nds =>
    (importNode ar call sc n nd).bind fun p =>
      (importNodes ar call p.2.1 p.2.2 nds).map fun q => (p.1 ++ q.1, q.2.1, q.2.2)
/-- `importGraph` into a region (492-617): initializers, block arguments for the inputs without initializer, nodes, outputs. -/
def importGraph (ar : Arity O) (call : CallImport O L) (sc : List Scope) (n : ℕ) : OGraph O L → Option (SRegion O L × ℕ)
  | .mk inits inputs nodes outputs =>
    let consts := (inits.zipIdx n).map fun p => SOp.const p.1.2 p.2
    let n1 := n + inits.length
    let free := inputs.filter fun x => !(inits.any fun p => p.1 == x)
    let params := List.range' n1 free.length
    let n2 := n1 + free.length
    (addMappings (sc ++ [[]]) ((inits.zipIdx n).map fun p => (p.1.1, p.2))).bind fun sc1 =>
      (addMappings sc1 (free.zip params)).bind fun sc2 =>
        (importNodes ar call sc2 n2 nodes).bind fun q =>
          (outputs.mapM (getByName q.2.1)).map fun rets => (SRegion.mk params (consts ++ q.1) rets, q.2.2)
/-- The loop over the subgraphs of a node (822-843). -/
def importGraphs (ar : Arity O) (call : CallImport O L) (sc : List Scope) (n : ℕ) : List (OGraph O L) → Option (List (SRegion O L) × ℕ)
  | [] => some ([], n)
  | g :: gs =>
    (importGraph ar call sc n g).bind fun p =>
      (importGraphs ar call sc p.2 gs).map fun q => (p.1 :: q.1, q.2)
end

/-- The body of `ImportFunctionCallNode` (1330-1371): the inputs are bound in a new symbol table, none values are made for those
that are not given, the nodes are imported, and the outputs that have a value are collected; `none` when there are more inputs
than parameters, or when calls are nested deeper than `fuel`. -/
def importCall (ar : Arity O) (funcs : String → Option (OFunction O L)) : ℕ → CallImport O L
  | 0, _, _, _ => none
  | fuel + 1, f, args, n =>
    (funcs f).bind fun fn =>
      if args.length ≤ fn.inputs.length then
        let k := fn.inputs.length - args.length
        let pad := padInputs (O := O) (L := L) k n
        (addMappings [[]] (fn.inputs.zip (args ++ pad.1))).bind fun sc =>
          (importNodes ar (importCall ar funcs fuel) sc (n + k) fn.nodes).map fun q =>
            (pad.2 ++ q.1, fn.outputs.filterMap (getByName q.2.1), q.2.2)
      else none

/-- `importGraph` of the main graph (1536-1560): the region of `main_graph`. -/
def importMain (ar : Arity O) (funcs : String → Option (OFunction O L)) (fuel : ℕ) (g : OGraph O L) : Option (SRegion O L) :=
  (importGraph ar (importCall ar funcs fuel) [] 0 g).map (·.1)

end Verif.Builder
