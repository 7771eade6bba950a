import Verif.Builder.ImportModel

/-!
Two meanings: of ONNX graphs, by environments of names, and of imported programs, by environments of numbered values.  Both are
given by any meaning of the operations.  A value that is left out is `none : Option V`.
-/

namespace Verif.Builder

variable {O L V : Type}

/-- The meaning of literals and operations: from the operands and the meanings of the subgraphs to the results, or failure. -/
structure Meaning (O L V : Type) where
  lit : L → V
  op : O → List (Option V) → List (List (Option V) → Option (List (Option V))) → Option (List (Option V))

/-- Bindings one after the other. -/
def bindAll {N X : Type} [DecidableEq N] (env : N → Option X) (l : List (N × X)) : N → Option X :=
  l.foldl (fun e p => fun y => if y = p.1 then some p.2 else e y) env

/-! ### ONNX -/

/-- Values of names. -/
abbrev Env (V : Type) := String → Option (Option V)

/-- An operand: an empty name is an operand left out. -/
def argOf (env : Env V) (x : String) : Option (Option V) := if x = "" then some none else env x

/-- Operands left out at the end. -/
def fillUp (arity : Option ℕ) (args : List (Option V)) : List (Option V) :=
  match arity with
  | none => args
  | some k => args ++ List.replicate (k - args.length) none

/-- The number of results an operation has when a node names `n` of them. -/
def resultCount (arity : Option ℕ) (n : ℕ) : ℕ :=
  match arity with
  | none => n
  | some k => max k n

mutual
/-- A node: its results become the values of the names of its outputs, except the empty name. -/
def evalNode (ar : Arity O) (M : Meaning O L V) (call : String → List (Option V) → Option (List (Option V))) (env : Env V) :
    ONode O L → Option (Env V)
  | .mk (.prim o) ins outs graphs =>
    (ins.mapM (argOf env)).bind fun args =>
      (M.op o (fillUp (ar.operands o) args) (evalGraphs ar M call env graphs)).bind fun res =>
        if res.length = resultCount (ar.results o) outs.length then some (bindAll env ((outs.zip res).filter fun p => p.1 ≠ ""))
        else none
  | .mk (.call f) ins outs _ =>
    (ins.mapM (argOf env)).bind fun args =>
      (call f args).map fun res => bindAll env ((outs.zip res).filter fun p => p.1 ≠ "")
def evalNodes (ar : Arity O) (M : Meaning O L V) (call : String → List (Option V) → Option (List (Option V))) (env : Env V) :
    List (ONode O L) → Option (Env V)
  | [] => some env
  | nd :: nds => (evalNode ar M call env nd).bind fun e => evalNodes ar M call e nds
/-- A graph: a function of the inputs that are not initializers, in an environment for the names of the enclosing graph. -/
def evalGraph (ar : Arity O) (M : Meaning O L V) (call : String → List (Option V) → Option (List (Option V))) (env : Env V) :
    OGraph O L → List (Option V) → Option (List (Option V))
  | .mk inits inputs nodes outputs => fun args =>
    let free := inputs.filter fun x => !(inits.any fun p => p.1 == x)
    if args.length = free.length then
      (evalNodes ar M call (bindAll (bindAll env (inits.map fun p => (p.1, some (M.lit p.2)))) (free.zip args)) nodes).bind fun e =>
        outputs.mapM e
    else none
def evalGraphs (ar : Arity O) (M : Meaning O L V) (call : String → List (Option V) → Option (List (Option V))) (env : Env V) :
    List (OGraph O L) → List (List (Option V) → Option (List (Option V)))
  | [] => []
  | g :: gs => evalGraph ar M call env g :: evalGraphs ar M call env gs
end

/-- The meaning of functions: inputs that are not given are left out, and so are outputs that the body does not compute; calls
nested deeper than `fuel` fail. -/
def evalCall (ar : Arity O) (M : Meaning O L V) (funcs : String → Option (OFunction O L)) : ℕ → String → List (Option V) → Option (List (Option V))
  | 0, _, _ => none
  | fuel + 1, f, args =>
    (funcs f).bind fun fn =>
      (evalNodes ar M (evalCall ar M funcs fuel)
        (bindAll (fun _ => none) (fn.inputs.zip (fillUp (some fn.inputs.length) args))) fn.nodes).map fun e =>
        fn.outputs.map fun x => (e x).getD none

/-- The meaning of the main graph. -/
def evalMain (ar : Arity O) (M : Meaning O L V) (funcs : String → Option (OFunction O L)) (fuel : ℕ) (g : OGraph O L)
    (args : List (Option V)) : Option (List (Option V)) :=
  evalGraph ar M (evalCall ar M funcs fuel) (fun _ => none) g args

/-! ### Imported programs -/

/-- Values of numbers. -/
abbrev SEnv (V : Type) := ℕ → Option (Option V)

mutual
def runOp (M : Meaning O L V) (env : SEnv V) : SOp O L → Option (SEnv V)
  | .const l r => some (bindAll env [(r, some (M.lit l))])
  | .none r => some (bindAll env [(r, none)])
  | .op o args regions res =>
    (args.mapM env).bind fun vs =>
      (M.op o vs (runRegions M env regions)).bind fun rs =>
        if rs.length = res.length then some (bindAll env (res.zip rs)) else none
def runOps (M : Meaning O L V) (env : SEnv V) : List (SOp O L) → Option (SEnv V)
  | [] => some env
  | o :: os => (runOp M env o).bind fun e => runOps M e os
/-- A region: a function of the block arguments, which can use the values of the enclosing regions. -/
def runRegion (M : Meaning O L V) (env : SEnv V) : SRegion O L → List (Option V) → Option (List (Option V))
  | .mk params body rets => fun args =>
    if args.length = params.length then
      (runOps M (bindAll env (params.zip args)) body).bind fun e => rets.mapM e
    else none
def runRegions (M : Meaning O L V) (env : SEnv V) : List (SRegion O L) → List (List (Option V) → Option (List (Option V)))
  | [] => []
  | r :: rs => runRegion M env r :: runRegions M env rs
end

/-! ### Valid models -/

/-- The names of the outputs of a node. -/
def ONode.outs : ONode O L → List String
  | .mk _ _ outs _ => outs

/-- A call names all the outputs of the function. -/
def CallOk (funcs : String → Option (OFunction O L)) (op : OpRef O) (outs : List String) : Prop :=
  match op with
  | .prim _ => True
  | .call f => ∃ fn, funcs f = some fn ∧ outs.length = fn.outputs.length

mutual
/-- A node in the scope of some names: it uses names in scope, and the names of its outputs are new. -/
def NodeOk (funcs : String → Option (OFunction O L)) (scope : List String) : ONode O L → Prop
  | .mk op ins outs graphs => (∀ x ∈ ins, x = "" ∨ x ∈ scope) ∧ (∀ x ∈ outs, x ≠ "" → x ∉ scope) ∧
      (outs.filter (· ≠ "")).Nodup ∧ CallOk funcs op outs ∧ GraphsOk funcs scope graphs
def NodesOk (funcs : String → Option (OFunction O L)) (scope : List String) : List (ONode O L) → Prop
  | [] => True
  | nd :: nds => NodeOk funcs scope nd ∧ NodesOk funcs (scope ++ nd.outs) nds
/-- A graph in the scope of some names: no name is used for two values, and every name used is in scope. -/
def GraphOk (funcs : String → Option (OFunction O L)) (scope : List String) : OGraph O L → Prop
  | .mk inits inputs nodes outputs =>
    let names := inits.map (·.1) ++ inputs.filter fun x => !(inits.any fun p => p.1 == x)
    "" ∉ names ∧ names.Nodup ∧ (∀ x ∈ names, x ∉ scope) ∧ NodesOk funcs (scope ++ names) nodes ∧
      ∀ x ∈ outputs, x ≠ "" ∧ x ∈ scope ++ names ++ nodes.flatMap ONode.outs
def GraphsOk (funcs : String → Option (OFunction O L)) (scope : List String) : List (OGraph O L) → Prop
  | [] => True
  | g :: gs => GraphOk funcs scope g ∧ GraphsOk funcs scope gs
end

/-- A function with a valid body that computes all its outputs. -/
def FunctionOk (funcs : String → Option (OFunction O L)) (fn : OFunction O L) : Prop :=
  "" ∉ fn.inputs ∧ fn.inputs.Nodup ∧ NodesOk funcs fn.inputs fn.nodes ∧
    ∀ x ∈ fn.outputs, x ≠ "" ∧ x ∈ fn.inputs ++ fn.nodes.flatMap ONode.outs

end Verif.Builder
