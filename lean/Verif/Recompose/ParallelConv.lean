import Verif.Recompose.GraphSpec

/-!
# Combining convolutions of the same input

Models `CombineParallelConv2DPattern` (src/Dialect/ONNX/Transforms/Recompose.cpp lines 651-871). Simplified: a
static shape is all that is known of a type; Split is one operation per output; the names of new values are
consecutive numbers from `fresh`; shapes are ranked (`getShape` aborts for an unranked W).
-/

namespace Verif.Recompose

open Verif.Rewrite

variable {V : Type}

/-- The users of a value, one for each use; `none` stands for the return operation. MLIR does not fix the order
(in practice the last use comes first). -/
def usesOf (g : Graph V) (v : ℕ) : List (Option ℕ) :=
  (g.nodes.flatMap fun p => (p.2.args.filter (· = v)).map fun _ => some p.1) ++ (g.outs.filter (· = v)).map fun _ => none

/-- The operation that defines a value. -/
def opOf (g : Graph V) (n : ℕ) : Option (GOp V) := (g.nodes.find? fun p => p.1 = n).map Prod.snd

/-- `dyn_cast<ONNXConvOp>` -/
def convOf (g : Graph V) (n : ℕ) : Option ConvOp :=
  match opOf g n with
  | some (.conv c) => some c
  | _ => none

/-- `dyn_cast<ONNXConcatOp>` -/
def concatOf (g : Graph V) : Option ℕ → Option (ℕ × ℤ)
  | none => none
  | some n =>
    match opOf g n with
    | some (.concat axis _) => some (n, axis)
    | _ => none

/-- Recompose.cpp lines 845-870 (`areCompatible`). `ty` is the static shape of a value, if it is known. -/
def areCompatible (ty : ℕ → Option (List ℕ)) (a b : ConvOp) : Bool :=
  a.at_.autoPad = b.at_.autoPad && a.at_.dilations = b.at_.dilations && a.at_.group = b.at_.group &&
  a.at_.kernel = b.at_.kernel && a.at_.pads = b.at_.pads && a.at_.strides = b.at_.strides &&
  ty a.w = ty b.w && a.b.isSome = b.b.isSome && (a.b.map ty = b.b.map ty)

/-- `candidateConvs`: the users of the input that are Convs. Recompose.cpp lines 668-672. -/
def candidates (g : Graph V) (users : List (Option ℕ)) : List (ℕ × ConvOp) :=
  users.filterMap fun u => u.bind fun n => (convOf g n).map fun c => (n, c)

/-- The position of an operation in its block (`isBeforeInBlock`). -/
def pos (g : Graph V) (n : ℕ) : ℕ := (g.nodes.map Prod.fst).idxOf n

/-- The position of `latestConv`. Recompose.cpp lines 708-711. -/
def latest (g : Graph V) (cs : List ℕ) : ℕ := (cs.map (pos g)).foldl max 0

/-- Recompose.cpp lines 729-730; the return operation is not before any other. -/
def pushOne (before : ℕ → Bool) (wl : List ℕ) : Option ℕ → List ℕ
  | some n => if before n then n :: wl else wl
  | none => wl

/-- Pushing the users of an operation. Recompose.cpp lines 728-731. -/
def pushUsers (before : ℕ → Bool) : List (Option ℕ) → List ℕ × List (Option ℕ) → List ℕ × List (Option ℕ)
  | [], s => s
  | u :: us, (wl, vis) =>
    if u ∈ vis then pushUsers before us (wl, vis)
    else pushUsers before us (pushOne before wl u, u :: vis)

/-- Recompose.cpp lines 717-734, the loop of `checkIfOtherConvsReachable`; `none` when the number of iterations
given does not suffice. -/
def reachLoop (uses : ℕ → List (Option ℕ)) (cs : List ℕ) (before : ℕ → Bool) :
    ℕ → List ℕ → List (Option ℕ) → Option Bool
  | 0, _, _ => none
  | _ + 1, [], _ => some false
  | k + 1, c :: wl, vis =>
    if (uses c).any (fun u => u.any fun n => n ∈ cs) then some true
    else reachLoop uses cs before k (pushUsers before (uses c) (wl, vis)).1 (pushUsers before (uses c) (wl, vis)).2

/-- Recompose.cpp lines 713-735 (`checkIfOtherConvsReachable`). The number of iterations suffices
(`C97_search`). -/
def reachable (g : Graph V) (uses : ℕ → List (Option ℕ)) (cs : List ℕ) (c : ℕ) : Option Bool :=
  reachLoop uses cs (fun n => pos g n < latest g cs) (g.nodes.length + 2) [c] []

/-- Recompose.cpp lines 795-810: the users of one convolution must be the Concat found so far. -/
def scanUsers (g : Graph V) : Option (ℕ × ℤ) → List (Option ℕ) → Option (Option (ℕ × ℤ))
  | cc, [] => some cc
  | cc, u :: us =>
    match concatOf g u with
    | none => none
    | some k => if (cc.getD k).1 = k.1 then scanUsers g (some (cc.getD k)) us else none

/-- Recompose.cpp lines 792-816: `commonConcatOp`, if all outputs are used there only. -/
def commonConcat (g : Graph V) (uses : ℕ → List (Option ℕ)) : Option (ℕ × ℤ) → List ℕ → Option (ℕ × ℤ)
  | cc, [] => cc
  | cc, c :: cs =>
    if uses c = [] then none
    else match scanUsers g cc (uses c) with
      | none => none
      | some cc => commonConcat g uses cc cs

/-- Replace the operands. -/
def GOp.subst (σ : ℕ → ℕ) : GOp V → GOp V
  | .conv c => .conv ⟨c.at_, σ c.x, σ c.w, c.b.map σ⟩
  | .concat axis l => .concat axis (l.map σ)
  | .split axis sizes i x => .split axis sizes i (σ x)
  | .other l f => .other (l.map σ) f

/-- New operations after position `k`. -/
def insertAfter (k : ℕ) (new l : List (ℕ × GOp V)) : List (ℕ × GOp V) := l.take (k + 1) ++ new ++ l.drop (k + 1)

/-- The outcome of the pattern: it does not apply, it aborts, or it leaves a new function; with `true` the block is
sorted afterwards (`sortTopologically`). -/
inductive Res (V : Type) where
  | fail
  | crash
  | ok (g : Graph V) (sorted : Bool)

/-- The new weights, bias and convolution. Recompose.cpp lines 753-790. -/
def newNodes (fresh : ℕ) (c1 : ConvOp) (cs : List (ℕ × ConvOp)) : List (ℕ × GOp V) :=
  let bias := (cs.head?.bind fun p => p.2.b).isSome
  [(fresh, .concat 0 (cs.map fun p => p.2.w))] ++
  (if bias then [(fresh + 1, .concat 0 (cs.map fun p => p.2.b.getD 0))] else []) ++
  [(fresh + 2, .conv ⟨c1.at_, c1.x, fresh, if bias then some (fresh + 1) else none⟩)]

/-- The new Split. Recompose.cpp lines 822-831 and 43-82 (`emitSplitByChannels`). -/
def splitNodes (ty : ℕ → Option (List ℕ)) (fresh : ℕ) (cs : List (ℕ × ConvOp)) : List (ℕ × GOp V) :=
  (List.range cs.length).map fun i =>
    (fresh + 3 + i, .split 1 (cs.map fun p => (((ty p.1).getD []).getD 1 0 : ℤ)) i (fresh + 2))

/-- `replaceAllOpUsesWith` the outputs of Split. Recompose.cpp lines 832-834. -/
def splitName (fresh : ℕ) (cs : List ℕ) (v : ℕ) : ℕ := if v ∈ cs then fresh + 3 + cs.idxOf v else v

/-- `replaceOp(commonConcatOp, newConv)` -/
def concatName (fresh k v : ℕ) : ℕ := if v = k then fresh + 2 else v

/-- The function after the rewrite: the operations `gone` are erased, uses are renamed with `σ`. -/
def rewritten (g : Graph V) (at_ : ℕ) (new : List (ℕ × GOp V)) (gone : List ℕ) (σ : ℕ → ℕ) : Graph V :=
  ⟨((insertAfter at_ new g.nodes).filter fun p => p.1 ∉ gone).map fun p => (p.1, p.2.subst σ), g.outs.map σ⟩

/-- The conditions of the pattern. Recompose.cpp lines 656-742. -/
def matches_ (g : Graph V) (uses : ℕ → List (Option ℕ)) (ty : ℕ → Option (List ℕ)) (root : ℕ) (c1 : ConvOp)
    (cs : List (ℕ × ConvOp)) : Bool :=
  (ty c1.x).isSome && (ty root).isSome && 2 ≤ cs.length &&
  cs.all (fun p => cs.head?.all fun q => areCompatible ty q.2 p.2) && cs.length = (uses c1.x).length &&
  cs.all (fun p => (ty p.2.w).isSome && (ty p.1).isSome) &&
  cs.all fun p => reachable g uses (cs.map Prod.fst) p.1 = some false

/-- Recompose.cpp lines 654-843 (`matchAndRewrite`) at the convolution `root`. An operation that uses the input twice
is a candidate twice, and is erased twice. -/
def combine (uses : ℕ → List (Option ℕ)) (ty : ℕ → Option (List ℕ)) (fresh : ℕ) (g : Graph V) (root : ℕ) : Res V :=
  match convOf g root with
  | none => .fail
  | some c1 =>
    let cs := candidates g (uses c1.x)
    let ns := cs.map Prod.fst
    if matches_ g uses ty root c1 cs then
      if ns.Nodup then
        match commonConcat g uses none ns with
        | some (k, 1) => .ok (rewritten g (latest g ns) (newNodes fresh c1 cs) (k :: ns) (concatName fresh k)) false
        | _ => .ok (rewritten g (latest g ns) (newNodes fresh c1 cs ++ splitNodes ty fresh cs) ns
            (splitName fresh ns)) true
      else .crash
    else .fail

end Verif.Recompose
