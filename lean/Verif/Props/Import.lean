import Verif.Builder.ImportOk

/-!
C81: importing an ONNX graph keeps its meaning.
-/

namespace Verif.Props

open Verif.Builder

variable {O L V : Type}

/-- Whatever the operations mean, the imported program computes what the ONNX graph does: same results, and failure when it fails. -/
theorem C81_import (ar : Arity O) (M : Meaning O L V) (funcs : String → Option (OFunction O L))
    (hf : ∀ f fn, funcs f = some fn → FunctionOk funcs fn) (fuel : ℕ) (g : OGraph O L) (hg : GraphOk funcs [] g)
    (r : SRegion O L) (h : importMain ar funcs fuel g = some r) (args : List (Option V)) :
    runRegion M (fun _ => none) r args = evalMain ar M funcs fuel g args := by
  unfold importMain at h
  obtain ⟨p, hp, e⟩ := Option.map_eq_some_iff.1 h
  subst e
  rw [importGraph_sound ar M funcs _ _ (importCall_mono ar funcs fuel) (importCall_sound ar M funcs hf fuel) [] [] 0 (fun _ => none) (fun _ => none)
    ⟨fun x _ h => by simp at h, fun x _ _ => rfl⟩ g hg p hp]
  rfl

/-- A valid graph without function calls is imported. -/
theorem C81_total (ar : Arity O) (fuel : ℕ) (g : OGraph O L) (hg : GraphOk (fun _ => none) [] g) :
    ∃ r, importMain ar (fun _ => none) fuel g = some r := by
  obtain ⟨r, hr⟩ := importGraph_ok' ar (importCall ar (fun _ => none) fuel) [] [] 0 (fun x _ => by simp [getByName]) g hg
  unfold importMain
  rw [hr]
  exact ⟨_, rfl⟩

/-- Valid graphs without calls: both together. -/
theorem C81_import_total (ar : Arity O) (M : Meaning O L V) (fuel : ℕ) (g : OGraph O L) (hg : GraphOk (fun _ => none) [] g) :
    ∃ r, importMain ar (fun _ => none) fuel g = some r ∧
      ∀ args : List (Option V), runRegion M (fun _ => none) r args = evalMain ar M (fun _ => none) fuel g args := by
  obtain ⟨r, hr⟩ := C81_total ar fuel g hg
  exact ⟨r, hr, C81_import ar M _ (fun _ _ h => by simp at h) fuel g hg r hr⟩

/-! ### Cases -/

/-- Subtraction with an optional second operand, a conditional with two branches, and an operation with three results. -/
def importOps : Meaning String ℤ ℤ where
  lit := id
  op := fun o args regions =>
    match o, args, regions with
    | "Sub", [some a, some b], _ => some [some (a - b)]
    | "Sub", [some a, none], _ => some [some a]
    | "If", [some c], [t, e] => if c ≠ 0 then t [] else e []
    | "Split", [some a], _ => some [some a, some (a + 1), some (a + 2)]
    | _, _, _ => none

def importArity : Arity String where
  operands := fun o => if o = "Sub" then some 2 else some 1
  results := fun o => if o = "Split" then some 3 else if o = "If" then none else some 1

/-- `d = Sub(x, w)`, `y = If(d) { Sub(x, d) } else { Twice(x, , …) }` with a function. -/
def importDemo : OGraph String ℤ :=
  .mk [("w", 3)] ["x", "w"]
    [.mk (.prim "Sub") ["x", "w"] ["d"] [],
     .mk (.prim "If") ["d"] ["y"]
      [.mk [] [] [.mk (.prim "Sub") ["x", "d"] ["t"] []] ["t"],
       .mk [("k", 7)] [] [.mk (.call "minus") ["k"] ["e"] []] ["e"]]]
    ["y", "d"]

/-- `minus(a, b) = Sub(Sub(a, b), a)`; `b` may be left out. -/
def importFuncs : String → Option (OFunction String ℤ) := fun f =>
  if f = "minus" then some ⟨["a", "b"], [.mk (.prim "Sub") ["a", "b"] ["s"] [], .mk (.prim "Sub") ["s", "a"] ["r"] []], ["r"]⟩ else none

theorem importFuncs_ok : ∀ f fn, importFuncs f = some fn → FunctionOk importFuncs fn := by
  intro f fn h
  unfold importFuncs at h
  split at h
  · rw [Option.some.injEq] at h
    subst h
    simp [FunctionOk, NodesOk, NodeOk, CallOk, GraphsOk, ONode.outs]
  · simp at h

theorem importDemo_ok : GraphOk importFuncs [] importDemo := by
  simp [importDemo, GraphOk, NodesOk, NodeOk, CallOk, GraphsOk, ONode.outs, importFuncs]

/-- The hypotheses hold of this graph, and both branches are taken. -/
example : ∃ r, importMain importArity importFuncs 1 importDemo = some r ∧
    runRegion importOps (fun _ => none) r [some 10] = some [some 3, some 7] ∧
    runRegion importOps (fun _ => none) r [some 3] = some [some 0, some 0] := by
  have h : (importMain importArity importFuncs 1 importDemo).isSome = true := by decide +kernel
  obtain ⟨r, hr⟩ := Option.isSome_iff_exists.1 h
  refine ⟨r, hr, ?_, ?_⟩
  · rw [C81_import importArity importOps importFuncs importFuncs_ok 1 importDemo importDemo_ok r hr]
    decide +kernel
  · rw [C81_import importArity importOps importFuncs importFuncs_ok 1 importDemo importDemo_ok r hr]
    decide +kernel

/-- A name that is not defined is not an error of the import: the operand is dropped, the next one takes its place, and the program
computes something where the graph has no meaning. -/
theorem C81_undefined_false : ∃ (g : OGraph String ℤ) (r : SRegion String ℤ) (args : List (Option ℤ)),
    importMain importArity (fun _ => none) 0 g = some r ∧ evalMain importArity importOps (fun _ => none) 0 g args = none ∧
    runRegion importOps (fun _ => none) r args = some [some 5] :=
  ⟨.mk [] ["x"] [.mk (.prim "Sub") ["nothing", "x"] ["y"] []] ["y"], .mk [0] [.none 1, .op "Sub" [0, 1] [] [2]] [2], [some 5],
    rfl, by decide +kernel, by decide +kernel⟩

/-- A subgraph that gives a name of the enclosing graph to another value (ONNX forbids it) uses the value of the enclosing graph. -/
theorem C81_shadow_false : ∃ (g : OGraph String ℤ) (r : SRegion String ℤ) (args : List (Option ℤ)),
    importMain importArity (fun _ => none) 0 g = some r ∧ evalMain importArity importOps (fun _ => none) 0 g args = some [some 1] ∧
    runRegion importOps (fun _ => none) r args = some [some 5] :=
  ⟨.mk [] ["x"] [.mk (.prim "If") ["x"] ["y"] [.mk [("x", 1)] [] [] ["x"], .mk [("x", 1)] [] [] ["x"]]] ["y"],
    .mk [0] [.op "If" [0] [.mk [] [.const 1 2] [0], .mk [] [.const 1 3] [0]] [1]] [1], [some 5],
    rfl, by decide +kernel, by decide +kernel⟩

/-- A function with an output that its body does not compute, as context dependent functions have. -/
def skipFuncs : String → Option (OFunction String ℤ) := fun f =>
  if f = "norm" then some ⟨["a"], [.mk (.prim "Split") ["a"] ["p", "q", ""] []], ["p", "mean", "q"]⟩ else none

/-- The values found are bound to the first names of the node: the output after the one left out is lost, and the import of a graph that
uses it fails. -/
theorem C81_call_outputs_false : ∃ g : OGraph String ℤ, GraphOk skipFuncs [] g ∧ importMain importArity skipFuncs 1 g = none ∧
    evalMain importArity importOps skipFuncs 1 g [some 5] = some [some 6] := by
  refine ⟨.mk [] ["x"] [.mk (.call "norm") ["x"] ["y", "", "s"] []] ["s"], ?_, rfl, by decide +kernel⟩
  simp [GraphOk, NodesOk, NodeOk, CallOk, GraphsOk, ONode.outs, skipFuncs]

/-- With the name of the output left out in use, it stands for the next output. -/
theorem C81_call_shift_false : ∃ (g : OGraph String ℤ) (r : SRegion String ℤ), GraphOk skipFuncs [] g ∧
    importMain importArity skipFuncs 1 g = some r ∧ evalMain importArity importOps skipFuncs 1 g [some 5] = some [none] ∧
    runRegion importOps (fun _ => none) r [some 5] = some [some 6] := by
  refine ⟨.mk [] ["x"] [.mk (.call "norm") ["x"] ["y", "m", "s"] []] ["m"], .mk [0] [.op "Split" [0] [] [1, 2, 3]] [2], ?_, rfl,
    by decide +kernel, by decide +kernel⟩
  simp [GraphOk, NodesOk, NodeOk, CallOk, GraphsOk, ONode.outs, skipFuncs]

/-- A call that leaves out the last outputs of a function makes the importer read past the names of the node. -/
theorem C81_call_fewer_false : ∃ g : OGraph String ℤ, importMain importArity
      (fun f => if f = "two" then some ⟨["a"], [.mk (.prim "Split") ["a"] ["p", "q", ""] []], ["p", "q"]⟩ else none) 1 g = none ∧
    evalMain importArity importOps
      (fun f => if f = "two" then some ⟨["a"], [.mk (.prim "Split") ["a"] ["p", "q", ""] []], ["p", "q"]⟩ else none) 1 g [some 5] = some [some 5] :=
  ⟨.mk [] ["x"] [.mk (.call "two") ["x"] ["y"] []] ["y"], rfl, by decide +kernel⟩

end Verif.Props
