import Verif.Ownership.Spec
/-!
# The memory of inputs and outputs: model (C112)

Models `/repo/src/Conversion/KrnlToLLVM/ConvertKrnlToLLVM.cpp:80-173` (which outputs own their
memory), `/repo/src/Conversion/KrnlToLLVM/KrnlEntryPoint.cpp:300-345` (the tensors of the outputs),
`/repo/src/Runtime/OMTensor.inc:259-272`, `/repo/src/Runtime/OMTensorList.inc:68-119`,
`ExecutionSession::run` (`/repo/src/Runtime/ExecutionSession.cpp:336-383`) and
`PyExecutionSession::pyRunImplementation`
(`/repo/src/Runtime/python/PyExecutionSession.cpp:128-385`).

Simplified: the structure of a tensor with shape and strides is one block, and so is a list with
its array; allocations succeed.
-/
namespace Verif.Ownership

/-- `shouldOwn` (ConvertKrnlToLLVM.cpp:80-125): views are traced back, values without a defining
operation and constants are not owned, for a selection both values must be. -/
def shouldOwn : Src → Bool
  | .arg _ => false
  | .join _ _ _ => false
  | .view s _ => shouldOwn s
  | .global _ => false
  | .select _ t f => shouldOwn t && shouldOwn f
  | .alloc _ => true

/-- `determineOwnershipForOutputOMTensors` (ConvertKrnlToLLVM.cpp:127-173): of the first entry
point only. -/
def ownerships (entries : List (List Src)) : List Bool :=
  match entries with
  | [] => []
  | outputs :: _ => outputs.map shouldOwn

/-- A tensor: the block of the structure, the data, whether it owns the data. -/
structure Omt where
  meta_ : Nat
  data : Ptr
  owning : Bool

/-- `omTensorDestroy` (OMTensor.inc:259-272). -/
def omTensorDestroy (h : Heap) (t : Omt) : Option Heap :=
  if t.owning then
    match t.data.place with
    | .heap b => (h.free b).bind (·.free t.meta_)
    | .static _ => none
  else h.free t.meta_

/-- Tensors destroyed one after the other. -/
def destroyAll : Heap → List Omt → Option Heap
  | h, [] => some h
  | h, t :: ts => (omTensorDestroy h t).bind (destroyAll · ts)

/-- `omTensorListDestroy` (OMTensorList.inc:93-105). -/
def omTensorListDestroy (h : Heap) (list : Nat) (ts : List Omt) : Option Heap :=
  (destroyAll h ts).bind (·.free list)

/-- A compiled model: the entry points with the values they return, the number of buffers a run
creates, whether it fails. -/
structure Prog where
  entries : List (List Src)
  entry : Nat
  buffers : Nat
  fails : Bool

/-- The values returned. -/
def Prog.outputs (p : Prog) : List Src := (p.entries[p.entry]?).getD []

/-- The compiled function (a contract of MLIR's buffer deallocation): of the buffers it creates,
those which are not returned are freed again. -/
def runBuffers (p : Prog) (choice : Nat → Bool) (h : Heap) : Heap :=
  { live := fun b => h.live b ||
      (h.next ≤ b && b < h.next + p.buffers &&
        (p.outputs.filterMap (newBuffer choice)).any fun k => h.next + k = b)
    next := h.next + p.buffers }

/-- The tensors of the outputs (KrnlEntryPoint.cpp:303-333). -/
def wrap (args : Nat → Ptr) (base : Nat) (choice : Nat → Bool) :
    Heap → List (Src × Bool) → Heap × List Omt
  | h, [] => (h, [])
  | h, (s, own) :: rest =>
    let (m, h) := h.alloc
    let (h, ts) := wrap args base choice h rest
    (h, ⟨m, eval args base choice s, own⟩ :: ts)

/-- The entry point: the tensors returned and the block of their list; `none` when it fails. -/
def entryPoint (p : Prog) (choice : Nat → Bool) (args : Nat → Ptr) (h : Heap) :
    Heap × Option (List Omt × Nat) :=
  if p.fails then (h, none)
  else
    let base := h.next
    let h := runBuffers p choice h
    let (h, ts) := wrap args base choice h (p.outputs.zip (ownerships p.entries))
    let (l, h) := h.alloc
    (h, some (ts, l))

/-- Arguments by number. -/
def argOf (ins : List Omt) (i : Nat) : Ptr :=
  match ins[i]? with
  | some t => t.data
  | none => ⟨.static 0, 0⟩

/-! ## C++ -/

/-- What a run gives: a result or an exception. -/
inductive Outcome (α : Type)
  | ok (a : α)
  | throws

/-- `ExecutionSession::run` on a vector (ExecutionSession.cpp:336-383): the inputs, which are
unique pointers passed by value, are destroyed when it returns; the outputs are unique pointers. -/
def cppRun (p : Prog) (choice : Nat → Bool) (h : Heap) (ins : List Omt) :
    Option (Heap × Outcome (List Omt)) :=
  let (list, h) := h.alloc
  let (h, out) := entryPoint p choice (argOf ins) h
  match h.free list with
  | none => none
  | some h =>
    match out with
    | none => (destroyAll h ins).map fun h => (h, .throws)
    | some (ts, l) =>
      (h.free l).bind fun h => (destroyAll h ins).map fun h => (h, .ok ts)

/-- The user drops outputs: each number is a position among those that are left. -/
def cppDrops (h : Heap) (ts : List Omt) : List Nat → Option (Heap × List Omt)
  | [] => some (h, ts)
  | i :: is =>
    match ts[i]? with
    | none => cppDrops h ts is
    | some t => (omTensorDestroy h t).bind fun h => cppDrops h (ts.eraseIdx i) is

/-! ## Python -/

/-- The type of the elements of an array. -/
inductive Kind
  | numeric
  | string
  | unsupported
  deriving DecidableEq

/-- A numpy array that is passed as input. -/
structure PyIn where
  data : Ptr
  contiguous : Bool
  writeable : Bool
  kind : Kind

/-- One input (PyExecutionSession.cpp:156-250): data that is not writeable is copied. -/
def addInput (h : Heap) (i : PyIn) : Heap × Outcome Omt :=
  if !i.contiguous then (h, .throws)
  else
    let (data, own, h) :=
      if i.writeable then (i.data, false, h)
      else
        let (b, h) := h.alloc
        ((⟨.heap b, 0⟩ : Ptr), true, h)
    match i.kind with
    | .unsupported => (h, .throws)
    | .string =>
      let (b, h) := h.alloc
      let (m, h) := h.alloc
      (h, .ok ⟨m, ⟨.heap b, 0⟩, true⟩)
    | .numeric =>
      let (m, h) := h.alloc
      (h, .ok ⟨m, data, own⟩)

/-- All inputs: an exception leaves what was done. -/
def addInputs : Heap → List PyIn → Heap × Outcome (List Omt)
  | h, [] => (h, .ok [])
  | h, i :: is =>
    match addInput h i with
    | (h, .throws) => (h, .throws)
    | (h, .ok t) =>
      match addInputs h is with
      | (h, .throws) => (h, .throws)
      | (h, .ok ts) => (h, .ok (t :: ts))

/-- What keeps the memory of an array: the array itself, or a capsule, which is found by the data
pointer. -/
inductive Base
  | own (b : Nat)
  | capsule (key : Ptr)
  deriving DecidableEq

/-- A numpy array that is a result. -/
structure Arr where
  data : Ptr
  base : Base

/-- The capsules: the data pointer under which each is kept, and what it frees. -/
abbrev Caps := List (Ptr × Place)

/-- `mapPtrCapsule.find`. -/
def Caps.find (c : Caps) (key : Ptr) : Option Place := (List.find? (fun e => e.1 = key) c).map (·.2)

/-- The capsule for a data pointer is created once (PyExecutionSession.cpp:341-352). -/
def Caps.add (caps : Caps) (key : Ptr) : Caps :=
  match caps.find key with
  | some _ => caps
  | none => caps ++ [(key, key.place)]

/-- The loop over the outputs (PyExecutionSession.cpp:285-368): arrays, capsules and the tensors,
which no longer own what went to a capsule. -/
def outLoop (force : Bool) : Heap → Caps → List Omt → Heap × Caps × List Omt × List Arr
  | h, caps, [] => (h, caps, [], [])
  | h, caps, t :: ts =>
    if t.owning && !force then
      let (h, caps, ts, as) := outLoop force h (caps.add t.data) ts
      (h, caps, { t with owning := false } :: ts, ⟨t.data, .capsule t.data⟩ :: as)
    else
      let (b, h) := h.alloc
      let (h, caps, ts, as) := outLoop force h caps ts
      (h, caps, t :: ts, ⟨⟨.heap b, 0⟩, .own b⟩ :: as)

/-- What Python has after a run. -/
structure PySt where
  heap : Heap
  caps : Caps
  arrays : List Arr

/-- `pyRunImplementation`; `none` stands for a crash.  `runImplementation` throws when the entry
point fails (ExecutionSession.cpp:424-430), so that nothing is destroyed. -/
def pyRun (p : Prog) (choice : Nat → Bool) (force : Bool) (h : Heap) (ins : List PyIn) :
    Option (Heap × Outcome PySt) :=
  match addInputs h ins with
  | (h, .throws) => some (h, .throws)
  | (h, .ok omts) =>
    let (list, h) := h.alloc
    match entryPoint p choice (argOf omts) h with
    | (h, none) => some (h, .throws)
    | (h, some (ts, l)) =>
      let (h, caps, ts, arrays) := outLoop force h [] ts
      (omTensorListDestroy h l ts).bind fun h =>
        (omTensorListDestroy h list omts).map fun h => (h, .ok ⟨h, caps, arrays⟩)

/-- A capsule frees what it keeps. -/
def freeCapsule (h : Heap) (caps : Caps) (key : Ptr) : Option Heap :=
  match caps.find key with
  | some (.heap b) => h.free b
  | _ => none

/-- What is freed with an array: a capsule with the last array that uses it. -/
def release (st : PySt) (rest : List Arr) (base : Base) : Option PySt :=
  match base with
  | .own b => (st.heap.free b).map fun h => { st with heap := h, arrays := rest }
  | .capsule key =>
    if rest.any fun a' => a'.base = .capsule key then some { st with arrays := rest }
    else (freeCapsule st.heap st.caps key).map fun h => { st with heap := h, arrays := rest }

/-- Dropping an array. -/
def pyDrop (st : PySt) (i : Nat) : Option PySt :=
  match st.arrays[i]? with
  | none => some st
  | some a => release st (st.arrays.eraseIdx i) a.base

/-- Arrays are dropped: each number is a position among those that are left. -/
def pyDrops : PySt → List Nat → Option PySt
  | st, [] => some st
  | st, i :: is => (pyDrop st i).bind (pyDrops · is)

/-! ## What is assumed of tensors and models -/

/-- The data a tensor owns. -/
def ownBlocks (t : Omt) : List Nat :=
  if t.owning then
    match t.data.place with
    | .heap b => [b]
    | .static _ => []
  else []

/-- What is freed with a tensor. -/
def blocks (t : Omt) : List Nat := ownBlocks t ++ [t.meta_]

/-- Tensors own data on the heap only. -/
def GoodOwn (t : Omt) : Prop := t.owning = true → ∃ b, t.data.place = .heap b

/-- What is assumed of a compiled model: the entry point is the first one, values are of the
simple forms. -/
structure Prog.Ok (p : Prog) (choice : Nat → Bool) : Prop where
  succeeds : p.fails = false
  first : p.entry = 0
  plain : ∀ s ∈ p.outputs, s.Plain
  below : ∀ s ∈ p.outputs, ∀ k, newBuffer choice s = some k → k < p.buffers

end Verif.Ownership
