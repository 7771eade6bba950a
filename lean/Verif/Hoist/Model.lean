import Mathlib.Logic.Function.Basic
import Mathlib.Data.List.Nodup

/-!
# Moving buffers out of parallel loops (model)

Source: /repo/src/Transform/BufferOMPLoopHoist.cpp 30-175.

A parallel region is run by several threads; each runs its share of the iterations of a loop (`omp.wsloop`), in an
interleaving with the others. The body of the loop allocates buffers, uses and frees them. The pass moves the allocation
in front of the loop and the release behind it, in the same parallel region, so that each thread allocates once.

Simplified: the buffer of an allocation can be reached only through the name of the allocation, by the thread that made
it; everything else that the body does with memory and values is an arbitrary step on a shared state and the values of
the iteration; a nested parallel region is part of such a step (the pass does not take buffers out of it, line 42).
-/

namespace Verif.Hoist

/-- The size of an allocation: from values defined outside the loop, or from values of the iteration. -/
inductive Size (O R : Type)
  | outer (f : O → ℕ)
  | inner (f : R → ℕ)

/-- Code, one constructor for the first operation of a block: an arbitrary step, a read and a write of a cell of a
buffer, an allocation and a release, a conditional and an inner loop with their blocks. -/
inductive Code (O S R V : Type)
  | nil
  | act (f : S → R → S × R) (rest : Code O S R V)
  | get (b : ℕ) (a : R → ℕ) (f : R → V → R) (rest : Code O S R V)
  | put (b : ℕ) (a : R → ℕ) (v : R → V) (rest : Code O S R V)
  | alloc (b : ℕ) (size : Size O R) (rest : Code O S R V)
  | dealloc (b : ℕ) (rest : Code O S R V)
  | cond (c : R → Bool) (t e rest : Code O S R V)
  | loop (n : R → ℕ) (body rest : Code O S R V)

variable {O S R V I : Type}

/-! ### The pass -/

/-- The number of releases of a buffer, which `memref::findDealloc` counts, BufferOMPLoopHoist.cpp 68-75. -/
def deallocs (b : ℕ) : Code O S R V → ℕ
  | .nil => 0
  | .act _ rest => deallocs b rest
  | .get _ _ _ rest => deallocs b rest
  | .put _ _ _ rest => deallocs b rest
  | .alloc _ _ rest => deallocs b rest
  | .dealloc b' rest => (if b' = b then 1 else 0) + deallocs b rest
  | .cond _ t e rest => deallocs b t + deallocs b e + deallocs b rest
  | .loop _ body rest => deallocs b body + deallocs b rest

/-- A release in the rest of the same block, BufferOMPLoopHoist.cpp 76-83. -/
def freedHere (b : ℕ) : Code O S R V → Bool
  | .nil => false
  | .act _ rest => freedHere b rest
  | .get _ _ _ rest => freedHere b rest
  | .put _ _ _ rest => freedHere b rest
  | .alloc _ _ rest => freedHere b rest
  | .dealloc b' rest => b' = b || freedHere b rest
  | .cond _ _ _ rest => freedHere b rest
  | .loop _ _ rest => freedHere b rest

/-- `areOperandsDefinedOutside`, BufferOMPLoopHoist.cpp 52-64. -/
def outerSize : Size O R → Option (O → ℕ)
  | .outer f => some f
  | .inner _ => none

/-- `HandleOneAlloc` without the check of the place, BufferOMPLoopHoist.cpp 101-117. -/
def handleOne (whole : Code O S R V) (b : ℕ) (size : Size O R) (rest : Code O S R V) : List (ℕ × (O → ℕ)) :=
  match outerSize size with
  | some f => if deallocs b whole = 1 ∧ freedHere b rest then [(b, f)] else []
  | none => []

/-- The walk that collects the allocations to move, BufferOMPLoopHoist.cpp 121-129; inner loops are left out by
`directlyNestedIn` (32-50). -/
def collect (whole : Code O S R V) : Code O S R V → List (ℕ × (O → ℕ))
  | .nil => []
  | .act _ rest => collect whole rest
  | .get _ _ _ rest => collect whole rest
  | .put _ _ _ rest => collect whole rest
  | .alloc b size rest => handleOne whole b size rest ++ collect whole rest
  | .dealloc _ rest => collect whole rest
  | .cond _ t e rest => collect whole t ++ collect whole e ++ collect whole rest
  | .loop _ _ rest => collect whole rest

/-- The body without the allocations and releases of some buffers, BufferOMPLoopHoist.cpp 132-143. -/
def strip (ids : List ℕ) : Code O S R V → Code O S R V
  | .nil => .nil
  | .act f rest => .act f (strip ids rest)
  | .get b a f rest => .get b a f (strip ids rest)
  | .put b a v rest => .put b a v (strip ids rest)
  | .alloc b size rest => if b ∈ ids then strip ids rest else .alloc b size (strip ids rest)
  | .dealloc b rest => if b ∈ ids then strip ids rest else .dealloc b (strip ids rest)
  | .cond c t e rest => .cond c (strip ids t) (strip ids e) (strip ids rest)
  | .loop n body rest => .loop n (strip ids body) (strip ids rest)

/-- The allocations in front of the loop, BufferOMPLoopHoist.cpp 132-137. -/
def before : List (ℕ × (O → ℕ)) → Code O S R V
  | [] => .nil
  | (b, f) :: l => .alloc b (.outer f) (before l)

/-- The releases behind the loop, BufferOMPLoopHoist.cpp 138-143: each is moved directly behind the loop, so that the
last one comes first. -/
def behind : List ℕ → Code O S R V
  | [] => .nil
  | b :: l => .dealloc b (behind l)

/-- A parallel region: what comes before the loop, the body, what comes behind. -/
structure Region (O S R V : Type) where
  pre : Code O S R V
  body : Code O S R V
  post : Code O S R V

/-- The loop alone. -/
def plain (body : Code O S R V) : Region O S R V := ⟨.nil, body, .nil⟩

/-- `HandleOneLoop`, BufferOMPLoopHoist.cpp 119-144. -/
def hoist (body : Code O S R V) : Region O S R V :=
  let H := collect body body
  ⟨before H, strip (H.map Prod.fst) body, behind (H.map Prod.fst).reverse⟩

/-! ### Running a region -/

/-- The buffers of a thread: size and cells; none for a cell that has not been written. -/
abbrev Bufs (V : Type) := ℕ → Option (ℕ × (ℕ → Option V))

/-- A thread: iterations to do, code to run, whether the code behind the loop has been reached, values, buffers. -/
structure Thread (O S R V I : Type) where
  its : List I
  stack : List (Code O S R V)
  leaving : Bool
  regs : R
  bufs : Bufs V

/-- The value of a size. -/
def Size.eval (o : O) (r : R) : Size O R → ℕ
  | .outer f => f o
  | .inner f => f r

/-- A read. It fails for a buffer that does not exist, outside its bounds and in a cell never written. -/
def read (m : Bufs V) (b a : ℕ) : Option V :=
  match m b with
  | none => none
  | some (n, c) => if a < n then c a else none

/-- A write. -/
def write (m : Bufs V) (b a : ℕ) (v : V) : Option (Bufs V) :=
  match m b with
  | none => none
  | some (n, c) => if a < n then some (Function.update m b (some (n, Function.update c a (some v)))) else none

/-- A release. -/
def free (m : Bufs V) (b : ℕ) : Option (Bufs V) :=
  match m b with
  | none => none
  | some _ => some (Function.update m b none)

/-- One operation: the new state and the code that follows. None is an error. -/
def exec (o : O) (s : S) (r : R) (m : Bufs V) : Code O S R V → Option (S × R × Bufs V × List (Code O S R V))
  | .nil => some (s, r, m, [])
  | .act f rest => some ((f s r).1, (f s r).2, m, [rest])
  | .get b a f rest => (read m b (a r)).map fun v => (s, f r v, m, [rest])
  | .put b a v rest => (write m b (a r) (v r)).map fun m' => (s, r, m', [rest])
  | .alloc b size rest => some (s, r, Function.update m b (some (size.eval o r, fun _ => none)), [rest])
  | .dealloc b rest => (free m b).map fun m' => (s, r, m', [rest])
  | .cond c t e rest => some (s, r, m, [if c r then t else e, rest])
  | .loop n body rest => some (s, r, m, List.replicate (n r) body ++ [rest])

/-- One step of a thread: `o` are its values from outside the loop, `init` gives the values at the start of an
iteration. -/
def step (g : Region O S R V) (init : I → R) (o : O) (s : S) (t : Thread O S R V I) : Option (S × Thread O S R V I) :=
  match t.stack with
  | c :: k => (exec o s t.regs t.bufs c).map fun x => (x.1, ⟨t.its, x.2.2.2 ++ k, t.leaving, x.2.1, x.2.2.1⟩)
  | [] =>
    match t.its with
    | i :: is => some (s, ⟨is, [g.body], t.leaving, init i, t.bufs⟩)
    | [] => if t.leaving then some (s, t) else some (s, ⟨[], [g.post], true, t.regs, t.bufs⟩)

/-- All threads. -/
structure Sys (O S R V I : Type) where
  shared : S
  th : ℕ → Thread O S R V I

/-- A step of thread `j`. -/
def sysStep (g : Region O S R V) (init : I → R) (o : ℕ → O) (x : Sys O S R V I) (j : ℕ) : Option (Sys O S R V I) :=
  (step g init (o j) x.shared (x.th j)).map fun y => ⟨y.1, Function.update x.th j y.2⟩

/-- A run: the list says which thread does the next step. None is an error. -/
def run (g : Region O S R V) (init : I → R) (o : ℕ → O) : List ℕ → Sys O S R V I → Option (Sys O S R V I)
  | [], x => some x
  | j :: js, x =>
    match sysStep g init o x j with
    | none => none
    | some y => run g init o js y

/-- The start: every thread has its share of the iterations and no buffers. -/
def start (g : Region O S R V) (s : S) (r : ℕ → R) (share : ℕ → List I) : Sys O S R V I :=
  ⟨s, fun j => ⟨share j, [g.pre], false, r j, fun _ => none⟩⟩

/-- A thread that has done everything. -/
def Thread.finished (t : Thread O S R V I) : Prop := t.its = [] ∧ t.stack = [] ∧ t.leaving = true

end Verif.Hoist
