import Mathlib.Data.List.Range
import Mathlib.Algebra.BigOperators.Group.List.Basic

/-!
# Model of parallel constant folding

Sources: `functionTransformer`, `/repo/src/Dialect/ONNX/ElementsAttr/ElementsAttrBuilder.hpp` 248-290,
and the parallel part of `reduce`, `ElementsAttrBuilder.cpp` 885-945. `parallelFor(ctx, 0, T, work)`
runs `work(0) … work(T-1)` on any threads in any order and interleaving and returns when all are
done. Offsets are unbounded integers (the code keeps them in `int`).
-/

namespace Verif.Par

/-- `fetchBatch(threadNumber, parallel = true)`: begin and end of the tile of thread `t` out of `T`
for `n` elements. -/
def tile (n T t : Nat) : Nat × Nat :=
  let tileSize := n / T
  let leftovers := n % T
  if t < leftovers then (t * (tileSize + 1), t * (tileSize + 1) + (tileSize + 1))
  else (t * tileSize + leftovers, t * tileSize + leftovers + tileSize)

/-- Elements of a tile, in the order of the loop over the range. -/
def tileItems (n T t : Nat) : List Nat :=
  let b := tile n T t
  List.range' b.1 (b.2 - b.1)

/-! ## Shared memory -/

/-- One memory access of a thread: reading a cell into the register of the thread, or writing a
function of the register to a cell. -/
inductive Acc (W : Type)
  | load (k : Nat)
  | store (k : Nat) (g : W → W)

/-- Cell an access touches. -/
def Acc.cell {W : Type} : Acc W → Nat
  | .load k => k
  | .store k _ => k

/-- Shared cells, and for every thread a register and the accesses it has not made yet. -/
structure St (W : Type) where
  mem : Nat → W
  reg : Nat → W
  todo : Nat → List (Acc W)

/-- One step of thread `t`; a finished thread does nothing. -/
def step {W : Type} (s : St W) (t : Nat) : St W :=
  match s.todo t with
  | [] => s
  | .load k :: rest =>
    { s with
      reg := fun u => if u = t then s.mem k else s.reg u
      todo := fun u => if u = t then rest else s.todo u }
  | .store k g :: rest =>
    { s with
      mem := fun c => if c = k then g (s.reg t) else s.mem c
      todo := fun u => if u = t then rest else s.todo u }

/-- A schedule is the sequence of threads that make a step. -/
def run {W : Type} (s : St W) (sched : List Nat) : St W := sched.foldl step s

/-- `work` of `functionTransformer`: `for (WideNum &n : tile) n = fun(n);`. -/
def transformWork {W : Type} (f : W → W) (items : List Nat) : List (Acc W) :=
  items.flatMap fun k => [.load k, .store k f]

/-- The body of `work` of `reduce` for one element `d` of the result, given the source elements that
reduce into it: `d = src[…]; while (…) d = reducer(d, src[…]);`. -/
def reduceBody {W : Type} (red : W → W → W) (k : Nat) (first : W) (rest : List W) : List (Acc W) :=
  .store k (fun _ => first) :: rest.flatMap fun x => [.load k, .store k fun d => red d x]

/-- `work` of `reduce`. The source is not written, so its elements are constants of the program. -/
def reduceWork {W : Type} (red : W → W → W) (first : Nat → W) (rest : Nat → List W)
    (items : List Nat) : List (Acc W) :=
  items.flatMap fun k => reduceBody red k (first k) (rest k)

/-- Start of `parallelFor` over `T` workers; other thread numbers have no work. -/
def start {W : Type} (mem reg : Nat → W) (T : Nat) (work : Nat → List (Acc W)) : St W :=
  { mem, reg, todo := fun t => if t < T then work t else [] }

/-- Every worker has returned. -/
def St.done {W : Type} (s : St W) : Prop := ∀ t, s.todo t = []

end Verif.Par
