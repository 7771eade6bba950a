import Verif.Hoist.Model

/-!
# Moving buffers out of parallel loops (specification)
-/

namespace Verif.Hoist

variable {O S R V I : Type}

/-- The allocations of a piece of code. -/
def allocs : Code O S R V → List (ℕ × Size O R)
  | .nil => []
  | .act _ rest => allocs rest
  | .get _ _ _ rest => allocs rest
  | .put _ _ _ rest => allocs rest
  | .alloc b size rest => (b, size) :: allocs rest
  | .dealloc _ rest => allocs rest
  | .cond _ t e rest => allocs t ++ allocs e ++ allocs rest
  | .loop _ body rest => allocs body ++ allocs rest

/-- Every buffer has one allocation, as in any program in SSA form. -/
def Single (c : Code O S R V) : Prop := ((allocs c).map Prod.fst).Nodup

/-- The code has an allocation of `b` with a size known outside, not in an inner loop, followed by `rest` in its block. -/
inductive AllocAt (b : ℕ) (f : O → ℕ) (rest : Code O S R V) : Code O S R V → Prop
  | here : AllocAt b f rest (.alloc b (.outer f) rest)
  | act {g c} : AllocAt b f rest c → AllocAt b f rest (.act g c)
  | get {b' a g c} : AllocAt b f rest c → AllocAt b f rest (.get b' a g c)
  | put {b' a v c} : AllocAt b f rest c → AllocAt b f rest (.put b' a v c)
  | alloc {b' z c} : AllocAt b f rest c → AllocAt b f rest (.alloc b' z c)
  | dealloc {b' c} : AllocAt b f rest c → AllocAt b f rest (.dealloc b' c)
  | yes {q t e c} : AllocAt b f rest t → AllocAt b f rest (.cond q t e c)
  | no {q t e c} : AllocAt b f rest e → AllocAt b f rest (.cond q t e c)
  | cond {q t e c} : AllocAt b f rest c → AllocAt b f rest (.cond q t e c)
  | loop {n body c} : AllocAt b f rest c → AllocAt b f rest (.loop n body c)

/-- No interleaving leads to an error: reads and writes are of existing buffers, within bounds, and cells are written
before they are read. -/
def Safe (g : Region O S R V) (init : I → R) (o : ℕ → O) (x : Sys O S R V I) : Prop := ∀ js, run g init o js x ≠ none

end Verif.Hoist
