import Mathlib.Data.List.Basic

/-!
# Model of the pool of disposable constants

Source: `/repo/src/Dialect/ONNX/ElementsAttr/DisposablePool.cpp`. A constant is identified by the
number it got from the counter; its buffer is `none` once disposed. The program is the list of
constant attributes found by `walkOpsAttrs` (48-63). A failed assertion or `llvm_unreachable` gives
`none`.
-/

namespace Verif.Pool

/-- An attribute of the program: a disposable constant by number, or a dense constant by value. -/
inductive Attr (V : Type)
  | disp (id : Nat)
  | dense (v : V)

structure St (V : Type) where
  counter : Nat
  pool : List Nat
  buf : Nat → Option V
  active : Bool
  prog : List (Attr V)

/-- A fresh pool, DisposablePool.hpp 88-91; `prog` is any program without disposable constants. -/
def init {V : Type} (prog : List V) : St V :=
  { counter := 0, pool := [], buf := fun _ => none, active := true, prog := prog.map .dense }

/-- Numbers of the disposable constants in the program. -/
def used {V : Type} : List (Attr V) → List Nat
  | [] => []
  | .disp id :: as => id :: used as
  | .dense _ :: as => used as

/-- Reading an attribute; `none` is the failed assertion on a disposed constant,
DisposableElementsAttr.cpp 96-99. -/
def St.read {V : Type} (s : St V) : Attr V → Option V
  | .disp id => s.buf id
  | .dense v => some v

/-- `createElementsAttr` and `insert`, 26-42 and 171-181. The result is the attribute handed to the
caller. -/
def St.create {V : Type} (s : St V) (v : V) : Option (St V × Attr V) :=
  let id := s.counter + 1
  if s.active then
    if id ∈ s.pool then none
    else some ({ s with
      counter := id
      pool := id :: s.pool
      buf := fun i => if i = id then some v else s.buf i }, .disp id)
  else some ({ s with counter := id, buf := fun i => if i = id then none else s.buf i }, .dense v)

/-- `eraseUnreachable`, 183-196. -/
def St.erase {V : Type} (s : St V) (reachable : List Nat) : St V :=
  { s with
    pool := s.pool.filter fun i => decide (i ∈ reachable)
    buf := fun i => if i ∈ s.pool ∧ i ∉ reachable then none else s.buf i }

/-- `garbageCollectUnreachable`, 66-84. -/
def St.gc {V : Type} (s : St V) : Option (St V) :=
  let reachable := used s.prog
  if ∀ i ∈ reachable, i ∈ s.pool then some (s.erase reachable) else none

/-- Replacing the attributes of the program, 141-147, by what they were translated to. -/
def translate {V : Type} (buf : Nat → Option V) : List (Attr V) → Option (List (Attr V))
  | [] => some []
  | .dense v :: as => (translate buf as).map fun r => .dense v :: r
  | .disp id :: as => (buf id).bind fun v => (translate buf as).map fun r => .dense v :: r

/-- `scrub`, 86-157. The parallel translation is modelled in `Verif.Pool.Scrub`; here it happens in
one step and disposes what it translates. -/
def St.scrub {V : Type} (s : St V) : Option (St V) :=
  (translate s.buf s.prog).bind fun prog =>
    if ∀ i ∈ used s.prog, i ∈ s.pool then
      some (St.erase { s with
        prog, buf := fun i => if i ∈ used s.prog then none else s.buf i } [])
    else none

/-- `close`, 159-164. -/
def St.close {V : Type} (s : St V) : Option (St V) :=
  if s.pool = [] then some { s with active := false } else none

/-- What a client may do. Programs may be edited arbitrarily as long as they use constants that are
still in the pool. -/
inductive Step {V : Type} : St V → St V → Prop
  | create (s : St V) (v : V) {s' : St V} {a : Attr V} (h : s.create v = some (s', a)) : Step s s'
  | edit (s : St V) (prog : List (Attr V)) (h : ∀ i ∈ used prog, i ∈ s.pool) : Step s { s with prog }
  | gc (s : St V) {s' : St V} (h : s.gc = some s') : Step s s'
  | scrub (s : St V) {s' : St V} (h : s.scrub = some s') : Step s s'
  | close (s : St V) {s' : St V} (h : s.close = some s') : Step s s'

/-- States after any history. -/
inductive Reach {V : Type} : St V → Prop
  | init (prog : List V) : Reach (init prog)
  | step {s s' : St V} (h : Reach s) (hs : Step s s') : Reach s'

end Verif.Pool
