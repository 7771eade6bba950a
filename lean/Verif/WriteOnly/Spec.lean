import Mathlib.Data.List.Basic
import Mathlib.Tactic.Common

/-!
# Programs with buffers

A function after the lowering to Affine: operations with operands, results and declared memory
effects, and loops.  A value may point to a buffer.  A run gives values to variables, changes
buffers, and changes a world that stands for all the rest: what is printed, the state of the random
numbers, and so on.
-/

namespace Verif.WriteOnly

abbrev Var := ℕ

/-- The memory effects of MLIR. -/
inductive Eff
  | read | write | alloc | free
  deriving DecidableEq, Repr

/-- An operation.  `id` tells operations apart.  `iface` is whether its effects are known
(`MemoryEffectOpInterface`); `effects` are those effects, on an operand, on a result, or on no
value in particular.  `stored` is the value that an `affine.store`, `krnl.store` or `memref.store`
stores.  `code` stands for the rest: the kind of the operation and its attributes. -/
structure Op where
  id : ℕ
  isAlloc : Bool := false
  operands : List Var
  results : List Var
  iface : Bool := true
  effects : List (Eff × Option Var)
  stored : Option Var := none
  code : ℕ := 0
  deriving DecidableEq, Repr

/-- The head of a loop, or of another operation with a body that is run for some values of a
variable. -/
structure Head where
  id : ℕ
  isFor : Bool := true
  operands : List Var
  iv : Var
  code : ℕ := 0
  deriving DecidableEq, Repr

/-- A list of operations and loops. -/
inductive Code
  | nil
  | op (o : Op) (rest : Code)
  | loop (h : Head) (body rest : Code)
  deriving DecidableEq, Repr

/-- A function: its arguments, its code and the values it returns. -/
structure Func where
  args : List Var
  code : Code
  returns : List Var
  deriving DecidableEq, Repr

/-! ## Runs -/

variable {V M W : Type}

/-- What is known at a point of a run.  A buffer has the name of the variable that it was made for. -/
structure State (V M W : Type) where
  env : Var → Option V
  mem : Var → M
  world : W

/-- What operations do: `exec` takes the operation, the values of its operands, the buffers and the
world, and gives the values of its results, the buffers and the world, if it succeeds.  `trips` is
the list of the values that the variable of a loop takes.  `root` is the buffer that a value points
to. -/
structure Sem (V M W : Type) where
  exec : Op → List V → (Var → M) → W → Option (List V × (Var → M) × W)
  trips : Head → List V → List V
  root : V → Option Var

def setVars (env : Var → Option V) : List Var → List V → Var → Option V
  | x :: xs, v :: vs => setVars (Function.update env x (some v)) xs vs
  | _, _ => env

def stepWith (sem : Sem V M W) (o : Op) (vs : List V) (s : State V M W) : Option (State V M W) :=
  (sem.exec o vs s.mem s.world).map fun r => ⟨setVars s.env o.results r.1, r.2.1, r.2.2⟩

def step (sem : Sem V M W) (o : Op) (s : State V M W) : Option (State V M W) :=
  (o.operands.mapM s.env).bind fun vs => stepWith sem o vs s

def iterate (f : State V M W → Option (State V M W)) (iv : Var) :
    List V → State V M W → Option (State V M W)
  | [], s => some s
  | v :: vs, s =>
    (f ⟨Function.update s.env iv (some v), s.mem, s.world⟩).bind (iterate f iv vs)

def run (sem : Sem V M W) : Code → State V M W → Option (State V M W)
  | .nil => some
  | .op o rest => fun s => (step sem o s).bind (run sem rest)
  | .loop h body rest => fun s => (h.operands.mapM s.env).bind fun vs =>
      (iterate (run sem body) h.iv (sem.trips h vs) s).bind (run sem rest)

/-! ## What declared effects mean -/

/-- Whether an operation has an effect other than reading that is on no value in particular. -/
def Op.worldly (o : Op) : Prop := ∃ e, (e, none) ∈ o.effects ∧ e ≠ Eff.read

/-- Operations do what they declare. -/
structure Honest (sem : Sem V M W) (o : Op) : Prop where
  /-- What is done depends on the operands, the buffers they point to and the world; a buffer is
  given the same contents or is left alone. -/
  loc : ∀ {vs m m' w r}, sem.exec o vs m w = some r →
    (∀ v ∈ vs, ∀ b, sem.root v = some b → m b = m' b) →
    ∃ m1, sem.exec o vs m' w = some (r.1, m1, r.2.2) ∧
      ∀ b, m1 b = r.2.1 b ∨ (m1 b = m' b ∧ r.2.1 b = m b)
  /-- If the effects are known, only buffers change that are declared to. -/
  declared : o.iface = true → ∀ {vs m w r}, vs.length = o.operands.length →
    sem.exec o vs m w = some r → ∀ b, r.2.1 b ≠ m b →
    ∃ e x, (e, some x) ∈ o.effects ∧ e ≠ Eff.read ∧
      ((∃ v, (x, v) ∈ o.operands.zip vs ∧ sem.root v = some b) ∨ (x ∈ o.results ∧ b = x))
  /-- If the effects are known, the world changes only if that is declared. -/
  world : o.iface = true → ¬ o.worldly → ∀ {vs m w r}, sem.exec o vs m w = some r → r.2.2 = w
  /-- Results point to buffers of operands or to new buffers. -/
  pointers : ∀ {vs m w r}, sem.exec o vs m w = some r → ∀ v ∈ r.1, ∀ b, sem.root v = some b →
    (∃ v' ∈ vs, sem.root v' = some b) ∨ b ∈ o.results
  /-- An allocation points to its own buffer. -/
  alloc : o.isAlloc = true → ∀ {vs m w r}, sem.exec o vs m w = some r → ∀ v ∈ r.1, ∀ b,
    sem.root v = some b → b ∈ o.results

/-- The operations of a piece of code. -/
def Code.ops : Code → List Op
  | .nil => []
  | .op o rest => o :: rest.ops
  | .loop _ body rest => body.ops ++ rest.ops

/-- The variables that a piece of code gives values to. -/
def Code.defs : Code → List Var
  | .nil => []
  | .op o rest => o.results ++ rest.defs
  | .loop h body rest => h.iv :: (body.defs ++ rest.defs)

/-- The numbers of the operations and loops. -/
def Code.ids : Code → List ℕ
  | .nil => []
  | .op o rest => o.id :: rest.ids
  | .loop h body rest => h.id :: (body.ids ++ rest.ids)

/-- An operation that changes one of its operands changes nothing but its operands, and it does so
by writing to them unless it has one operand only. -/
def Tame (o : Op) : Prop :=
  (∃ x ∈ o.operands, ∃ e, (e, some x) ∈ o.effects ∧ e ≠ Eff.read) →
    ∀ e y, (e, y) ∈ o.effects → e ≠ Eff.read →
      ∃ z ∈ o.operands, y = some z ∧ (e = Eff.write ∨ o.operands = [z])

/-- `memref.alloc`: one result, and no effect but that it is allocated. -/
def AllocForm (o : Op) : Prop :=
  o.isAlloc = true → o.iface = true ∧ ∃ x, o.results = [x] ∧ ∀ e y, (e, y) ∈ o.effects → y = some x

/-- Well-formed functions: the numbers of operations and loops are different, every variable is
defined once, and operations are as above. -/
structure WellFormed (f : Func) : Prop where
  ids : f.code.ids.Nodup
  defs : f.code.defs.Nodup
  alloc : ∀ o ∈ f.code.ops, AllocForm o
  tame : ∀ o ∈ f.code.ops, Tame o

/-- All operations are honest, and the variables of loops are numbers, not pointers. -/
structure HonestOn (sem : Sem V M W) (c : Code) : Prop where
  ops : ∀ o ∈ c.ops, Honest sem o
  trips : ∀ h vs, ∀ v ∈ sem.trips h vs, sem.root v = none

/-! ## The same results -/

/-- A state in which a function may start: nothing that the function defines has a value yet, and no
value points to a buffer that the function makes. -/
structure Starts (sem : Sem V M W) (f : Func) (s : State V M W) : Prop where
  arg : ∀ x v, s.env x = some v → x ∉ f.code.defs
  apart : ∀ x v b, s.env x = some v → sem.root v = some b → b ∉ f.code.defs

/-- Whatever `f` computes, `g` computes as well: the same values are returned, the world is the
same, and so are the buffers that arguments or returned values point to. -/
def SameResults (sem : Sem V M W) (f g : Func) : Prop :=
  ∀ s s', Starts sem f s → run sem f.code s = some s' →
    ∃ t', run sem g.code s = some t' ∧ t'.world = s'.world ∧
      (∀ x ∈ f.returns, t'.env x = s'.env x) ∧
      ∀ b, ((∃ x ∈ f.args, ∃ v, s.env x = some v ∧ sem.root v = some b) ∨
        (∃ x ∈ f.returns, ∃ v, s'.env x = some v ∧ sem.root v = some b)) → t'.mem b = s'.mem b

end Verif.WriteOnly
