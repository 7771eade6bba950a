import Verif.WriteOnly.Spec

/-!
# The removal of buffers that are only written

`/repo/src/Transform/EliminateWriteOnlyAlloc.cpp`.  Loops that carry values are left out.  A failed
assertion and the use of something that has been erased are `none`.
-/

namespace Verif.WriteOnly

/-- The variables that a piece of code uses, once for each use. -/
def Code.uses : Code → List Var
  | .nil => []
  | .op o rest => o.operands ++ rest.uses
  | .loop h body rest => h.operands ++ (body.uses ++ rest.uses)

/-- All uses in a function; the return is one of them. -/
def Func.uses (f : Func) : List Var := f.code.uses ++ f.returns

/-- The operations that use a variable, once for each use (`getUsers`), each with the loop around it
if that is an `affine.for` (211–213). -/
def Code.users (x : Var) : Option ℕ → Code → List (Op × Option ℕ)
  | _, .nil => []
  | p, .op o rest => (o.operands.filter (· == x)).map (fun _ => (o, p)) ++ Code.users x p rest
  | p, .loop h body rest =>
    Code.users x (if h.isFor then some h.id else none) body ++ Code.users x p rest

/-- Whether a variable is used by something other than an operation: by a loop, or by the return. -/
def Code.loopUses : Code → List Var
  | .nil => []
  | .op _ rest => rest.loopUses
  | .loop h body rest => h.operands ++ (body.loopUses ++ rest.loopUses)

/-- `getEffectsOnValue`. -/
def Op.effectsOn (o : Op) (x : Var) : List Eff :=
  o.effects.filterMap fun e => if e.2 = some x then some e.1 else none

/-- The test for one user in `isWriteOnlyAlloc` (52–64). -/
def writesOnly (x : Var) (o : Op) : Bool :=
  o.iface && !(o.effectsOn x).isEmpty && (o.effectsOn x).all (· != .read)

/-- `isWriteOnlyAlloc` (49–67).  Loops and the return do not have the interface. -/
def isWriteOnly (f : Func) (x : Var) : Bool :=
  (f.code.users x none).all (fun u => writesOnly x u.1) &&
    !(f.code.loopUses ++ f.returns).contains x

/-- The test for one user in `hasLiveCoWrite` (76–92). -/
def liveCoWrite (cands : List Var) (x : Var) (o : Op) : Bool :=
  !o.iface || o.operands.any fun y => y != x && (o.effectsOn y).contains .write && !cands.contains y

/-- `hasLiveCoWrite` (72–95). -/
def hasLiveCoWrite (f : Func) (cands : List Var) (x : Var) : Bool :=
  (f.code.users x none).any fun u => liveCoWrite cands x u.1

/-- The results of the allocations in the order of the walk (157–160, 195–200). -/
def Code.allocs (c : Code) : List Var := (c.ops.filter (·.isAlloc)).flatMap (·.results)

/-- One turn of the loop that prunes the candidates (175–188). -/
def pruneOnce (f : Func) (cands : List Var) : List Var :=
  cands.filter fun x => !hasLiveCoWrite f cands x

/-- The loop that prunes the candidates, until nothing changes (172–189). -/
def prune (f : Func) : ℕ → List Var → List Var
  | 0, cands => cands
  | n + 1, cands =>
    if (pruneOnce f cands).length = cands.length then cands else prune f n (pruneOnce f cands)

/-- The candidates that are eliminated, in the order of the program (154–200). -/
def toEliminate (f : Func) : List Var :=
  let cands := f.code.allocs.filter (isWriteOnly f)
  f.code.allocs.filter fun x => (prune f cands.length cands).contains x

/-- The code without the operation or loop with a given number. -/
def Code.erase (i : ℕ) : Code → Code
  | .nil => .nil
  | .op o rest => if o.id = i then Code.erase i rest else .op o (Code.erase i rest)
  | .loop h body rest =>
    if h.id = i then Code.erase i rest else .loop h (Code.erase i body) (Code.erase i rest)

/-- The variables defined by the operation or loop with a given number. -/
def Code.defsOf (i : ℕ) : Code → List Var
  | .nil => []
  | .op o rest => (if o.id = i then o.results else []) ++ Code.defsOf i rest
  | .loop h body rest =>
    (if h.id = i then h.iv :: body.defs else Code.defsOf i body) ++ Code.defsOf i rest

/-- `erase()` of an operation or a loop.  It must still be there, and nothing of what it defines may
be used by the rest. -/
def Func.erase (f : Func) (i : ℕ) : Option Func :=
  let g : Func := { f with code := f.code.erase i }
  if f.code.ids.contains i && (f.code.defsOf i).all (fun x => !g.uses.contains x) then some g
  else none

/-- The loop that erases the users (208–216).  An operation takes its other uses with it; `gone` are
the operations that have been erased.  The next use is looked up before the user is erased, so it
must not be one of the same operation. -/
def eraseUsers : List ℕ → List ℕ → Func → Option Func
  | _, [], f => some f
  | gone, u :: rest, f =>
    if gone.contains u then eraseUsers gone rest f
    else if (rest.filter fun v => !gone.contains v).head? = some u then none
    else (f.erase u).bind (eraseUsers (u :: gone) rest)

/-- `isMemoryEffectFree` of MLIR, which looks into loops. -/
def Code.effectFree : Code → Bool
  | .nil => true
  | .op o rest => (o.iface && o.effects.isEmpty) && rest.effectFree
  | .loop _ body rest => body.effectFree && rest.effectFree

/-- An operation without effects or with reads only (237–247). -/
def onlyReads (o : Op) : Bool := o.iface && o.effects.all (·.1 == .read)

/-- The operation that defines a variable. -/
def Code.defOp (x : Var) (c : Code) : Option Op := c.ops.find? (·.results.contains x)

/-- The variables of the loops. -/
def Code.ivs : Code → List Var
  | .nil => []
  | .op _ rest => rest.ivs
  | .loop h body rest => h.iv :: (body.ivs ++ rest.ivs)

/-- Erase the operation that a stored value comes from if nothing else uses it (223–248).  Once the
operation is gone, its value must not be looked at. -/
def cleanValue (x : Var) (f : Func) : Option Func :=
  if (f.args ++ f.code.ivs).contains x then some f
  else (f.code.defOp x).bind fun o =>
    if f.uses.contains x then some f else if onlyReads o then f.erase o.id else some f

/-- The test of the body in `isDeadAffineFor` (103–119): operations without uses that at most read,
and loops without any effects. -/
def deadBody (uses : List Var) : Code → Bool
  | .nil => true
  | .op o rest => o.results.all (fun x => !uses.contains x) && onlyReads o && deadBody uses rest
  | .loop _ body rest => body.effectFree && deadBody uses rest

/-- The body of the loop with a given number. -/
def Code.bodyOf (i : ℕ) : Code → Option Code
  | .nil => none
  | .op _ rest => Code.bodyOf i rest
  | .loop h body rest =>
    if h.id = i then some body else (Code.bodyOf i body).or (Code.bodyOf i rest)

/-- Erase a loop that an erased operation was in, if nothing in it matters (251–254).  A loop that
is gone must not be looked at. -/
def cleanLoop (i : ℕ) (f : Func) : Option Func :=
  (f.code.bodyOf i).bind fun body => if deadBody f.uses body then f.erase i else some f

def forAll (g : ℕ → Func → Option Func) : List ℕ → Func → Option Func
  | [], f => some f
  | i :: rest, f => (g i f).bind (forAll g rest)

/-- The number of the allocation of a variable. -/
def Code.allocId (x : Var) (c : Code) : Option ℕ :=
  ((c.ops.filter (·.isAlloc)).find? (·.results.contains x)).map (·.id)

/-- Eliminate one allocation (203–255).  `order` is the order of the list of uses, which depends on
how the function has come about. -/
def eliminateOne (order : List (Op × Option ℕ) → List (Op × Option ℕ)) (x : Var) (f : Func) :
    Option Func :=
  let us := order (f.code.users x none)
  (f.code.allocId x).bind fun a =>
    (eraseUsers [] (us.map (·.1.id)) f).bind fun f1 =>
      (f1.erase a).bind fun f2 =>
        (forAll cleanValue (us.eraseDups.filterMap (·.1.stored)) f2).bind fun f3 =>
          forAll cleanLoop (us.filterMap (·.2)).eraseDups f3

/-- The pass (151–256). -/
def eliminate (order : List (Op × Option ℕ) → List (Op × Option ℕ)) (f : Func) : Option Func :=
  forAll (eliminateOne order) (toEliminate f) f

end Verif.WriteOnly
