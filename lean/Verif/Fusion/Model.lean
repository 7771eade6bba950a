import Verif.Fusion.Spec

/-!
# Model of the fusion of element-wise operations

Source: `/repo/src/Conversion/ONNXToKrnl/Math/Elementwise.cpp` 1660-2045 and 2063-2600, with
`ONNXBroadcastOpShapeHelper::getAccessExprs`, `/repo/src/Dialect/ONNX/ONNXOps/ShapeHelper.cpp` 716-819.

Simplifications: a value is a number; the blocks of nested regions are part of the operation they
belong to, so that an operand used there is an operand of that operation. Code without vectors
is modelled: the code with vectors does not fuse.
-/

namespace Verif.Fusion

variable {α : Type}

/-- What is known at compile time: which values are arguments of blocks (1879), which are constants
of an enclosing block, the shapes of their types, and the answers of the analysis of dimensions, if it
is there. -/
structure Ctx where
  isArg : Nat → Bool
  outerConst : Nat → Bool
  ty : Nat → List (Option Nat)
  same : Option (Nat → Nat → Bool)

/-- An operation fused with its producer: `none` is the result of the producer. -/
structure Step where
  kind : Kind
  ops : List (Option Nat)

/-- The operations of a block; `fused` is the loop nest of 2063-2600 with the code of 1955-2028. The
shape of the type of its buffer is that of the first operation, 1937-1944. -/
inductive Item (α : Type) where
  | const (id : Nat) (t : Tensor α)
  | elt (e : Elt)
  | other (id : Nat) (ops : List Nat) (f : List (Tensor α) → Option (Tensor α))
  | fused (id : Nat) (root : Elt) (steps : List Step)

/-- The result. -/
def Item.id : Item α → Nat
  | .const i _ => i
  | .elt e => e.id
  | .other i _ _ => i
  | .fused i _ _ => i

/-- The operands. -/
def Item.ops : Item α → List Nat
  | .const _ _ => []
  | .elt e => e.ops
  | .other _ o _ => o
  | .fused _ r s => r.ops ++ s.flatMap fun st => st.ops.filterMap fun o => o

/-- `emitScalarOpFor`: the operations of one operand look at the first operand, those with their own
code and Max (1057-1071), Min (1082-1097) at the first two, DequantizeLinear (1439-1461) at the first
three; the others make one instruction of all the operands (ONNXToKrnlCommon.hpp 234-271), which must
be two. `none` is an access outside the array of the operands, or an instruction that cannot be made.
Mean makes an addition (Elementwise.hpp 433-437). -/
def emit (sem : Sem α) : Kind → List α → Option α
  | .unary k, x :: _ => some (sem.un k x)
  | .custom k, x :: y :: _ => some (sem.bin (3 * k) x y)
  | .prelu, x :: y :: _ => some (sem.bin 2 x y)
  | .max, x :: y :: _ => some (sem.max x y)
  | .min, x :: y :: _ => some (sem.min x y)
  | .deq _, x :: s :: z :: _ => some (sem.deq x s z)
  | .instr k, [x, y] => some (sem.bin (3 * k + 1) x y)
  | .sum, [x, y] => some (sem.add x y)
  | .mean, [x, y] => some (sem.add x y)
  | _, _ => none

/-- `emitPostProcessingFor`, 1359-1366. -/
def post (sem : Sem α) (k : Kind) (n : Nat) (v : α) : α :=
  match k with
  | .mean => sem.over v n
  | _ => v

/-- Is the pattern for operations of any number of operands used? -/
def variadic : Kind → Bool
  | .instr _ | .sum | .mean | .max | .min => true
  | _ => false

/-- The code for one element of the first operation: 2146-2152, 2334-2335, 2500-2515. -/
def rootScalar (sem : Sem α) (k : Kind) (vs : List α) : Option α :=
  if variadic k then
    match vs with
    | [] => none
    | x :: xs => (xs.foldlM (fun a v => emit sem k [a, v]) x).map (post sem k (xs.length + 1))
  else emit sem k vs

/-- The static extent at position `j` of `n`, with ones in front, ShapeHelper.cpp 381-404. -/
def padTy (n : Nat) (t : List (Option Nat)) (j : Nat) : Option Nat :=
  if j < n - t.length then some 1 else (t[j - (n - t.length)]?).getD none

/-- `getAccessExprs` for one dimension, ShapeHelper.cpp 751-815, without broadcasting having been ruled
out. -/
def accessDim (flatLast : Bool) (st : Option Nat) (rt : Nat) (othersOne : Bool) (loop : Nat) : Nat :=
  if st = some 1 then 0
  else if othersOne then loop
  else if flatLast then loop
  else if 1 < rt then loop
  else 0

/-- `getAccessExprs`, ShapeHelper.cpp 716-819: type `t` and shape `s` of the operand, types of the other
operands, indices of the loops. -/
def access (flat : Bool) (t : List (Option Nat)) (s : List Nat) (others : List (List (Option Nat)))
    (idx : List Nat) : List Nat :=
  (List.range t.length).map fun r =>
    accessDim (flat && r + 1 == t.length) ((t[r]?).getD none) (s.getD r 0)
      (others.all fun o => padTy idx.length o (idx.length - t.length + r) == some 1)
      (idx.getD (idx.length - t.length + r) 0)

/-- The element of operand `i` of the first operation. Operations of one operand read it at the indices
of the loops, 2131, and the further operands of DequantizeLinear as scalars, 2134-2143; the others use
`getAccessExprs`, 2318-2332, 2485-2507. -/
def rootRead (k : Kind) (tys : List (List (Option Nat))) (t : Tensor α) (i : Nat) (idx : List Nat) :
    Option α :=
  match k with
  | .unary _ => t.read idx
  | .deq _ => if i = 0 then t.read idx else t.read []
  | _ => t.read (access false (tys.getD i []) t.shape (tys.eraseIdx i) idx)

/-- The element of the result of the first operation. -/
def rootElt (sem : Sem α) (k : Kind) (tys : List (List (Option Nat))) (ts : List (Tensor α))
    (idx : List Nat) : Option α :=
  (ts.zipIdx.mapM fun (ti : Tensor α × Nat) => rootRead k tys ti.1 ti.2 idx).bind (rootScalar sem k)

/-- An operand of a fused operation, 2006-2022: the value of the producer, or an element loaded with
`getAccessExprs`, `flattenedInnerDims` being set. -/
def fusedRead (tys : List (List (Option Nat))) (v : Option α) (o : Option (Tensor α)) (i : Nat)
    (idx : List Nat) : Option α :=
  match o with
  | none => v
  | some t => t.read (access true (tys.getD i []) t.shape (tys.eraseIdx i) idx)

/-- `emitFuseOps` for one operation, 1958-2027. `tys` are the types of its operands, with the type of
the buffer for the result of the producer, 1996. -/
def stepElt (sem : Sem α) (k : Kind) (tys : List (List (Option Nat))) (os : List (Option (Tensor α)))
    (idx : List Nat) (v : Option α) : Option α :=
  (os.zipIdx.mapM fun (oi : Option (Tensor α) × Nat) => fusedRead tys v oi.1 oi.2 idx).bind (emit sem k)

/-- The types of the operands of a fused operation. -/
def stepTys (ctx : Ctx) (root : Nat) (st : Step) : List (List (Option Nat)) :=
  st.ops.map fun o => ctx.ty (o.getD root)

/-- A fused operation with the tensors of its operands. -/
structure Loaded (α : Type) where
  kind : Kind
  tys : List (List (Option Nat))
  ops : List (Option (Tensor α))

/-- `emitFuseOps`, 1951-2029. -/
def chainElt (sem : Sem α) (idx : List Nat) : List (Loaded α) → Option α → Option α
  | [], v => v
  | l :: ls, v => chainElt sem idx ls (stepElt sem l.kind l.tys l.ops idx v)

/-- The tensor an operand stands for. -/
def resolve (env : Env α) : Option Nat → Option (Option (Tensor α))
  | none => some none
  | some v => (env v).map some

/-- Looking up the operands of a fused operation. -/
def load (ctx : Ctx) (root : Nat) (env : Env α) (st : Step) : Option (Loaded α) :=
  (st.ops.mapM (resolve env)).map fun os => ⟨st.kind, stepTys ctx root st, os⟩

/-- The loop nest: over the shape of the result of the first operation. -/
def fusedTensor (sem : Sem α) (ctx : Ctx) (root : Elt) (ts : List (Tensor α)) (ls : List (Loaded α)) :
    Option (Tensor α) :=
  (opShape root.kind (ts.map Tensor.shape)).map fun shape =>
    { shape := shape
      data := fun idx =>
        if inside shape idx then
          chainElt sem idx ls (rootElt sem root.kind (root.ops.map ctx.ty) ts idx)
        else none }

/-- The value of one operation; `none` if an operand has not been computed. An element-wise operation
computes what ONNX says. -/
def value (sem : Sem α) (ctx : Ctx) (env : Env α) : Item α → Option (Tensor α)
  | .const _ t => some t
  | .elt e => (e.ops.mapM env).bind (elementwise sem e.kind)
  | .other _ o f => (o.mapM env).bind f
  | .fused _ r steps => (r.ops.mapM env).bind fun ts =>
      (steps.mapM (load ctx r.id env)).bind (fusedTensor sem ctx r ts)

/-- Running a block. -/
def run (sem : Sem α) (ctx : Ctx) : Env α → List (Item α) → Option (Env α)
  | env, [] => some env
  | env, x :: xs => (value sem ctx env x).bind fun t => run sem ctx (Function.update env x.id (some t)) xs

/-- The number of uses of a value. -/
def uses (blk : List (Item α)) (d : Nat) : Nat := (blk.map fun x => x.ops.count d).sum

/-- The first user of a value, 1912. -/
def user (blk : List (Item α)) (d : Nat) : Option (Item α) := blk.find? fun x => x.ops.contains d

/-- The list of 1771-1793. PRelu is not in it. -/
def listed : Kind → Bool
  | .prelu => false
  | _ => true

/-- `isScalarTensor`, `/repo/src/Dialect/ONNX/ONNXOps/OpHelper.cpp` 868-872. -/
def isScalarTy (t : List (Option Nat)) : Bool := t == [] || t == [some 1]

/-- Is the item the constant `v`? -/
def Item.isConst (v : Nat) : Item α → Bool
  | .const i _ => i == v
  | _ => false

/-- Is the value defined by `ONNXConstantOp` in this block? -/
def isConst (blk : List (Item α)) (v : Nat) : Bool := blk.any (Item.isConst v)

/-- The comparison of the shapes of the results, 1899-1912. -/
def sameShape (ctx : Ctx) (d u : Nat) : Bool :=
  match ctx.same with
  | some s => s d u
  | none => (ctx.ty u).all Option.isSome && ctx.ty u == ctx.ty d

/-- `areInputsValidForFusion`, 1852-1916. -/
def inputsValid (ctx : Ctx) (blk : List (Item α)) (u : Elt) (d : Nat) : Bool :=
  if u.ops.all fun v => isScalarTy (ctx.ty v) then false
  else if u.ops.length = 1 then true
  else if ctx.ty d ≠ ctx.ty u.id then false
  else if !(u.ops.all fun v => ctx.isArg v || (v == d || (isConst blk v || ctx.outerConst v))) then false
  else sameShape ctx d u.id

/-- The operation that uses `d`, if it can be fused with the producer of `d`: 1767-1795, 1909-1914. An
operation of a nested region is not an element-wise operation of this block, 1799-1804. -/
def fusible (ctx : Ctx) (blk : List (Item α)) (d : Nat) : Option Elt :=
  if uses blk d = 1 then
    match user blk d with
    | some (.elt u) => if listed u.kind && inputsValid ctx blk u d then some u else none
    | _ => none
  else none

/-- `findFusibleOps`, 1921-1936; the number bounds the length. -/
def chain (ctx : Ctx) (blk : List (Item α)) : Nat → Nat → List Elt
  | 0, _ => []
  | n + 1, d =>
    match fusible ctx blk d with
    | some u => u :: chain ctx blk n u.id
    | none => []

/-- `defOp->isBeforeInBlock(constOp)` and `moveBefore`, 1974-1979: if `c` comes after `d`, it is put in
front of `d`. -/
def hoist (d c : Nat) : List (Item α) → List (Item α)
  | [] => []
  | x :: xs =>
    if x.id = d then
      match xs.find? (Item.isConst c) with
      | some it => it :: x :: xs.filter fun y => y.id != c
      | none => x :: xs
    else x :: hoist d c xs

/-- The constants among the operands of one fused operation, 1970-1979. `none`: a constant of another
block, for which `isBeforeInBlock` asserts. -/
def hoistOps (ctx : Ctx) (d : Nat) : List Nat → List (Item α) → Option (List (Item α))
  | [], blk => some blk
  | v :: vs, blk =>
    if v = d then hoistOps ctx d vs blk
    else if ctx.outerConst v then none
    else hoistOps ctx d vs (hoist d v blk)

/-- All the moves of `emitFuseOps`. -/
def hoistAll (ctx : Ctx) : Nat → List Elt → List (Item α) → Option (List (Item α))
  | _, [], blk => some blk
  | d, u :: us, blk => (hoistOps ctx d u.ops blk).bind (hoistAll ctx u.id us)

/-- The operations to be fused, with `none` for the result of the producer. -/
def steps : Nat → List Elt → List Step
  | _, [] => []
  | d, u :: us => ⟨u.kind, u.ops.map fun v => if v = d then none else some v⟩ :: steps u.id us

/-- The name of the last result. -/
def lastId : Nat → List Elt → Nat
  | d, [] => d
  | _, u :: us => lastId u.id us

/-- `replaceOrEraseONNXOps`, 2033-2045: the loop nest is where the first operation was, and stands for
the last one; the others are erased. -/
def replace (root : Elt) (us : List Elt) (blk : List (Item α)) : List (Item α) :=
  blk.flatMap fun x =>
    if x.id = root.id then [.fused (lastId root.id us) root (steps root.id us)]
    else if us.any fun u => u.id == x.id then [] else [x]

/-- The lowering of the first operation, 2063-2600, with everything that is fused with it. -/
def fuse (ctx : Ctx) (blk : List (Item α)) (root : Elt) : Option (List (Item α)) :=
  (hoistAll ctx root.id (chain ctx blk blk.length root.id) blk).map
    (replace root (chain ctx blk blk.length root.id))

end Verif.Fusion
