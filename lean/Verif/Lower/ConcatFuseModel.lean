import Verif.Lower.MoveModel

/-!
Model of the fused operator ConcatShapeTranspose.

Source:
* /repo/src/Conversion/ONNXToKrnl/Tensor/ConcatShapeTranspose.cpp 30-170
* /repo/src/Dialect/ONNX/ONNXOps/Additional/ConcatShapeTranspose.cpp 37-145
* /repo/src/Dialect/ONNX/Transforms/Decompose.cpp 783-834

The axis is not negative (ConcatShapeTranspose.cpp 58); the dimensions are those at run time, where the sizes of the inputs agree.
-/

namespace Verif.Lower

variable {R : Type*}

/-- `transposedWriteIndices` (ConcatShapeTranspose.cpp 152-156). -/
def fusedWrite (perm : List ℕ) (w : Idx) : Idx := perm.map fun p => w.getD p 0

/-- The loop over one input (ConcatShapeTranspose.cpp 122-158). -/
def fusedOne (commonUB : List ℤ) (axis i : ℕ) (offset : ℤ) (perm : List ℕ) (m : Mem R) (out : Mem R) : Option (Mem R) :=
  iterate (commonUB.set axis (m.shape.getD axis 0)) (fun loopInd o =>
    (m.load loopInd).bind fun v => o.store (fusedWrite perm (concatWrite commonUB.length axis i offset loopInd)) v) out

/-- The loop over the inputs (ConcatShapeTranspose.cpp 116-162). -/
def fusedLoop (commonUB : List ℤ) (axis : ℕ) (perm : List ℕ) : List (Mem R) → ℕ → ℤ → Mem R → Option (Mem R)
  | [], _, _, out => some out
  | m :: rest, i, offset, out =>
    (fusedOne commonUB axis i offset perm m out).bind fun o =>
      fusedLoop commonUB axis perm rest (i + 1) (offset + m.shape.getD axis 0) o

/-- `normalizeClampedPerSpec` (ONNXOps/Additional/ConcatShapeTranspose.cpp 37-45). -/
def clampAxis (axis rank : ℤ) : ℤ :=
  let a := if axis < 0 then axis + rank else axis
  let a := if a < 0 then 0 else a
  if a > rank then rank else a

/-- The handling of negative values in the lowering, which does not clamp (ConcatShapeTranspose.cpp 90-93). -/
def wrapAxis (axis rank : ℤ) : ℤ := if axis < 0 then axis + rank else axis

/-- The stores of the sizes (ConcatShapeTranspose.cpp 102-107), `n` of them from `start`: an index outside of the vector of
dimensions is an assertion failure of the compiler, a store outside of the buffer is an error. -/
def shapeStores (dims : List ℤ) (start : ℤ) : ℕ → ℕ → Mem ℤ → Option (Mem ℤ)
  | 0, _, o => some o
  | n + 1, k, o =>
    if 0 ≤ start + k then
      (dims[(start + k).toNat]?).bind fun d => (o.store [(k : ℤ)] d).bind fun o' => shapeStores dims start n (k + 1) o'
    else none

/-- The first result (ConcatShapeTranspose.cpp 82-107); the buffer has the size of the shape inference, which asserts that start
is not greater than end (ONNXOps/Additional/ConcatShapeTranspose.cpp 108-113). -/
def fusedShape (dims : List ℤ) (start : ℤ) (stop : Option ℤ) (junk : Idx → ℤ) : Option (Mem ℤ) :=
  let rank : ℤ := dims.length
  let s := clampAxis start rank
  let e := clampAxis (stop.getD rank) rank
  if s ≤ e then
    let s' := wrapAxis start rank
    let e' := wrapAxis (stop.getD rank) rank
    shapeStores dims s' (e' - s').toNat 0 ⟨[e - s], junk⟩
  else none

/-- The operator (ConcatShapeTranspose.cpp 30-170): its two results. -/
def concatShapeTranspose (inputs : List (Mem R)) (axis : ℕ) (start : ℤ) (stop : Option ℤ) (perm : List ℕ)
    (junk1 : Idx → ℤ) (junk2 : Idx → R) : Option (Mem ℤ × Mem R) :=
  let dims := concatDims inputs axis
  (fusedShape dims start stop junk1).bind fun sh =>
    (fusedLoop dims axis perm inputs 0 0 ⟨transposeDims dims perm, junk2⟩).bind fun t => some (sh, t)

/-- The operations that use the result of a Concat. -/
inductive ConcatUser
  | shape | transpose | other
deriving DecidableEq

/-- The loop of `isConcatFuseMatched` (Decompose.cpp 796-803): whether a Shape and a Transpose were seen, and the failure. -/
def fuseScan : List ConcatUser → Bool × Bool × Bool → Bool × Bool × Bool
  | [], st => st
  | u :: us, (sh, tr, bad) =>
    if u = .shape ∧ sh = false then fuseScan us (true, tr, bad)
    else if u = .transpose ∧ tr = false then fuseScan us (sh, true, bad)
    else fuseScan us (sh, tr, true)

/-- `isConcatFuseMatched` (Decompose.cpp 791-805). -/
def fuseMatched (users : List ConcatUser) : Bool :=
  let (sh, tr, bad) := fuseScan users (false, false, false)
  sh && tr && !bad

end Verif.Lower
