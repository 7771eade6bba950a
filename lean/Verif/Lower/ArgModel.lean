import Verif.Lower.MoveLemmas
import Mathlib.Data.Nat.Log

/-!
Model of the lowerings of ArgMin, ArgMax, Hardmax, CumSum and Trilu.

Source:
* /repo/src/Conversion/ONNXToKrnl/Tensor/ArgMinMax.cpp 20-156
* /repo/src/Dialect/ONNX/ONNXOps/Tensor/ArgMinMax.cpp 27-66
* /repo/src/Conversion/ONNXToKrnl/Math/Hardmax.cpp 24-152
* /repo/src/Conversion/ONNXToKrnl/Math/CumSum.cpp 23-243
* /repo/src/Conversion/ONNXToKrnl/Math/Trilu.cpp 26-84

Memory that was allocated but not written holds an arbitrary function `junk`.
-/

namespace Verif.Lower

variable {R : Type*}

/-! ### ArgMin and ArgMax -/

/-- The operators sharing the lowering. -/
inductive ArgKind where
  | min | max
  deriving DecidableEq, Repr

/-- `getCondition` (ArgMinMax.cpp 26-36): `lt` is the comparison emitted by
`MathBuilder::slt`; `sgt` is the same with swapped operands. -/
def ArgKind.better (lt : R → R → Bool) : ArgKind → R → R → Bool
  | .min, next, cur => lt next cur
  | .max, next, cur => lt cur next

/-- Output dimensions (ONNXOps/Tensor/ArgMinMax.cpp 48-64). -/
def argDims (dims : List ℤ) (axis : ℕ) (keep : Bool) : List ℤ :=
  (List.range (if keep then dims.length else dims.length - 1)).map fun i =>
    if keep then (if i ≠ axis then dims.getD i 0 else 1)
    else if i < axis then dims.getD i 0 else dims.getD (i + 1) 0

/-- The set of reduced dimensions given to `getReductionMapping` (ArgMinMax.cpp 85-89). -/
def axisMask (rank axis : ℕ) : List Bool := (List.replicate rank false).set axis true

/-- Index of the current best value (ArgMinMax.cpp 134-141). -/
def dstIndex (loopInd : Idx) (axis : ℕ) (idx : ℤ) : Idx :=
  (List.range loopInd.length).map fun i => if i ≠ axis then loopInd.getD i 0 else idx

/-- New value of the position held for an output element (ArgMinMax.cpp 127-149). -/
def argStep (lt : R → R → Bool) (kind : ArgKind) (data : Mem R) (axis : ℕ) (i : Idx) (idx : ℤ) :
    Option ℤ :=
  (data.load i).bind fun next =>
    let idx := if idx < 0 then 0 else idx
    (data.load (dstIndex i axis idx)).map fun dst =>
      if kind.better lt next dst then i.getD axis 0 else idx

/-- The whole lowering (ArgMinMax.cpp 45-155): `none` is an assertion failure (line 79) or
an access out of bounds.  The attribute `select_last_index` is not read. -/
def argMinMax (lt : R → R → Bool) (kind : ArgKind) (data : Mem R) (axis : ℤ) (keep : Bool)
    (_selectLast : Bool) (junk : Idx → ℤ) : Option (Mem ℤ) :=
  let rank := data.shape.length
  if ¬ (-(rank : ℤ) ≤ axis ∧ axis ≤ rank - 1) then none
  else
    let ax := (if axis ≥ 0 then axis else rank + axis).toNat
    let dims := argDims data.shape ax keep
    let map := reductionMapping keep (axisMask rank ax)
    (fill ⟨dims, junk⟩ fun _ => some (-1)).bind fun out =>
      iterate data.shape (fun i o =>
        let outInd := accStatic dims.length map i
        (o.load outInd).bind fun idx => (argStep lt kind data ax i idx).bind fun v => o.store outInd v) out

/-! ### Hardmax -/

/-- One iteration of `emitArgmax` (Hardmax.cpp 54-75). -/
def hardArgStep (lt : R → R → Bool) (input : Mem R) (axis : ℕ) (i : Idx) (o : Mem ℤ) :
    Option (Mem ℤ) :=
  (o.load (i.set axis 0)).bind fun maxInd =>
    (input.load (i.set axis maxInd)).bind fun maxValue =>
      (input.load i).bind fun next =>
        if lt maxValue next then o.store (i.set axis 0) (i.getD axis 0) else some o

/-- `emitArgmax` (Hardmax.cpp 24-78): the buffer is set to zero first. -/
def emitArgmax (lt : R → R → Bool) (input : Mem R) (axis : ℕ) : Option (Mem ℤ) :=
  iterate input.shape (fun i o => hardArgStep lt input axis i o)
    ⟨input.shape.set axis 1, fun _ => 0⟩

/-- The whole lowering (Hardmax.cpp 83-151). -/
def hardmax (lt : R → R → Bool) (zero one : R) (input : Mem R) (axis : ℤ) (junk : Idx → R) :
    Option (Mem R) :=
  let rank := input.shape.length
  let ax := if axis ≥ 0 then axis else rank + axis
  if ¬ (-(rank : ℤ) ≤ ax ∧ ax ≤ rank - 1) then none
  else
    (emitArgmax lt input ax.toNat).bind fun argmax =>
      fill ⟨input.shape, junk⟩ fun i =>
        (argmax.load (i.set ax.toNat 0)).map fun maxInd =>
          if maxInd = i.getD ax.toNat 0 then one else zero

/-! ### CumSum -/

/-- Whether position `r` is the axis and the shifted index is in range (CumSum.cpp 30-50). -/
def shiftOk (dims base : List ℤ) (axis offset : ℤ) (reverse : Bool) (r : ℕ) : Bool :=
  decide ((r : ℤ) = axis) &&
    (if reverse then decide (base.getD r 0 + offset < dims.getD r 0)
     else decide (base.getD r 0 - offset ≥ 0))

/-- `getLoopIndexByAxisAndOffset` (CumSum.cpp 23-57): the access index and whether it
differs from the loop index. -/
def shiftIndex (dims base : List ℤ) (axis offset : ℤ) (reverse : Bool) : Idx × Bool :=
  ((List.range dims.length).map fun r =>
      if shiftOk dims base axis offset reverse r then
        (if reverse then base.getD r 0 + offset else base.getD r 0 - offset)
      else base.getD r 0,
   (List.range dims.length).foldl (fun b r => shiftOk dims base axis offset reverse r || b) false)

/-- Size of the dimension `axis` (CumSum.cpp 132-135). -/
def axisSize (dims : List ℤ) (axis : ℤ) : ℤ :=
  (List.range dims.length).foldl (fun (s : ℤ) (i : ℕ) => if axis = (i : ℤ) then dims.getD i 0 else s) (-1)

/-- Number of steps (CumSum.cpp 137-152): `lit` is whether the size is known at compile
time.  The logarithms are computed by the code in floating point; they are exact here. -/
def numSteps (lit : Bool) (n : ℤ) : ℕ :=
  if lit then Nat.clog 2 n.toNat else Nat.log 2 n.toNat + 1

/-- One step (CumSum.cpp 192-237): sums into the result buffer, which is then copied to
the temporary one. -/
def cumStep [Add R] [Zero R] (dims : List ℤ) (axis : ℤ) (reverse : Bool) (step : ℕ)
    (st : Mem R × Mem R) : Option (Mem R × Mem R) :=
  (fill st.1 fun i =>
    (st.2.load i).bind fun b1 =>
      let p := shiftIndex dims i axis (2 ^ step) reverse
      (st.2.load p.1).map fun b2 => b1 + (if p.2 then b2 else 0)).bind fun res =>
    (fill st.2 fun i => res.load i).map fun buf => (res, buf)

/-- Initial value of the temporary buffer (CumSum.cpp 159-190). -/
def cumInit [Zero R] (X : Mem R) (axis : ℤ) (exclusive reverse : Bool) (i : Idx) : Option R :=
  if ¬ exclusive then X.load i
  else
    let p := shiftIndex X.shape i axis 1 reverse
    (X.load p.1).map fun r => if p.2 then r else 0

/-- The whole lowering (CumSum.cpp 86-242). -/
def cumSum [Add R] [Zero R] (X : Mem R) (axis : ℤ) (exclusive reverse lit : Bool)
    (junk junk' : Idx → R) : Option (Mem R) :=
  let ax := if axis < 0 then axis + X.shape.length else axis
  let n := axisSize X.shape ax
  (fill ⟨X.shape, junk'⟩ (cumInit X ax exclusive reverse)).bind fun buf =>
    ((List.range (numSteps lit n)).foldlM (fun st step => cumStep X.shape ax reverse step st)
      (⟨X.shape, junk⟩, buf)).map fun st => st.1

/-! ### Trilu -/

/-- The whole lowering (Trilu.cpp 30-80); `k` is 0 when the operand is absent. -/
def trilu [Zero R] (input : Mem R) (k : Option ℤ) (upper : Bool) (junk : Idx → R) :
    Option (Mem R) :=
  let rank := input.shape.length
  fill ⟨input.shape, junk⟩ fun l =>
    let i := k.getD 0 + l.getD (rank - 2) 0
    let j := l.getD (rank - 1) 0
    (input.load l).map fun v => if (if upper then decide (i > j) else decide (i < j)) then 0 else v

end Verif.Lower
