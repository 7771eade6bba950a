import Verif.Lower.NormModel
import Verif.Lower.ReduceModel

/-!
Model of the SIMD lowering of LayerNormalization and RMSLayerNormalization.

Source: /repo/src/Conversion/ONNXToKrnl/NN/Normalization.cpp 429-1014 (broadcast analysis,
`generateIterWithSIMD`, `generateSIMDCode`), /repo/src/Dialect/ONNX/ONNXOps/NN/Normalization.cpp
242-285 (shapes of the outputs).

Numbers are real numbers.  Rows are processed in order, the parallel loop is not modelled;
neither are element type conversions.
-/

namespace Verif.Lower

open Verif.Krnl (Buf starts)

/-! ### Broadcast analysis -/

/-- What is known at compile time about a dimension of scale or bias: its run-time value, whether it
is a literal 1, and whether the dimension analysis finds it equal to the dimension of X at the same
distance from the end. -/
structure ODim where
  d : ℤ
  one : Bool
  same : Bool

/-- `BroadcastKind` (454-462). -/
inductive BKind
  | unsupported | scalarScalar | scalarFull | partScalar | partFull | fullScalar | fullFull
  deriving DecidableEq

/-- The loop counting the dimensions before the axis that agree with those of X, from the axis towards
the front, up to the first that does not (529-536): the count, and whether all agree. -/
def countSame : List ODim → ℕ × Bool
  | [] => (0, true)
  | x :: xs => if x.same then ((countSame xs).1 + 1, (countSame xs).2) else (0, false)

/-- `isBroadcastCompatible` (464-583): `od` are the dimensions of the operand padded with ones to the
rank of X, `orank` is the rank of the operand. -/
def bcastKind (od : List ODim) (orank axis : ℕ) : BKind × ℤ :=
  let rank := od.length
  let lowRank := rank - axis
  let highScalar := (od.take axis).all ODim.one
  let lowScalar := (od.drop axis).all ODim.one
  if highScalar && lowScalar then (.scalarScalar, 1)
  else if orank < lowRank then (.unsupported, 1)
  else
    let lowFull := !lowScalar && (od.drop axis).all ODim.same
    if !(lowScalar || lowFull) then (.unsupported, 1)
    else if highScalar && lowFull then (.scalarFull, 1)
    else
      let cnt := countSame ((od.take axis).drop (rank - orank)).reverse
      let highFull := (!highScalar && cnt.2) && !(decide (orank < rank))
      let highSpecified := if highScalar then 0 else cnt.1
      let bIdx := rank - (highSpecified + lowRank)
      let highPart := !(highScalar || highFull) && (od.take bIdx).all ODim.one
      if !(highScalar || highFull || highPart) then (.unsupported, 1)
      else if highFull && lowFull then (.fullFull, 1)
      else if highFull && lowScalar then (.fullScalar, 1)
      else
        let modF := ((od.take axis).drop bIdx).foldl (fun m x => m * x.d) 1
        if highPart && lowScalar then (.partScalar, modF)
        else if highPart && lowFull then (.partFull, modF)
        else (.unsupported, modF)

section
variable {R : Type*}

/-- `getScalarWithBroadcast` (716-746): `VL` values for row `i` and columns `j ..`.  The flattened
operand has `hi` rows of `lo` elements, or one dimension. -/
def bcastLoad (k : BKind) (modF : ℤ) (b : Buf R) (hi lo : ℤ) (VL : ℕ) (i j : ℤ) : Option (ℕ → R) :=
  match k with
  | .unsupported => none
  | .scalarScalar => if 0 < b.size then some fun _ => b.data 0 else none
  | .scalarFull => if 0 ≤ j ∧ j + VL ≤ b.size then some fun l => b.data (j + l) else none
  | .partScalar =>
    if modF = 0 then none else
      if 0 ≤ i % modF ∧ i % modF < hi ∧ 0 < lo then some fun _ => b.data (i % modF * lo) else none
  | .partFull =>
    if modF = 0 then none else
      if 0 ≤ i % modF ∧ i % modF < hi ∧ 0 ≤ j ∧ j + VL ≤ lo then some fun l => b.data (i % modF * lo + j + l) else none
  | .fullScalar => if 0 ≤ i ∧ i < hi ∧ 0 < lo then some fun _ => b.data (i * lo) else none
  | .fullFull => if 0 ≤ i ∧ i < hi ∧ 0 ≤ j ∧ j + VL ≤ lo then some fun l => b.data (i * lo + j + l) else none

end

/-- A flattened operand: what `isBroadcastCompatible` found, the buffer and its two flattened
dimensions. -/
structure LnOperand where
  kind : BKind
  modF : ℤ
  buf : Buf ℝ
  hi : ℤ
  lo : ℤ

/-- Scale or bias as handled by `generateSIMDCode` (903-928). -/
def lnOperand (od : List ODim) (orank axis : ℕ) (b : Buf ℝ) : LnOperand :=
  ⟨(bcastKind od orank axis).1, (bcastKind od orank axis).2, b,
    numel ((od.take axis).map ODim.d), numel ((od.drop axis).map ODim.d)⟩

def LnOperand.load (o : LnOperand) (VL : ℕ) (i j : ℤ) : Option (ℕ → ℝ) := bcastLoad o.kind o.modF o.buf o.hi o.lo VL i j

/-! ### The computation -/

/-- Two-dimensional vector load from a flattened memref of `n` rows of `K` elements. -/
def vload2 {R : Type*} (b : Buf R) (n K : ℤ) (VL : ℕ) (i j : ℤ) : Option (ℕ → R) :=
  if 0 ≤ i ∧ i < n ∧ 0 ≤ j ∧ j + VL ≤ K then some fun l => b.data (i * K + j + l) else none

/-- Two-dimensional vector store. -/
def vstore2 {R : Type*} (b : Buf R) (n K : ℤ) (VL : ℕ) (i j : ℤ) (v : ℕ → R) : Option (Buf R) :=
  if 0 ≤ i ∧ i < n ∧ 0 ≤ j ∧ j + VL ≤ K then Buf.vstore b (i * K + j) VL v else none

/-- The two temporaries: sums of the elements and of the squares, for each row of the block and each
lane. -/
structure Reds2 where
  r1 : ℕ → ℕ → ℝ
  r2 : ℕ → ℕ → ℝ

/-- One row of one step of the reduction loop (782-798). -/
noncomputable def lnRedRow (rms : Bool) (X : Buf ℝ) (n K : ℤ) (VL : ℕ) (i j : ℤ) (t : Reds2) (d : ℕ) : Option Reds2 :=
  (vload2 X n K VL (i + d) j).map fun x =>
    ⟨if rms then t.r1 else fun d' l => if d' = d then t.r1 d l + x l else t.r1 d' l,
     fun d' l => if d' = d then t.r2 d l + x l * x l else t.r2 d' l⟩

/-- The reduction loop (776-799), from zero (767-775). -/
noncomputable def lnReduce (rms : Bool) (X : Buf ℝ) (n K : ℤ) (VL B : ℕ) (i : ℤ) : Option Reds2 :=
  (starts 0 K VL).foldlM (fun t j => (List.range B).foldlM (fun t d => lnRedRow rms X n K VL i j t d) t)
    ⟨fun _ _ => 0, fun _ _ => 0⟩

/-- Mean and inverse standard deviation of a row (801-831); the mean is not used for RMS. -/
noncomputable def lnStats (rms : Bool) (K : ℤ) (eps : ℝ) (VL : ℕ) (t : Reds2) (d : ℕ) : Option (ℝ × ℝ) :=
  (if rms then some 0 else fdiv (vecReduction (· + ·) VL (t.r1 d)) K).bind fun mean =>
    (fdiv (vecReduction (· + ·) VL (t.r2 d)) K).bind fun mean2 =>
      (fsqrt ((if rms then mean2 else mean2 - mean * mean) + eps)).bind fun sd =>
        (fdiv 1 sd).map fun inv => (mean, inv)

/-- The values of the bias; without one, nothing is added. -/
def biasLoad (bias : Option LnOperand) (VL : ℕ) (i j : ℤ) : Option (ℕ → ℝ) :=
  match bias with
  | none => some fun _ => 0
  | some b => b.load VL i j

/-- One row of one step of the normalisation loop (838-862). -/
noncomputable def lnNormRow (rms : Bool) (X : Buf ℝ) (scale : LnOperand) (bias : Option LnOperand) (n K : ℤ) (VL : ℕ) (i j : ℤ)
    (st : List (ℝ × ℝ)) (Y : Buf ℝ) (d : ℕ) : Option (Buf ℝ) :=
  (vload2 X n K VL (i + d) j).bind fun x => (scale.load VL (i + d) j).bind fun s =>
    (biasLoad bias VL (i + d) j).bind fun b =>
      vstore2 Y n K VL (i + d) j fun l =>
        (if rms then x l else x l - (st.getD d (0, 0)).1) * (st.getD d (0, 0)).2 * s l + b l

/-- The normalisation loop (832-863). -/
noncomputable def lnNorm (rms : Bool) (X : Buf ℝ) (scale : LnOperand) (bias : Option LnOperand) (n K : ℤ) (VL B : ℕ) (i : ℤ)
    (st : List (ℝ × ℝ)) (Y : Buf ℝ) : Option (Buf ℝ) :=
  (starts 0 K VL).foldlM (fun Y j => (List.range B).foldlM (fun Y d => lnNormRow rms X scale bias n K VL i j st Y d) Y) Y

/-- Saving a statistic of each row of the block in a memref of `n` rows of one element (864-876);
nothing to do if it is not requested. -/
def lnSave (n : ℤ) (B : ℕ) (i : ℤ) (v : ℕ → ℝ) (m : Option (Buf ℝ)) : Option (Option (Buf ℝ)) :=
  match m with
  | none => some none
  | some m => ((List.range B).foldlM (fun m (d : ℕ) => vstore2 m n 1 1 (i + d) 0 fun _ => v d) m).map some

/-- The outputs: Y, the mean and the inverse standard deviation. -/
structure LnOut where
  Y : Buf ℝ
  mean : Option (Buf ℝ)
  inv : Option (Buf ℝ)

/-- `generateIterWithSIMD` (748-877): `B` rows from row `i` on. -/
noncomputable def lnIter (rms : Bool) (X : Buf ℝ) (scale : LnOperand) (bias : Option LnOperand) (n K : ℤ) (eps : ℝ) (VL B : ℕ)
    (i : ℤ) (o : LnOut) : Option LnOut :=
  (lnReduce rms X n K VL B i).bind fun t =>
    ((List.range B).mapM fun d => lnStats rms K eps VL t d).bind fun st =>
      (lnNorm rms X scale bias n K VL B i st o.Y).bind fun Y =>
        (if rms then some o.mean else lnSave n B i (fun d => (st.getD d (0, 0)).1) o.mean).bind fun m =>
          (lnSave n B i (fun d => (st.getD d (0, 0)).2) o.inv).map fun s => ⟨Y, m, s⟩

/-- `isTileFull` (IndexExprBuilder.cpp 447-464): `lit` tells that the number of rows is a literal. -/
def tileFull (lit : Bool) (i : ℤ) (B : ℕ) (n : ℤ) : Bool :=
  if lit = true ∧ n % B = 0 then true else decide (0 ≤ n - B - i)

/-- The loop over blocks of rows of `generateSIMDCode` (959-1003). -/
noncomputable def lnSimd (rms lit : Bool) (X : Buf ℝ) (scale : LnOperand) (bias : Option LnOperand) (n K : ℤ) (eps : ℝ) (VL B : ℕ)
    (o : LnOut) : Option LnOut :=
  (starts 0 n B).foldlM (fun o i =>
    if tileFull lit i B n then lnIter rms X scale bias n K eps VL B i o
    else (rangeList i n).foldlM (fun o r => lnIter rms X scale bias n K eps VL 1 r o) o) o

/-- Shapes of the outputs (`ONNXLNOpShapeHelper`): Y, and at position 1 or 2 those of mean and inverse
standard deviation. -/
def lnOutDims (rms hasMean hasInv : Bool) (dims : List ℤ) (axis : ℕ) : List (List ℤ) :=
  let red := dims.take axis ++ List.replicate (dims.length - axis) 1
  let opt := fun b => if b then red else []
  if rms then [dims, opt hasInv] else [dims, opt hasMean, opt hasInv]

/-- The shape used to allocate the inverse standard deviation: `getOutputDims(2)` (939-942). -/
def lnInvDims (rms hasMean hasInv : Bool) (dims : List ℤ) (axis : ℕ) : Option (List ℤ) :=
  (lnOutDims rms hasMean hasInv dims axis)[2]?

end Verif.Lower
