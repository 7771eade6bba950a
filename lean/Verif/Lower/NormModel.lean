import Verif.Lower.SoftmaxModel
import Verif.Lower.ConvModel
import Mathlib.Analysis.SpecialFunctions.Pow.Real

/-!
Model of the lowerings of BatchNormalization (inference), InstanceNormalization, LRN,
MeanVarianceNormalization and LpNormalization.

Source: /repo/src/Conversion/ONNXToKrnl/NN/Normalization.cpp 31-312,
Math/LRN.cpp 22-146, Math/MeanVarianceNormalization.cpp 16-201, Math/LpNormalization.cpp 26-98

Numbers are real numbers: rounding is left out.  A division by zero, the square root of a
negative number and the power of a number that is not positive have no result.
-/

namespace Verif.Lower

open Classical in
/-- Square root; without a result for negative numbers. -/
noncomputable def fsqrt (x : ℝ) : Option ℝ := if x < 0 then none else some (Real.sqrt x)

open Classical in
/-- Power; only for positive bases. -/
noncomputable def fpow (x y : ℝ) : Option ℝ := if 0 < x then some (x ^ y) else none

/-! ### BatchNormalization -/

/-- The body of the inner loop (127-138). -/
noncomputable def bnPoint (X : Mem ℝ) (eps s b m v : ℝ) (idx : Idx) (o : Mem ℝ) : Option (Mem ℝ) :=
  (X.load idx).bind fun x => (fsqrt (v + eps)).bind fun sd => (fdiv (x - m) sd).bind fun r =>
    o.store idx (s * r + b)

/-- One channel: the four loads and the loop over the other dimensions (94-138). -/
noncomputable def bnChannel (X scale bias mean var : Mem ℝ) (eps : ℝ) (c : ℤ) (inner : List ℤ) (pos : Idx → Idx)
    (o : Mem ℝ) : Option (Mem ℝ) :=
  (scale.load [c]).bind fun s => (bias.load [c]).bind fun b => (mean.load [c]).bind fun m =>
    (var.load [c]).bind fun v => iterate inner (fun i o => bnPoint X eps s b m v (pos i) o) o

/-- "Insert C back" (116-120). -/
def insertC (c : ℤ) : Idx → Idx
  | n :: s => n :: c :: s
  | [] => []

/-- The lowering (31-146): the loop over the channels is outermost; there is none for rank 1. -/
noncomputable def batchNorm (X scale bias mean var : Mem ℝ) (eps : ℝ) (junk : Idx → ℝ) : Option (Mem ℝ) :=
  match X.shape with
  | [] => none
  | [N] => bnChannel X scale bias mean var eps 0 [N] id ⟨X.shape, junk⟩
  | N :: C :: sp => (upto C).foldlM (fun o c => bnChannel X scale bias mean var eps c (N :: sp) (insertC c) o) ⟨X.shape, junk⟩

/-! ### InstanceNormalization -/

/-- A loop adding `f x` over the spatial positions of a channel (231-244, 250-265). -/
noncomputable def inSum (X : Mem ℝ) (f : ℝ → ℝ) (n c : ℤ) (sp : List ℤ) : Option ℝ :=
  (idxs sp).foldlM (fun acc i => (X.load ([n, c] ++ i)).map fun x => acc + f x) 0

/-- One batch and channel (210-298). -/
noncomputable def inChannel (X scale bias : Mem ℝ) (eps num : ℝ) (sp : List ℤ) (n c : ℤ) (o : Mem ℝ) : Option (Mem ℝ) :=
  (inSum X (fun x => x) n c sp).bind fun sum => (fdiv sum num).bind fun mean =>
    (inSum X (fun x => (x - mean) * (x - mean)) n c sp).bind fun sum2 => (fdiv sum2 num).bind fun var =>
      (fsqrt (var + eps)).bind fun den => (scale.load [c]).bind fun nom => (fdiv nom den).bind fun factor =>
        (bias.load [c]).bind fun term =>
          iterate sp (fun i o => (X.load ([n, c] ++ i)).bind fun x => o.store ([n, c] ++ i) (factor * (x - mean) + term)) o

/-- Number of values of a channel, `inputBounds[2] * ...` (199-204). -/
def spatialCount : List ℤ → ℤ
  | [] => 1
  | d :: ds => ds.foldl (· * ·) d

/-- The lowering (152-303), for rank 3 and more (the verifier rejects others). -/
noncomputable def instanceNorm (X scale bias : Mem ℝ) (eps : ℝ) (junk : Idx → ℝ) : Option (Mem ℝ) :=
  match X.shape with
  | N :: C :: d :: sp => iterate [N, C] (fun nc o =>
      inChannel X scale bias eps (spatialCount (d :: sp)) (d :: sp) (nc.getD 0 0) (nc.getD 1 0) o) ⟨X.shape, junk⟩
  | _ => none

/-! ### LRN -/

/-- Lower bound of the window over the channels (88-90). -/
def lrnLb (size c : ℤ) : ℤ := max 0 (c - (size - 1) / 2)

/-- Upper bound of the window over the channels, exclusive (92-94). -/
def lrnUb (size C c : ℤ) : ℤ := min C (c + 1 + cdiv (size - 1) 2)

/-- The value stored for one element (77-134). -/
noncomputable def lrnPoint (X : Mem ℝ) (alpha beta bias : ℝ) (size : ℤ) (i : Idx) : Option ℝ :=
  ((rangeList (lrnLb size (i.getD 1 0)) (lrnUb size (X.shape.getD 1 0) (i.getD 1 0))).foldlM
    (fun acc j => (X.load (i.set 1 j)).map fun x => acc + x * x) 0).bind fun sum =>
      (X.load i).bind fun x => (fpow (bias + alpha / size * sum) beta).bind fun t => fdiv x t

/-- The lowering (28-139). -/
noncomputable def lrn (X : Mem ℝ) (alpha beta bias : ℝ) (size : ℤ) (junk : Idx → ℝ) : Option (Mem ℝ) :=
  fill ⟨X.shape, junk⟩ (lrnPoint X alpha beta bias size)

/-! ### MeanVarianceNormalization -/

/-- `actualAxes` (33-39): all of them when none are given. -/
def mvnAxes (rank : ℕ) (axes : List ℤ) : List ℤ :=
  if axes = [] ∧ rank > 0 then (List.range rank).map fun (i : ℕ) => (i : ℤ) else axes

/-- The divisor (42-65): the product of the sizes; a negative axis indexes out of bounds. -/
def mvnDivisor (dims : List ℤ) (axes : List ℤ) : Option ℤ :=
  axes.foldlM (fun (p a : ℤ) => if 0 ≤ a ∧ a < dims.length then some (p * dims.getD a.toNat 0) else none) 1

/-- `redIVs` (107-111, 178-182): zero at the axes. -/
def mvnRed (axes : List ℤ) (i : Idx) : Idx := i.mapIdx fun k x => if (k : ℤ) ∈ axes then 0 else x

/-- Dimensions of the reduced buffers (67-79). -/
def mvnDims (axes : List ℤ) (dims : List ℤ) : List ℤ := dims.mapIdx fun k d => if (k : ℤ) ∈ axes then 1 else d

/-- The first loop (97-117): sums of values and of squares. -/
noncomputable def mvnSums (X : Mem ℝ) (axes : List ℤ) (s : Mem ℝ × Mem ℝ) : Option (Mem ℝ × Mem ℝ) :=
  iterate X.shape (fun i s => (X.load i).bind fun x =>
    (s.1.load (mvnRed axes i)).bind fun p => (s.2.load (mvnRed axes i)).bind fun p2 =>
      (s.1.store (mvnRed axes i) (p + x)).bind fun s1 => (s.2.store (mvnRed axes i) (p2 + x * x)).map fun s2 => (s1, s2)) s

/-- The second loop (132-156): mean and standard deviation. -/
noncomputable def mvnStats (sums : Mem ℝ × Mem ℝ) (div : ℝ) (s : Mem ℝ × Mem ℝ) : Option (Mem ℝ × Mem ℝ) :=
  iterate sums.1.shape (fun i s => (sums.1.load i).bind fun sx => (sums.2.load i).bind fun sx2 =>
    (fdiv sx div).bind fun m => (fdiv sx2 div).bind fun v => (fsqrt |v - m * m|).bind fun sd =>
      (s.1.store i m).bind fun s1 => (s.2.store i sd).map fun s2 => (s1, s2)) s

/-- The value stored by the third loop (173-191). -/
noncomputable def mvnPoint (X : Mem ℝ) (axes : List ℤ) (st : Mem ℝ × Mem ℝ) (i : Idx) : Option ℝ :=
  (X.load i).bind fun x => (st.1.load (mvnRed axes i)).bind fun m => (st.2.load (mvnRed axes i)).bind fun sd =>
    fdiv (x - m) sd

/-- The lowering (16-201). -/
noncomputable def mvn (X : Mem ℝ) (attr : List ℤ) (junk : Idx → ℝ) : Option (Mem ℝ) :=
  let axes := mvnAxes X.shape.length attr
  (mvnDivisor X.shape axes).bind fun div =>
    let rd := mvnDims axes X.shape
    (mvnSums X axes (⟨rd, fun _ => 0⟩, ⟨rd, fun _ => 0⟩)).bind fun sums =>
      (mvnStats sums div (⟨rd, junk⟩, ⟨rd, junk⟩)).bind fun st =>
        fill ⟨X.shape, junk⟩ (mvnPoint X axes st)

/-! ### LpNormalization -/

open Classical in
/-- The ONNX operations replacing the operator (62-92), for one line `xs` of the input along the
axis and its element `x`; the operations are described by their ONNX semantics. -/
noncomputable def lpNorm (p : ℕ) (xs : List ℝ) (x : ℝ) : Option ℝ :=
  let divisor : Option ℝ :=
    if p = 1 then some (xs.map fun a => |a|).sum
    else if p = 2 then fsqrt (xs.map fun a => a * a).sum
    else none
  divisor.bind fun d =>
    let isZero := d = 0
    let dividend := if isZero then 0 else x
    let safe := if isZero then 1 else d
    fdiv dividend safe

end Verif.Lower
