import Verif.Lower.ArgModel

/-!
Model of the lowerings of NonZero, Compress, Range, Flatten and Size.

Source:
* /repo/src/Conversion/ONNXToKrnl/Tensor/NonZero.cpp 22-225
* /repo/src/Conversion/ONNXToKrnl/Tensor/Compress.cpp 22-275
* /repo/src/Conversion/ONNXToKrnl/Tensor/Range.cpp 22-182
* /repo/src/Conversion/ONNXToKrnl/Tensor/Flatten.cpp 25-166
* /repo/src/Conversion/ONNXToKrnl/Tensor/Size.cpp 21-74
-/

namespace Verif.Lower

variable {R : Type*}

/-! ### NonZero -/

/-- Adding to one element of each one-dimensional buffer (NonZero.cpp 154-158). -/
def addAll (v : ℤ) : List (Mem ℤ) → Idx → Option (List (Mem ℤ))
  | m :: ms, x :: xs =>
    (m.load [x]).bind fun s => (m.store [x] (s + v)).bind fun m' => (addAll v ms xs).map (m' :: ·)
  | [], _ => some []
  | _ :: _, [] => none

/-- One iteration of the counting loop (NonZero.cpp 144-159). -/
def countStep (isZero : R → Bool) (X : Mem R) (i : Idx) (st : ℤ × List (Mem ℤ)) :
    Option (ℤ × List (Mem ℤ)) :=
  (X.load i).bind fun x =>
    let zeroOrOne : ℤ := if isZero x then 0 else 1
    (addAll zeroOrOne st.2 i).map fun rs => (st.1 + zeroOrOne, rs)

/-- The number of nonzero elements, and the number for each position of each dimension
(NonZero.cpp 114-159). -/
def countNonZero (isZero : R → Bool) (X : Mem R) : Option (ℤ × List (Mem ℤ)) :=
  iterate X.shape (fun i st => countStep isZero X i st)
    (0, X.shape.map fun d => ⟨[d], fun _ => 0⟩)

/-- The search of the position for the `i`-th nonzero (NonZero.cpp 196-214). -/
def findPos (rsum : Mem ℤ) (i : ℤ) : Option ℤ :=
  ((upto (rsum.shape.getD 0 0)).foldlM (fun (st : ℤ × ℤ) (j : ℤ) =>
    (rsum.load [j]).map fun o =>
      (st.1 + o, if i < st.1 + o ∧ st.2 = -1 then j else st.2)) (0, -1)).map fun st => st.2

/-- One column of the result (NonZero.cpp 190-218). -/
def nonZeroColumn (i : ℤ) : List (Mem ℤ) → ℕ → Mem ℤ → Option (Mem ℤ)
  | [], _, o => some o
  | m :: ms, axis, o =>
    (findPos m i).bind fun p => (o.store [(axis : ℤ), i] p).bind fun o' => nonZeroColumn i ms (axis + 1) o'

/-- The whole lowering (NonZero.cpp 78-224). -/
def nonZero (isZero : R → Bool) (X : Mem R) (junk : Idx → ℤ) : Option (Mem ℤ) :=
  (countNonZero isZero X).bind fun st =>
    (upto st.1).foldlM (fun o i => nonZeroColumn i st.2 0 o) ⟨[(X.shape.length : ℤ), st.1], junk⟩

/-! ### Compress -/

/-- The number of true conditions (Compress.cpp 55-75). -/
def countTrue (cond : Mem Bool) : Option ℤ :=
  reduceLoop (cond.shape.getD 0 0) 0 fun k s => (cond.load [k]).map fun c => s + (if c then 1 else 0)

/-- The test of the read index is skipped when the sizes are known and there are enough
conditions (Compress.cpp 126-143); a dimension is `none` when not known at compile time. -/
def skipLoop (condSize : ℤ) : List (Option ℤ) → ℤ → Bool
  | [], _ => true
  | none :: _, _ => false
  | some d :: ds, tot => if tot * d > condSize then false else skipLoop condSize ds (tot * d)

def skipFlat (condSize : Option ℤ) (dims : List (Option ℤ)) : Bool :=
  match condSize with
  | none => false
  | some n => skipLoop n dims 1

/-- One iteration without an axis (Compress.cpp 152-180): output, write index, read
index. -/
def compressStep (skip : Bool) (cond : Mem Bool) (input : Mem R) (i : Idx)
    (st : Mem R × ℤ × ℤ) : Option (Mem R × ℤ × ℤ) :=
  if skip || decide (st.2.2 < cond.shape.getD 0 0) then
    (cond.load [st.2.2]).bind fun c =>
      if c then
        (input.load i).bind fun v => (st.1.store [st.2.1] v).map fun o => (o, st.2.1 + 1, st.2.2 + 1)
      else some (st.1, st.2.1, st.2.2 + 1)
  else some st

/-- Compress without an axis (Compress.cpp 109-181). -/
def compressFlat (skip : Bool) (cond : Mem Bool) (input : Mem R) (junk : Idx → R) :
    Option (Mem R) :=
  (countTrue cond).bind fun sum =>
    (iterate input.shape (fun i st => compressStep skip cond input i st) (⟨[sum], junk⟩, 0, 0)).map
      fun st => st.1

/-- Access functions (Compress.cpp 245-257). -/
def insertAt (rank axis : ℕ) (v : ℤ) (inner : Idx) : Idx :=
  (List.range rank).map fun i =>
    if i = axis then v else inner.getD (if i < axis then i else i - 1) 0

/-- The test is skipped when both sizes are known and there are enough conditions
(Compress.cpp 200-208). -/
def skipAxis (condSize dim : Option ℤ) : Bool :=
  match condSize, dim with
  | some n, some d => decide (n ≥ d)
  | _, _ => false

/-- One iteration of the axis loop (Compress.cpp 221-268). -/
def compressAxisStep (skip : Bool) (cond : Mem Bool) (input : Mem R) (axis : ℕ) (im : ℤ)
    (st : Mem R × ℤ) : Option (Mem R × ℤ) :=
  if skip || decide (im < cond.shape.getD 0 0) then
    (cond.load [im]).bind fun c =>
      if c then
        (iterate (input.shape.eraseIdx axis) (fun inner o =>
          (input.load (insertAt input.shape.length axis im inner)).bind fun v =>
            o.store (insertAt input.shape.length axis st.2 inner) v) st.1).map fun o => (o, st.2 + 1)
      else some st
  else some st

/-- Compress along an axis (Compress.cpp 181-270). -/
def compressAxis (skip : Bool) (cond : Mem Bool) (input : Mem R) (axis : ℤ) (junk : Idx → R) :
    Option (Mem R) :=
  let ax := (if axis ≥ 0 then axis else axis + input.shape.length).toNat
  (countTrue cond).bind fun sum =>
    (reduceLoop (input.shape.getD ax 0) ((⟨input.shape.set ax sum, junk⟩ : Mem R), (0 : ℤ))
      fun im st => compressAxisStep skip cond input ax im st).map fun st => st.1

/-! ### Range -/

/-- `arith.ceildivsi`; division by zero is undefined.  Integers are mathematical: the
code uses machine arithmetic. -/
def ceilDivS (a b : ℤ) : Option ℤ := if b = 0 then none else some (-(Int.fdiv (-a) b))

/-- The dimension found by shape inference when the operands are constants
(ONNXOps/Tensor/Range.cpp 27-78; the division of literals, IndexExpr.cpp 971-975, is done
in double precision, which is exact for the sizes treated in the IndexExpr model). -/
def rangeShape (start limit delta : ℤ) : Option ℤ :=
  (ceilDivS (limit - start) delta).map fun n => max n 0

/-- Number of elements of the output (Range.cpp 73-117): the dimension found by shape
inference when it is a constant, else the run-time value; allocating a negative size is an
error. -/
def rangeSize (static : Bool) (start limit delta : ℤ) : Option ℤ :=
  if static then rangeShape start limit delta
  else (ceilDivS (limit - start) delta).bind fun n => if n < 0 then none else some n

/-- The loop (Range.cpp 155-176): each iteration stores the accumulator and adds
`delta`. -/
def rangeLoop [Add R] (n : ℤ) (start delta : R) (junk : Idx → R) : Option (Mem R) :=
  (reduceLoop n ((⟨[n], junk⟩ : Mem R), start) fun i st =>
    (st.1.store [i] st.2).map fun o => (o, st.2 + delta)).map fun st => st.1

/-- The whole lowering for integers (Range.cpp 27-181). -/
def range (static : Bool) (start limit delta : ℤ) (junk : Idx → ℤ) : Option (Mem ℤ) :=
  (rangeSize static start limit delta).bind fun n => rangeLoop n start delta junk

/-! ### Flatten -/

/-- The index expressions (Flatten.cpp 109-116, 132-141): from the last position to the
first, the sum of the indices times the product of the next dimensions. -/
def flattenIndex (dims idx : List ℤ) : ℤ :=
  ((List.range dims.length).reverse.foldl (fun (st : ℤ × ℤ) (i : ℕ) =>
    (st.1 + idx.getD i 0 * st.2, dims.getD i 0 * st.2)) (0, 1)).1

/-- Output dimensions (Flatten.cpp 33-48, ONNXOps/Tensor/Flatten.cpp 46-63). -/
def flattenDims (dims : List ℤ) (axis : ℕ) : List ℤ :=
  [(dims.take axis).foldl (· * ·) 1, (dims.drop axis).foldl (· * ·) 1]

/-- The whole lowering (Flatten.cpp 56-165). -/
def flatten (input : Mem R) (axis : ℤ) (junk : Idx → R) : Option (Mem R) :=
  let ax := (if axis < 0 then input.shape.length + axis else axis).toNat
  iterate input.shape (fun i o => (input.load i).bind fun v =>
    o.store [flattenIndex (input.shape.take ax) (i.take ax), flattenIndex (input.shape.drop ax) (i.drop ax)] v)
    ⟨flattenDims input.shape ax, junk⟩

/-! ### Size -/

/-- The dimensions known at compile time (Size.cpp 52-55). -/
def sizeKnown (s : ℤ) : Option ℤ → ℤ
  | some d => s * d
  | none => s

/-- The other dimensions (Size.cpp 59-66). -/
def sizeRest (s : ℤ) : Option ℤ × ℤ → ℤ
  | (some _, _) => s
  | (none, d) => s * d

/-- Number of elements (Size.cpp 47-67): the dimensions known at compile time first. -/
def sizeOf (static : List (Option ℤ)) (dims : List ℤ) : ℤ :=
  (static.zip dims).foldl sizeRest (static.foldl sizeKnown 1)

end Verif.Lower
