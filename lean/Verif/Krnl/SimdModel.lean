import Verif.Krnl.MatmulModel
import Verif.Krnl.MultiRed

/-!
Model of the SIMD loops used by element-wise and quantisation lowerings, of the
choice of the vector length and of the padding of their allocations.

Source:
* /repo/src/Dialect/Mlir/DialectBuilder.hpp.inc 203-343 `simdIterateIE`
* /repo/src/Conversion/ONNXToKrnl/ONNXToKrnlCommon.cpp 761-868
* /repo/src/Dialect/Mlir/DialectBuilder.cpp 1420-1485 `alignedAllocWithSimdPadding`
* /repo/src/Conversion/ONNXToKrnl/Math/Elementwise.cpp 1474-1645
-/

namespace Verif.Krnl

section
variable {R : Type*}

/-- An allocation: its size in elements and its contents. -/
structure Buf (R : Type*) where
  size : ℤ
  data : ℤ → R

/-- Memory: numbered buffers.  Operands may be the same buffer. -/
abbrev Heap (R : Type*) := ℕ → Buf R

/-- An input of a SIMD loop: absent, a single element (innermost dimension of size
1), or a row starting at a row-major offset. -/
inductive SIn where
  | absent
  | scalar (buf : ℕ) (off : ℤ)
  | vec (buf : ℕ) (off : ℤ)

/-- An output: buffer, row-major offset of the row and the body computing one lane
from the lanes of all inputs.  A vector body acts lane by lane. -/
structure SOut (R : Type*) where
  buf : ℕ
  off : ℤ
  f : List (Option R) → R

/-- One lane of one input at loop index `i` (lines 234-255, 305-323), bounds
checked. -/
def SIn.load (h : Heap R) (i : ℤ) : SIn → Option (Option R)
  | .absent => some none
  | .scalar b off => if 0 ≤ off ∧ off < (h b).size then some (some ((h b).data off)) else none
  | .vec b off =>
    if 0 ≤ off + i ∧ off + i < (h b).size then some (some ((h b).data (off + i))) else none

/-- A vector store (lines 262-269), bounds checked. -/
def vstoreBuf (h : Heap R) (b : ℕ) (a : ℤ) (vs : List R) : Option (Heap R) :=
  if 0 ≤ a ∧ a + vs.length ≤ (h b).size then
    some (Function.update h b ⟨(h b).size, fun y =>
      if a ≤ y ∧ y < a + vs.length then (vs[(y - a).toNat]?).getD ((h b).data y)
      else (h b).data y⟩)
  else none

/-- The loop body with vectors of `VL` lanes at loop index `i` (lines 228-270); the
scalar body is the one with a single lane (lines 297-335).  All results are computed
before the first store. -/
def simdStep (ins : List SIn) (outs : List (SOut R)) (VL : ℕ) (i : ℤ) (h : Heap R) :
    Option (Heap R) :=
  ((List.range VL).mapM fun (l : ℕ) => ins.mapM (SIn.load h (i + l))).bind fun lanes =>
    outs.foldlM (fun h o => vstoreBuf h o.buf (o.off + i) (lanes.map o.f)) h

/-- `simdIterateIE` (lines 203-343); `trip` is `ub - lb` as an index expression. -/
def simdIterate (ins : List SIn) (outs : List (SOut R)) (lb : ℤ) (trip : IE) (VL : ℕ)
    (fullySimd : Bool) (h : Heap R) : Option (Heap R) :=
  if VL > 1 then
    (forLoop lb (if fullySimd then lb + trip.val else lb + trip.val - (VL - 1)) VL
      (simdStep ins outs VL) h).bind fun h =>
    if fullySimd then some h
    else if trip.lit = true ∧ trip.val % VL = 0 then some h
    else forLoop (lb + (trip.val - trip.val % VL)) (lb + trip.val) 1 (simdStep ins outs 1) h
  else forLoop lb (lb + trip.val) 1 (simdStep ins outs 1) h

end

/-- `computeSuitableSimdUnrollFactor` (ONNXToKrnlCommon.cpp 772-868): vector length
and `simdOnly`.  `unroll0` is the unrolling chosen from the register pressure (1, 2,
4 or 8), `staticSize` the product of the known collapsed dimensions, and `avgOk`
whether the mean vector length of the operation mix is at least 1.5. -/
def simdUnroll (archVL unroll0 : ℕ) (avgOk canOverCompute isStatic : Bool) (staticSize : ℕ) :
    ℕ × Bool :=
  if archVL ≤ 1 then (1, false)
  else if isStatic && decide (staticSize < archVL) then (1, false)
  else if !avgOk then (1, false)
  else
    let short := isStatic && decide (staticSize < unroll0 * archVL)
    let u1 := if short then staticSize / archVL else unroll0
    let u2 := if short && canOverCompute && decide (staticSize % (archVL * u1) ≠ 0) &&
      decide (archVL ≤ 16) then u1 + 1 else u1
    if short && decide (u2 = 1) then (1, false)
    else if short && !canOverCompute && decide (u2 = 2) &&
      decide (staticSize % (archVL * u2) ≠ 0) then (1, false)
    else
      (archVL * u2, canOverCompute ||
        (decide (staticSize > 1) && decide (staticSize % (archVL * u2) = 0)))

/-- `alignedAllocWithSimdPadding` (DialectBuilder.cpp 1426-1485): the size of the
allocation in bits, for a memref of `staticSize * dynSize` elements of `bits` bits. -/
def paddedBits (staticShape : Bool) (staticSize dynSize VL bits : ℕ) : ℕ :=
  if staticSize % VL = 0 then staticSize * dynSize * bits
  else
    let pad := if staticShape then VL - staticSize % VL else VL
    if bits % 8 = 0 then 8 * (staticSize * (bits / 8) * dynSize + pad * (bits / 8))
    else 8 * ((staticSize * bits * dynSize + pad * bits + 7) / 8)

end Verif.Krnl
