import Verif.Runtime.TensorLemmas

/-!
# C01, C02, C05, C41: runtime tensor addressing, enumeration, comparison
-/

namespace Verif.Props

open Verif Verif.Runtime

/-- C01. For a tensor with at least one element that fits in 64 bits, creation gives strides
(no overflow) under which each in-bounds index is sent to its row-major position, computed
without overflow and below the element count, and each position below the element count
belongs to exactly one in-bounds index. The density check of `omTensorGetNumElems` passes. -/
theorem C01_addressing (shape : List Nat) (hpos : ∀ d ∈ shape, 0 < d)
    (hfit : shape.prod < 2 ^ 63) :
    ∃ strides, createStrides shape = some strides ∧
      strides.length = shape.length ∧
      getNumElems shape = some shape.prod ∧
      omTensorGetNumElems shape strides = some shape.prod ∧
      (∀ idx, InBounds shape idx →
        computeElemOffset strides idx = some (rowMajor shape idx) ∧
        rowMajor shape idx < shape.prod) ∧
      (∀ n < shape.prod, ∃! idx, InBounds shape idx ∧ computeElemOffset strides idx = some n) := by
  have off : ∀ idx, InBounds shape idx →
      computeElemOffset (denseStrides shape) idx = some (rowMajor shape idx) ∧
      rowMajor shape idx < shape.prod := by
    intro idx h
    have hlt := rowMajor_lt h
    refine ⟨?_, hlt⟩
    have hb : 0 + rowMajor shape idx < i64Bound := by
      rw [Nat.zero_add]; exact lt_trans hlt hfit
    simpa [computeElemOffset] using innerProduct_dense h 0 hb
  refine ⟨denseStrides shape, createStrides_eq hpos hfit, length_denseStrides shape,
    getNumElems_eq hpos hfit, omTensorGetNumElems_dense hpos hfit, off, ?_⟩
  intro n hn
  refine ⟨unrank shape n, ⟨unrank_inBounds hn, ?_⟩, ?_⟩
  · rw [(off _ (unrank_inBounds hn)).1, rowMajor_unrank hn]
  · rintro idx ⟨hb, ho⟩
    rw [(off idx hb).1, Option.some.injEq] at ho
    rw [← ho, unrank_rowMajor hb]

/-- The hypotheses of C01 hold for a 2x3x4 tensor, and the strides are the expected ones. -/
example : (∀ d ∈ [2, 3, 4], 0 < d) ∧ [2, 3, 4].prod < 2 ^ 63 ∧
    createStrides [2, 3, 4] = some [12, 4, 1] ∧ InBounds [2, 3, 4] [1, 2, 3] ∧
    computeElemOffset [12, 4, 1] [1, 2, 3] = some 23 := by decide

/-- C01, second creation path: the C++ helper that computes strides for
`omTensorCreateWithShape` agrees with `omTensorCreate` for every non-scalar shape. -/
theorem C01_cpp_strides_agree (shape : List Nat) (hne : shape ≠ [])
    (hpos : ∀ d ∈ shape, 0 < d) (hfit : shape.prod < 2 ^ 63) :
    computeStridesFromShape shape = createStrides shape := by
  rw [computeStridesFromShape_eq hne hpos hfit, createStrides_eq hpos hfit]

/-- For scalars the C++ helper builds a vector from an invalid iterator range. -/
theorem C01_cpp_strides_scalar_fails : computeStridesFromShape [] = none := rfl

/-- C02. The index set lists every in-bounds multi-index exactly once, in row-major order:
its `n`-th entry addresses position `n`. -/
theorem C02_index_enumeration (shape : List Nat) :
    (omTensorComputeIndexSet shape).length = shape.prod ∧
    (omTensorComputeIndexSet shape).Nodup ∧
    (∀ idx, idx ∈ omTensorComputeIndexSet shape ↔ InBounds shape idx) ∧
    (∀ n (h : n < (omTensorComputeIndexSet shape).length),
      rowMajor shape ((omTensorComputeIndexSet shape)[n]) = n) := by
  rw [indexSet_eq]
  refine ⟨length_allIndices shape, nodup_allIndices shape, fun idx => mem_allIndices, ?_⟩
  intro n h
  rw [getElem_allIndices]
  exact rowMajor_unrank (by simpa [length_allIndices] using h)

example : omTensorComputeIndexSet [2, 3] =
    [[0, 0], [0, 1], [0, 2], [1, 0], [1, 1], [1, 2]] := by decide

theorem zip_all_close (a b : List ℚ) (rtol atol : ℚ) (h : a.length = b.length) :
    (List.zipWith (· - ·) (((b.map abs).map (fun x => rtol * x)).map (fun x => x + atol))
      ((List.zipWith (· - ·) a b).map abs)).all (fun e => decide (0 ≤ e)) = true ↔
    ∀ i (ha : i < a.length) (hb : i < b.length), |a[i] - b[i]| ≤ atol + rtol * |b[i]| := by
  rw [List.all_eq_true]
  constructor
  · intro H i ha hb
    have := H (rtol * |b[i]| + atol - |a[i] - b[i]|) (by
      rw [List.mem_iff_getElem]
      exact ⟨i, by simp [ha, hb], by simp⟩)
    have := of_decide_eq_true this
    linarith
  · intro H x hx
    rw [List.mem_iff_getElem] at hx
    obtain ⟨i, hi, rfl⟩ := hx
    simp at hi
    simp only [List.getElem_zipWith, List.getElem_map, decide_eq_true_eq]
    have := H i (by omega) (by omega)
    linarith

/-- C05. For two tensors whose buffers have as many elements as their shapes say, the
comparison is true exactly when the shapes agree and all pairs are within tolerance. -/
theorem C05_close_iff (aShape bShape : List Nat) (a b : List ℚ) (rtol atol : ℚ)
    (ha : a.length = aShape.prod) (hb : b.length = bShape.prod) :
    areTwoOmtsClose aShape bShape a b rtol atol = true ↔
      aShape = bShape ∧ ∀ i (h1 : i < a.length) (h2 : i < b.length),
        |a[i] - b[i]| ≤ atol + rtol * |b[i]| := by
  unfold areTwoOmtsClose
  by_cases hs : aShape = bShape
  · subst hs
    simp only [bne_self_eq_false, Bool.false_eq_true, if_false, true_and]
    exact zip_all_close a b rtol atol (by omega)
  · simp [hs]

example : areTwoOmtsClose [3] [3] [1, 2, 3] [1, 2, 31/10] (1/10) 0 = true ∧
    areTwoOmtsClose [3] [3] [1, 2, 3] [1, 2, 4] (1/10) 0 = false := by
  constructor <;> norm_num [areTwoOmtsClose, abs]

/-- C41 (full statement, false of the code): element access by index through the C++ helper
addresses the row-major position of every in-bounds index. -/
def C41_statement : Prop :=
  ∀ shape : List Nat, (∀ d ∈ shape, 0 < d) → shape.prod < 2 ^ 63 →
    ∀ idx, InBounds shape idx →
      computeElemOffsetCpp (denseStrides shape) idx = (rowMajor shape idx : Int)

/-- The 32-bit accumulator breaks C41: index `[2, 0]` of a 3 x 2^30 tensor is sent to a
negative offset. -/
theorem C41_false : ¬ C41_statement := by
  intro h
  have := h [3, 2 ^ 30] (by decide) (by decide) [2, 0] (by decide)
  revert this
  decide

/-- C41, what holds: offsets below 2^31 are right. Missing: larger tensors, where the
statement is false (`C41_false`). -/
theorem C41_cpp_offset_partial (shape idx strides : List Nat) (hpos : ∀ d ∈ shape, 0 < d)
    (hfit : shape.prod < 2 ^ 63) (hs : createStrides shape = some strides)
    (hb : InBounds shape idx) (hsmall : rowMajor shape idx < 2 ^ 31) :
    computeElemOffsetCpp strides idx = (rowMajor shape idx : Int) := by
  rw [createStrides_eq hpos hfit, Option.some.injEq] at hs
  subst hs
  unfold computeElemOffsetCpp
  have := foldl_int32_dense hb 0 (by simpa using hsmall)
  simpa using this

example : computeElemOffsetCpp [12, 4, 1] [1, 2, 3] = 23 := by decide

end Verif.Props
