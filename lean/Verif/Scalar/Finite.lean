import Verif.Scalar.Model
import Mathlib.Tactic.Ring
import Mathlib.Tactic.Linarith
import Mathlib.Tactic.NormNum

/-! # Finite numbers, exact arithmetic -/

namespace Verif.Scalar
open Classical Num

@[simp] theorem add_fin (a b : ℝ) : add fin (fin a) (fin b) = fin (a + b) := rfl
@[simp] theorem sub_fin (a b : ℝ) : sub fin (fin a) (fin b) = fin (a - b) := by
  simp [sub, rounded, addX, Scalar.neg, sub_eq_add_neg]
@[simp] theorem mul_fin (a b : ℝ) : mul fin (fin a) (fin b) = fin (a * b) := rfl
theorem div_fin {a b : ℝ} (h : b ≠ 0) : div fin (fin a) (fin b) = fin (a / b) := by
  simp [div, divX, h, rounded]
@[simp] theorem exp_fin (a : ℝ) : Scalar.exp fin (fin a) = fin (Real.exp a) := rfl
theorem log_fin {a : ℝ} (h : 0 < a) : Scalar.log fin (fin a) = fin (Real.log a) := by
  simp [Scalar.log, h]
@[simp] theorem tanh_fin (a : ℝ) : Scalar.tanh fin (fin a) = fin (Real.tanh a) := rfl
@[simp] theorem erf_fin (erf : ℝ → ℝ) (a : ℝ) : erfOp fin erf (fin a) = fin (erf a) := rfl
@[simp] theorem cube_fin (a : ℝ) : cube fin (fin a) = fin (a ^ 3) := rfl
@[simp] theorem abs_fin (a : ℝ) : absF (fin a) = fin |a| := rfl
@[simp] theorem neg_fin (a : ℝ) : Scalar.neg (fin a) = fin (-a) := rfl
@[simp] theorem slt_fin (a b : ℝ) : slt (fin a) (fin b) = decide (a < b) := rfl
@[simp] theorem sgt_fin (a b : ℝ) : sgt (fin a) (fin b) = decide (b < a) := rfl
@[simp] theorem oeq_fin (a b : ℝ) : oeq (fin a) (fin b) = decide (a = b) := rfl
@[simp] theorem floor_fin (a : ℝ) : floor (fin a) = fin (⌊a⌋ : ℝ) := rfl

@[simp] theorem max_fin (a b : ℝ) : max' (fin a) (fin b) = fin (max a b) := by
  by_cases h : a < b
  · simp [max', olt, h, max_eq_right h.le]
  · simp [max', olt, h, max_eq_left (not_lt.1 h)]

@[simp] theorem min_fin (a b : ℝ) : min' (fin a) (fin b) = fin (min a b) := by
  by_cases h : b < a
  · simp [min', olt, h, min_eq_right h.le]
  · simp [min', olt, h, min_eq_left (not_lt.1 h)]

@[simp] theorem select_fin (c : Bool) (a b : ℝ) :
    select c (fin a) (fin b) = fin (if c then a else b) := by
  cases c <;> rfl

theorem emit_fin (erf : ℝ → ℝ) (f : Fn) {x : ℝ} (h : f.Defined x) :
    emit fin erf f (fin x) = fin (onnx erf f x) := by
  cases f with
  | sinh =>
    simp only [emit, onnx, exp_fin, sub_fin, zero_sub]
    rw [div_fin two_ne_zero, Real.sinh_eq]
  | cosh =>
    simp only [emit, onnx, exp_fin, sub_fin, add_fin, zero_sub]
    rw [div_fin two_ne_zero, Real.cosh_eq]
  | sigmoid =>
    simp only [emit, onnx, exp_fin, sub_fin, add_fin, zero_sub]
    rw [div_fin (by positivity)]
  | shrink l b =>
    simp only [emit, onnx, sub_fin, add_fin, zero_sub, slt_fin, sgt_fin, select_fin,
      decide_eq_true_eq, gt_iff_lt]
  | hardSigmoid a b =>
    simp only [emit, onnx, mul_fin, add_fin, max_fin, min_fin]
    rw [max_min_distrib_left, max_comm, min_comm, max_eq_right zero_le_one]
  | hardSwish =>
    simp only [emit, onnx, mul_fin, add_fin, max_fin, min_fin]
    rw [max_comm, min_comm, mul_one_div]
  | elu a =>
    simp only [emit, onnx, exp_fin, sub_fin, mul_fin, slt_fin, select_fin, decide_eq_true_eq]
  | relu => simp only [emit, onnx, max_fin]
  | celu a =>
    simp only [Fn.Defined] at h
    simp only [emit, onnx, max_fin, div_fin h, exp_fin, sub_fin, mul_fin, min_fin, add_fin]
  | leakyRelu a => simp only [emit, onnx, mul_fin, slt_fin, select_fin, decide_eq_true_eq]
  | thresholdedRelu a => simp only [emit, onnx, sgt_fin, select_fin, decide_eq_true_eq, gt_iff_lt]
  | selu a g =>
    simp only [emit, onnx, sgt_fin, exp_fin, mul_fin, sub_fin, select_fin, decide_eq_true_eq,
      gt_iff_lt, mul_ite]
  | reciprocal =>
    simp only [Fn.Defined] at h
    simp only [emit, onnx, div_fin h]
  | softplus =>
    simp only [emit, onnx, exp_fin, add_fin]
    rw [log_fin (by positivity)]
  | softsign =>
    simp only [emit, onnx, abs_fin, add_fin]
    rw [div_fin (by positivity), add_comm]
  | sign =>
    simp only [emit, onnx, oeq_fin, sgt_fin, select_fin, decide_eq_true_eq, gt_iff_lt]
    rcases lt_trichotomy x 0 with hx | hx | hx
    · simp [hx, hx.ne, not_lt.2 hx.le]
    · simp [hx]
    · simp [hx, hx.ne']
  | mish =>
    simp only [emit, onnx, exp_fin, add_fin]
    rw [log_fin (by positivity), tanh_fin, mul_fin, add_comm (Real.exp x)]
  | neg => rfl
  | binarizer t => simp only [emit, onnx, sgt_fin, select_fin, decide_eq_true_eq, gt_iff_lt]
  | gelu =>
    simp only [emit, onnx, mul_fin, erf_fin, add_fin, mul_one_div]
  | geluTanh =>
    simp only [emit, onnx, mul_fin, cube_fin, add_fin, tanh_fin]
  | clip lo hi => cases lo <;> cases hi <;> simp only [emit, onnx, max_fin, min_fin]

end Verif.Scalar
