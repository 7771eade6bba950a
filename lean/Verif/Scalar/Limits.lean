import Verif.Scalar.Finite
import Mathlib.Analysis.SpecialFunctions.Exp
import Mathlib.Analysis.SpecialFunctions.Log.Basic
import Mathlib.Topology.Order.LiminfLimsup

/-! # Values at infinity -/

namespace Verif.Scalar
open Classical Num Filter Topology

/-- The operators that have the right value at `+∞`. -/
def Fn.GoodTop : Fn → Prop
  | .softsign => False
  | .hardSigmoid alpha _ => alpha ≠ 0
  | .selu _ gamma => gamma ≠ 0
  | .celu alpha => alpha ≠ 0
  | _ => True

/-- The operators that have the right value at `-∞`. -/
def Fn.GoodBot : Fn → Prop
  | .softsign | .mish | .gelu | .geluTanh | .hardSwish => False
  | .hardSigmoid alpha _ => alpha ≠ 0
  | .leakyRelu alpha => alpha ≠ 0
  | .celu alpha => alpha ≠ 0
  | _ => True

theorem tendsto_tanh_atTop : Tendsto Real.tanh atTop (𝓝 1) := by
  have e : Real.tanh = fun x => (1 - Real.exp (-x) ^ 2) / (1 + Real.exp (-x) ^ 2) := by
    funext x
    rw [Real.tanh_eq, div_eq_div_iff (by positivity) (by positivity)]
    have h : Real.exp x * Real.exp (-x) = 1 := by rw [← Real.exp_add]; simp
    linear_combination (2 * Real.exp (-x)) * h
  rw [e]
  have h := Real.tendsto_exp_neg_atTop_nhds_zero
  have h2 : Tendsto (fun x => Real.exp (-x) ^ 2) atTop (𝓝 0) := by simpa using h.pow 2
  have := (h2.const_sub 1).div (h2.const_add 1) (by norm_num)
  rw [sub_zero, add_zero, div_one] at this
  exact this

theorem tendsto_mul_const_atTop_infSign (a : ℝ) (ha : a ≠ 0) {g : ℝ → ℝ} {F : Filter ℝ}
    (h : Tendsto g F atTop) : LimitOf F (fun x => a * g x) (infSign a) := by
  unfold infSign
  rcases lt_or_gt_of_ne ha with h0 | h0
  · rw [if_neg (not_lt.2 h0.le), if_pos h0]
    exact h.const_mul_atTop_of_neg h0
  · rw [if_pos h0]
    exact h.const_mul_atTop h0

theorem tendsto_sinh_atTop : Tendsto Real.sinh atTop atTop := by
  have e : Real.sinh = fun x => (Real.exp x + -Real.exp (-x)) / 2 := by
    funext x; rw [Real.sinh_eq, sub_eq_add_neg]
  rw [e]
  exact (Real.tendsto_exp_atTop.atTop_add
    Real.tendsto_exp_neg_atTop_nhds_zero.neg).atTop_div_const two_pos

theorem tendsto_cosh_atTop : Tendsto Real.cosh atTop atTop := by
  have e : Real.cosh = fun x => (Real.exp x + Real.exp (-x)) / 2 := by
    funext x; rw [Real.cosh_eq]
  rw [e]
  exact (Real.tendsto_exp_atTop.atTop_add
    Real.tendsto_exp_neg_atTop_nhds_zero).atTop_div_const two_pos

theorem tendsto_exp_neg_atBot : Tendsto (fun x => Real.exp (-x)) atBot atTop :=
  Real.tendsto_exp_atTop.comp tendsto_neg_atBot_atTop

theorem max_atTop {g : ℝ → ℝ} {F : Filter ℝ} (a : ℝ) (h : Tendsto g F atTop) :
    Tendsto (fun x => max a (g x)) F atTop :=
  tendsto_atTop_mono (fun _ => le_max_right _ _) h

theorem min_atTop {g : ℝ → ℝ} {F : Filter ℝ} (a : ℝ) (h : Tendsto g F atTop) :
    Tendsto (fun x => min a (g x)) F (𝓝 a) :=
  tendsto_const_nhds.congr' ((h.eventually_ge_atTop a).mono fun _ hx => (min_eq_left hx).symm)

theorem max_atBot {g : ℝ → ℝ} {F : Filter ℝ} (a : ℝ) (h : Tendsto g F atBot) :
    Tendsto (fun x => max a (g x)) F (𝓝 a) :=
  tendsto_const_nhds.congr' ((h.eventually_le_atBot a).mono fun _ hx => (max_eq_left hx).symm)

theorem min_atBot {g : ℝ → ℝ} {F : Filter ℝ} (a : ℝ) (h : Tendsto g F atBot) :
    Tendsto (fun x => min a (g x)) F atBot :=
  tendsto_atBot_mono (fun _ => min_le_right _ _) h

@[simp] theorem exp_pinf : Scalar.exp fin pinf = pinf := rfl
@[simp] theorem exp_ninf : Scalar.exp fin ninf = fin 0 := rfl
@[simp] theorem sub_pinf (a : ℝ) : sub fin pinf (fin a) = pinf := rfl
@[simp] theorem sub_ninf (a : ℝ) : sub fin ninf (fin a) = ninf := rfl
@[simp] theorem add_pinf (a : ℝ) : add fin pinf (fin a) = pinf := rfl
@[simp] theorem add_ninf (a : ℝ) : add fin ninf (fin a) = ninf := rfl
@[simp] theorem fin_sub_pinf (a : ℝ) : sub fin (fin a) pinf = ninf := rfl
@[simp] theorem fin_sub_ninf (a : ℝ) : sub fin (fin a) ninf = pinf := rfl
@[simp] theorem fin_add_pinf (a : ℝ) : add fin (fin a) pinf = pinf := rfl
@[simp] theorem fin_add_ninf (a : ℝ) : add fin (fin a) ninf = ninf := rfl

theorem rounded_infSign (a : ℝ) : rounded fin (infSign a) = infSign a := by
  unfold infSign; split_ifs <;> rfl

theorem mul_pinf_pos {a : ℝ} (h : 0 < a) : mul fin (fin a) pinf = pinf := by
  simp [mul, mulX, infSign, h, rounded]
theorem mul_pinf_neg {a : ℝ} (h : a < 0) : mul fin (fin a) pinf = ninf := by
  simp [mul, mulX, infSign, h, not_lt.2 h.le, rounded]
theorem mul_ninf_pos {a : ℝ} (h : 0 < a) : mul fin (fin a) ninf = ninf := by
  simp [mul, mulX, infSign, h, rounded, Scalar.neg]
theorem mul_ninf_neg {a : ℝ} (h : a < 0) : mul fin (fin a) ninf = pinf := by
  simp [mul, mulX, infSign, h, not_lt.2 h.le, rounded, Scalar.neg]
theorem pinf_mul_pos {a : ℝ} (h : 0 < a) : mul fin pinf (fin a) = pinf := by
  simp [mul, mulX, infSign, h, rounded]
theorem div_pinf_pos {a : ℝ} (h : 0 < a) : div fin pinf (fin a) = pinf := by
  simp [div, divX, not_lt.2 h.le, rounded]
theorem div_pinf_neg {a : ℝ} (h : a < 0) : div fin pinf (fin a) = ninf := by
  simp [div, divX, h, rounded]
theorem div_ninf_pos {a : ℝ} (h : 0 < a) : div fin ninf (fin a) = ninf := by
  simp [div, divX, not_lt.2 h.le, rounded]
theorem div_ninf_neg {a : ℝ} (h : a < 0) : div fin ninf (fin a) = pinf := by
  simp [div, divX, h, rounded]

@[simp] theorem slt_pinf (a : ℝ) : slt pinf (fin a) = false := rfl
@[simp] theorem sgt_pinf (a : ℝ) : sgt pinf (fin a) = true := rfl
@[simp] theorem slt_ninf (a : ℝ) : slt ninf (fin a) = true := rfl
@[simp] theorem sgt_ninf (a : ℝ) : sgt ninf (fin a) = false := rfl
@[simp] theorem select_true {α : Type} (a b : α) : select true a b = a := rfl
@[simp] theorem select_false {α : Type} (a b : α) : select false a b = b := rfl
@[simp] theorem max_fin_pinf (a : ℝ) : max' (fin a) pinf = pinf := rfl
@[simp] theorem max_fin_ninf (a : ℝ) : max' (fin a) ninf = fin a := rfl
@[simp] theorem min_fin_pinf (a : ℝ) : min' (fin a) pinf = fin a := rfl
@[simp] theorem min_fin_ninf (a : ℝ) : min' (fin a) ninf = ninf := rfl
@[simp] theorem max_pinf_fin (a : ℝ) : max' pinf (fin a) = pinf := rfl
@[simp] theorem max_ninf_fin (a : ℝ) : max' ninf (fin a) = fin a := rfl
@[simp] theorem min_pinf_fin (a : ℝ) : min' pinf (fin a) = fin a := rfl
@[simp] theorem min_ninf_fin (a : ℝ) : min' ninf (fin a) = ninf := rfl

variable (erf : ℝ → ℝ)

theorem limit_top (herf : Tendsto erf atTop (𝓝 1)) (f : Fn) (h : f.GoodTop) :
    LimitOf atTop (onnx erf f) (emit fin erf f pinf) := by
  cases f with
  | sinh =>
    simp only [emit, exp_pinf, fin_sub_pinf, exp_ninf, sub_pinf, div_pinf_pos two_pos]
    exact tendsto_sinh_atTop
  | cosh =>
    simp only [emit, exp_pinf, fin_sub_pinf, exp_ninf, add_pinf, div_pinf_pos two_pos]
    exact tendsto_cosh_atTop
  | sigmoid =>
    simp only [emit, fin_sub_pinf, exp_ninf, add_fin, add_zero]
    rw [div_fin one_ne_zero]
    have := (tendsto_const_nhds (x := (1 : ℝ)) (f := atTop)).div
      (Real.tendsto_exp_neg_atTop_nhds_zero.const_add 1) (by norm_num)
    rw [add_zero] at this
    exact this
  | shrink l b =>
    simp only [emit, sub_fin, slt_pinf, sgt_pinf, select_true, select_false, sub_pinf]
    refine (tendsto_atTop_add_const_right atTop (-b) tendsto_id).congr' ?_
    filter_upwards [eventually_ge_atTop (-l), eventually_gt_atTop l] with x h1 h2
    simp [onnx, not_lt.2 h1, h2, sub_eq_add_neg]
  | hardSigmoid a b =>
    simp only [Fn.GoodTop] at h
    rcases lt_or_gt_of_ne h with h0 | h0
    · simp only [emit, mul_pinf_neg h0, add_ninf, max_ninf_fin, min_fin, min_eq_left zero_le_one]
      exact max_atBot _ (min_atBot _ (tendsto_atBot_add_const_right _ _
        (tendsto_id.const_mul_atTop_of_neg h0)))
    · simp only [emit, mul_pinf_pos h0, add_pinf, max_pinf_fin, min_pinf_fin]
      have := min_atTop 1 (tendsto_atTop_add_const_right _ b
        ((tendsto_id (α := ℝ) (x := atTop)).const_mul_atTop h0))
      have h2 := (tendsto_const_nhds (x := (0 : ℝ)) (f := atTop)).max this
      rw [max_eq_right zero_le_one] at h2
      exact h2
  | hardSwish =>
    have h6 : (0 : ℝ) < 1 / 6 := by norm_num
    simp only [emit, pinf_mul_pos h6, add_pinf, min_pinf_fin, max_fin,
      max_eq_left zero_le_one, pinf_mul_pos one_pos]
    have h1 := min_atTop 1 (tendsto_atTop_add_const_right _ (1 / 2)
        ((tendsto_id (α := ℝ) (x := atTop)).atTop_div_const (by norm_num : (0 : ℝ) < 6)))
    have h2 := (tendsto_const_nhds (x := (0 : ℝ)) (f := atTop)).max h1
    rw [max_eq_right zero_le_one] at h2
    exact tendsto_id.atTop_mul_pos one_pos h2
  | elu a =>
    simp only [emit, slt_pinf, select_false]
    refine tendsto_id.congr' ?_
    filter_upwards [eventually_ge_atTop 0] with x hx
    simp [onnx, not_lt.2 hx]
  | relu =>
    simp only [emit, max_fin_pinf]
    exact max_atTop _ tendsto_id
  | celu a =>
    simp only [Fn.GoodTop] at h
    have e : emit fin erf (.celu a) pinf = pinf := by
      rcases lt_or_gt_of_ne h with h0 | h0
      · simp only [emit, max_fin_pinf, div_pinf_neg h0, exp_ninf, sub_fin, mul_fin, min_fin,
          add_pinf]
      · simp only [emit, max_fin_pinf, div_pinf_pos h0, exp_pinf, sub_pinf, mul_pinf_pos h0,
          min_fin_pinf, add_pinf]
    rw [e]
    refine tendsto_id.congr' ?_
    filter_upwards [eventually_ge_atTop 0] with x hx
    have hp : 0 ≤ a * (Real.exp (x / a) - 1) := by
      rcases lt_or_gt_of_ne h with h0 | h0
      · refine mul_nonneg_of_nonpos_of_nonpos h0.le ?_
        have := Real.exp_le_one_iff.2 (div_nonpos_of_nonneg_of_nonpos hx h0.le)
        linarith
      · refine mul_nonneg h0.le ?_
        have := Real.one_le_exp_iff.2 (div_nonneg hx h0.le)
        linarith
    simp [onnx, max_eq_right hx, min_eq_left hp]
  | leakyRelu a =>
    simp only [emit, slt_pinf, select_false]
    refine tendsto_id.congr' ?_
    filter_upwards [eventually_ge_atTop 0] with x hx
    simp [onnx, not_lt.2 hx]
  | thresholdedRelu a =>
    simp only [emit, sgt_pinf, select_true]
    refine tendsto_id.congr' ?_
    filter_upwards [eventually_gt_atTop a] with x hx
    simp [onnx, hx]
  | selu a g =>
    simp only [Fn.GoodTop] at h
    simp only [emit, sgt_pinf, select_true]
    have e : mul fin (fin g) pinf = infSign g := rounded_infSign g
    rw [e]
    have := tendsto_mul_const_atTop_infSign g h (tendsto_id (α := ℝ) (x := atTop))
    unfold infSign at this ⊢
    rcases lt_or_gt_of_ne h with h0 | h0
    · rw [if_neg (not_lt.2 h0.le), if_pos h0] at this ⊢
      refine this.congr' ?_
      filter_upwards [eventually_gt_atTop 0] with x hx
      simp [onnx, hx]
    · rw [if_pos h0] at this ⊢
      refine this.congr' ?_
      filter_upwards [eventually_gt_atTop 0] with x hx
      simp [onnx, hx]
  | reciprocal =>
    change Tendsto (fun x : ℝ => 1 / x) atTop (𝓝 0)
    simpa using tendsto_inv_atTop_zero
  | softplus =>
    simp only [emit, exp_pinf, add_pinf]
    exact Real.tendsto_log_atTop.comp (tendsto_atTop_add_const_right _ _ Real.tendsto_exp_atTop)
  | softsign => exact h.elim
  | sign =>
    change Tendsto _ atTop (𝓝 1)
    refine tendsto_const_nhds.congr' ?_
    filter_upwards [eventually_gt_atTop 0] with x hx
    simp [onnx, hx]
  | mish =>
    have e : emit fin erf .mish pinf = pinf := by
      change mul fin pinf (fin 1) = pinf
      exact pinf_mul_pos one_pos
    rw [e]
    refine tendsto_id.atTop_mul_pos one_pos (tendsto_tanh_atTop.comp (Real.tendsto_log_atTop.comp
      (tendsto_atTop_add_const_left _ _ Real.tendsto_exp_atTop)))
  | neg => exact tendsto_neg_atTop_atBot
  | binarizer t =>
    change Tendsto _ atTop (𝓝 1)
    refine tendsto_const_nhds.congr' ?_
    filter_upwards [eventually_gt_atTop t] with x hx
    simp [onnx, hx]
  | gelu =>
    have h2 : 0 < 1 / √2 := by positivity
    simp only [emit, mul_pinf_pos (half_pos one_pos), pinf_mul_pos h2, erfOp, add_fin]
    rw [pinf_mul_pos (by norm_num)]
    have h1 : Tendsto (fun x : ℝ => x / √2) atTop atTop :=
      tendsto_id.atTop_div_const (by positivity)
    exact (tendsto_id.const_mul_atTop (by norm_num : (0 : ℝ) < 1 / 2)).atTop_mul_pos
      (by norm_num : (0 : ℝ) < 1 + 1) ((herf.comp h1).const_add 1)
  | geluTanh =>
    have hc : (0 : ℝ) < √(2 / Real.pi) := Real.sqrt_pos.2 (div_pos two_pos Real.pi_pos)
    have h0 : (0 : ℝ) < 0.044715 := by norm_num
    have e : emit fin erf .geluTanh pinf = pinf := by
      simp only [emit, mul_pinf_pos (half_pos one_pos), cube, mul_pinf_pos h0]
      change mul fin pinf (add fin (fin 1) (Scalar.tanh fin (mul fin (fin √(2 / Real.pi)) pinf))) = _
      rw [mul_pinf_pos hc]
      change mul fin pinf (fin (1 + 1)) = _
      exact pinf_mul_pos (by norm_num)
    rw [e]
    have h1 : Tendsto (fun x : ℝ => x ^ 3) atTop atTop := tendsto_pow_atTop (by norm_num)
    have h2 := (tendsto_id.atTop_add_atTop (h1.const_mul_atTop h0)).const_mul_atTop hc
    exact (tendsto_id.const_mul_atTop (by norm_num : (0 : ℝ) < 1 / 2)).atTop_mul_pos
      (by norm_num : (0 : ℝ) < 1 + 1) ((tendsto_tanh_atTop.comp h2).const_add 1)
  | clip lo hi =>
    cases lo <;> cases hi
    · exact tendsto_id
    · exact min_atTop _ tendsto_id
    · exact max_atTop _ tendsto_id
    · exact min_atTop _ (max_atTop _ tendsto_id)

theorem limit_bot (f : Fn) (h : f.GoodBot) :
    LimitOf atBot (onnx erf f) (emit fin erf f ninf) := by
  cases f with
  | sinh =>
    simp only [emit, exp_pinf, fin_sub_ninf, exp_ninf, fin_sub_pinf, div_ninf_pos two_pos]
    have := tendsto_neg_atTop_atBot.comp (tendsto_sinh_atTop.comp tendsto_neg_atBot_atTop)
    refine this.congr fun x => ?_
    simp [onnx]
  | cosh =>
    simp only [emit, exp_pinf, fin_sub_ninf, exp_ninf, fin_add_pinf, div_pinf_pos two_pos]
    refine (tendsto_cosh_atTop.comp tendsto_neg_atBot_atTop).congr fun x => ?_
    simp [onnx]
  | sigmoid =>
    simp only [emit, fin_sub_ninf, exp_pinf, fin_add_pinf]
    change Tendsto _ atBot (𝓝 0)
    exact tendsto_const_nhds.div_atTop (tendsto_atTop_add_const_left _ _ tendsto_exp_neg_atBot)
  | shrink l b =>
    simp only [emit, sub_fin, slt_ninf, select_true, add_ninf]
    refine (tendsto_atBot_add_const_right atBot b tendsto_id).congr' ?_
    filter_upwards [eventually_lt_atBot (-l)] with x h1
    simp [onnx, h1]
  | hardSigmoid a b =>
    simp only [Fn.GoodBot] at h
    rcases lt_or_gt_of_ne h with h0 | h0
    · simp only [emit, mul_ninf_neg h0, add_pinf, max_pinf_fin, min_pinf_fin]
      have := min_atTop 1 (tendsto_atTop_add_const_right _ b
        ((tendsto_id (α := ℝ) (x := atBot)).const_mul_atBot_of_neg h0))
      have h2 := (tendsto_const_nhds (x := (0 : ℝ)) (f := atBot)).max this
      rw [max_eq_right zero_le_one] at h2
      exact h2
    · simp only [emit, mul_ninf_pos h0, add_ninf, max_ninf_fin, min_fin, min_eq_left zero_le_one]
      exact max_atBot _ (min_atBot _ (tendsto_atBot_add_const_right _ _
        (tendsto_id.const_mul_atBot h0)))
  | hardSwish => exact h.elim
  | elu a =>
    simp only [emit, slt_ninf, select_true, exp_ninf, sub_fin, mul_fin]
    refine ((Real.tendsto_exp_atBot.sub_const 1).const_mul a).congr' ?_
    filter_upwards [eventually_lt_atBot 0] with x hx
    simp [onnx, hx]
  | relu =>
    simp only [emit, max_fin_ninf]
    exact max_atBot _ tendsto_id
  | celu a =>
    simp only [Fn.GoodBot] at h
    have hm := max_atBot 0 (tendsto_id (α := ℝ) (x := atBot))
    rcases lt_or_gt_of_ne h with h0 | h0
    · simp only [emit, max_fin_ninf, div_ninf_neg h0, exp_pinf, sub_pinf, mul_pinf_neg h0,
        min_fin_ninf, fin_add_ninf]
      have h1 : Tendsto (fun x : ℝ => x / a) atBot atTop := by
        simp only [div_eq_mul_inv]
        exact tendsto_id.atBot_mul_const_of_neg (inv_neg''.2 h0)
      have h2 := (tendsto_atTop_add_const_right _ (-1)
        (Real.tendsto_exp_atTop.comp h1)).const_mul_atTop_of_neg h0
      exact hm.add_atBot (min_atBot 0 h2)
    · simp only [emit, max_fin_ninf, div_ninf_pos h0, exp_ninf, sub_fin, mul_fin, min_fin, add_fin]
      have h1 : Tendsto (fun x : ℝ => x / a) atBot atBot := tendsto_id.atBot_div_const h0
      have h2 := ((Real.tendsto_exp_atBot.comp h1).sub_const 1).const_mul a
      exact hm.add ((tendsto_const_nhds (x := (0 : ℝ)) (f := atBot)).min h2)
  | leakyRelu a =>
    simp only [Fn.GoodBot] at h
    simp only [emit, slt_ninf, select_true]
    rcases lt_or_gt_of_ne h with h0 | h0
    · rw [mul_ninf_neg h0]
      refine (tendsto_id.const_mul_atBot_of_neg h0).congr' ?_
      filter_upwards [eventually_lt_atBot 0] with x hx
      simp [onnx, hx]
    · rw [mul_ninf_pos h0]
      refine (tendsto_id.const_mul_atBot h0).congr' ?_
      filter_upwards [eventually_lt_atBot 0] with x hx
      simp [onnx, hx]
  | thresholdedRelu a =>
    simp only [emit, sgt_ninf, select_false]
    refine tendsto_const_nhds.congr' ?_
    filter_upwards [eventually_le_atBot a] with x hx
    simp [onnx, not_lt.2 hx]
  | selu a g =>
    simp only [emit, sgt_ninf, select_false, exp_ninf, mul_fin, sub_fin]
    refine (((Real.tendsto_exp_atBot.const_mul a).sub_const a).const_mul g).congr' ?_
    filter_upwards [eventually_le_atBot 0] with x hx
    simp [onnx, not_lt.2 hx]
  | reciprocal =>
    change Tendsto (fun x : ℝ => 1 / x) atBot (𝓝 0)
    simpa using tendsto_inv_atBot_zero
  | softplus =>
    simp only [emit, exp_ninf, add_fin, zero_add, log_fin one_pos, Real.log_one]
    have := (Real.continuousAt_log one_ne_zero).tendsto.comp
      (by simpa using Real.tendsto_exp_atBot.add_const 1)
    rw [Real.log_one] at this
    exact this
  | softsign => exact h.elim
  | sign =>
    change Tendsto _ atBot (𝓝 (-1))
    refine tendsto_const_nhds.congr' ?_
    filter_upwards [eventually_lt_atBot 0] with x hx
    simp [onnx, hx, not_lt.2 hx.le]
  | mish => exact h.elim
  | neg => exact tendsto_neg_atBot_atTop
  | binarizer t =>
    change Tendsto _ atBot (𝓝 0)
    refine tendsto_const_nhds.congr' ?_
    filter_upwards [eventually_le_atBot t] with x hx
    simp [onnx, not_lt.2 hx]
  | gelu => exact h.elim
  | geluTanh => exact h.elim
  | clip lo hi =>
    cases lo <;> cases hi
    · exact tendsto_id
    · exact min_atBot _ tendsto_id
    · exact max_atBot _ tendsto_id
    · rename_i l u
      simp only [emit, max_fin_ninf, min_fin]
      exact (tendsto_const_nhds (x := u) (f := atBot)).min (max_atBot l tendsto_id)

end Verif.Scalar
