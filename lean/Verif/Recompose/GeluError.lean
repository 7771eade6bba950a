import Verif.Recompose.NormSpec
import Mathlib.Analysis.Real.Pi.Bounds
import Mathlib.Analysis.SpecialFunctions.Trigonometric.DerivHyp
import Mathlib.Analysis.Calculus.MeanValue

/-! # The effect of rounding the constants of Gelu -/

namespace Verif.Recompose

theorem integrable_gauss (a b : ℝ) : IntervalIntegrable (fun t : ℝ => Real.exp (-t ^ 2)) MeasureTheory.volume a b := by
  apply Continuous.intervalIntegrable
  fun_prop

theorem erf_lipschitz (a b : ℝ) : |erfR a - erfR b| ≤ 2 / Real.sqrt Real.pi * |a - b| := by
  have h1 : erfR a - erfR b = 2 / Real.sqrt Real.pi * ∫ t in b..a, Real.exp (-t ^ 2) := by
    unfold erfR
    rw [← mul_sub, intervalIntegral.integral_interval_sub_left (integrable_gauss _ _) (integrable_gauss _ _)]
  have h2 : ‖∫ t in b..a, Real.exp (-t ^ 2)‖ ≤ 1 * |a - b| := by
    refine intervalIntegral.norm_integral_le_of_norm_le_const fun t _ => ?_
    rw [Real.norm_eq_abs, abs_of_pos (Real.exp_pos _)]
    exact Real.exp_le_one_iff.2 (by nlinarith [sq_nonneg t])
  rw [h1, abs_mul, abs_of_nonneg (by positivity)]
  rw [Real.norm_eq_abs, one_mul] at h2
  exact mul_le_mul_of_nonneg_left h2 (by positivity)

theorem hasDerivAt_tanh (x : ℝ) : HasDerivAt Real.tanh (1 / Real.cosh x ^ 2) x := by
  have h : HasDerivAt (fun x => Real.sinh x / Real.cosh x)
      ((Real.cosh x * Real.cosh x - Real.sinh x * Real.sinh x) / Real.cosh x ^ 2) x :=
    (Real.hasDerivAt_sinh x).div (Real.hasDerivAt_cosh x) (Real.cosh_pos x).ne'
  have h1 : Real.cosh x * Real.cosh x - Real.sinh x * Real.sinh x = 1 := by
    have := Real.cosh_sq_sub_sinh_sq x
    nlinarith
  rw [h1] at h
  have h2 : (fun x => Real.sinh x / Real.cosh x) = Real.tanh := by
    funext x
    exact (Real.tanh_eq_sinh_div_cosh x).symm
  rwa [h2] at h

theorem tanh_lipschitz (a b : ℝ) : |Real.tanh a - Real.tanh b| ≤ |a - b| := by
  have h := Convex.norm_image_sub_le_of_norm_hasDerivWithin_le (f := Real.tanh) (s := Set.univ) (C := 1)
    (f' := fun x => 1 / Real.cosh x ^ 2) (x := b) (y := a)
    (fun x _ => (hasDerivAt_tanh x).hasDerivWithinAt)
    (fun x _ => by
      rw [Real.norm_eq_abs, abs_of_nonneg (by positivity)]
      have := Real.one_le_cosh x
      rw [div_le_one (by positivity)]
      nlinarith) convex_univ (Set.mem_univ _) (Set.mem_univ _)
  simpa [Real.norm_eq_abs] using h

/-- The error of Gelu for a constant close to the square root of 2. -/
theorem gelu_error (c1 c2 c3 x : ℝ) : |geluWith c1 c2 c3 false x - geluR false x| ≤
    1 / Real.sqrt Real.pi * |1 / c1 - 1 / Real.sqrt 2| * x ^ 2 := by
  have h := erf_lipschitz (x / c1) (x / Real.sqrt 2)
  have h1 : geluWith c1 c2 c3 false x - geluR false x = 1 / 2 * x * (erfR (x / c1) - erfR (x / Real.sqrt 2)) := by
    simp only [geluR, geluWith]
    ring
  have h2 : |x / c1 - x / Real.sqrt 2| = |x| * |1 / c1 - 1 / Real.sqrt 2| := by
    rw [← abs_mul]
    congr 1
    ring
  rw [h1, abs_mul, abs_mul, abs_of_pos (by norm_num : (0 : ℝ) < 1 / 2)]
  rw [h2] at h
  have h3 := mul_le_mul_of_nonneg_left h (by positivity : 0 ≤ 1 / 2 * |x|)
  refine h3.trans (le_of_eq ?_)
  rw [← sq_abs x]
  ring

/-- The error of the approximation of Gelu with tanh. -/
theorem gelu_tanh_error (c1 c2 c3 x : ℝ) : |geluWith c1 c2 c3 true x - geluR true x| ≤
    1 / 2 * (|c2 - Real.sqrt (2 / Real.pi)| * x ^ 2 + |c2 * c3 - Real.sqrt (2 / Real.pi) * 0.044715| * x ^ 4) := by
  show |_ - geluWith (Real.sqrt 2) (Real.sqrt (2 / Real.pi)) 0.044715 true x| ≤ _
  generalize Real.sqrt (2 / Real.pi) = r
  have h1 : geluWith c1 c2 c3 true x - geluWith (Real.sqrt 2) r 0.044715 true x =
      1 / 2 * x * (Real.tanh (c2 * (x + c3 * x ^ 3)) - Real.tanh (r * (x + 0.044715 * x ^ 3))) := by
    simp only [geluWith]
    ring
  have h := tanh_lipschitz (c2 * (x + c3 * x ^ 3)) (r * (x + 0.044715 * x ^ 3))
  have h2 : c2 * (x + c3 * x ^ 3) - r * (x + 0.044715 * x ^ 3) = (c2 - r) * x + (c2 * c3 - r * 0.044715) * x ^ 3 := by
    ring
  have h3 : |(c2 - r) * x + (c2 * c3 - r * 0.044715) * x ^ 3| ≤
      |c2 - r| * |x| + |c2 * c3 - r * 0.044715| * |x| ^ 3 := by
    refine (abs_add_le _ _).trans (le_of_eq ?_)
    rw [abs_mul, abs_mul, abs_pow]
  rw [h2] at h
  have h4 := mul_le_mul_of_nonneg_left (h.trans h3) (by positivity : 0 ≤ 1 / 2 * |x|)
  have h5 : |geluWith c1 c2 c3 true x - geluWith (Real.sqrt 2) r 0.044715 true x| ≤
      1 / 2 * |x| * (|c2 - r| * |x| + |c2 * c3 - r * 0.044715| * |x| ^ 3) := by
    rw [h1, abs_mul, abs_mul, abs_of_pos (by norm_num : (0 : ℝ) < 1 / 2)]
    exact h4
  refine h5.trans (le_of_eq ?_)
  have e4 : x ^ 4 = |x| ^ 4 := by rw [← abs_pow, abs_of_nonneg (by positivity)]
  rw [← sq_abs x, e4]
  ring

/-- Rounding to single precision of the constants of Gelu. -/
structure RoundsF32 (rnd : ℝ → ℝ) : Prop where
  sqrt2 : rnd 1.41421354 = 11863283 / 8388608
  sqrt2pi : rnd 0.797884583 = 6693141 / 8388608
  cube : rnd 0.044715 = 12003091 / 268435456

theorem sqrt2_bounds : (1.41421356 : ℝ) < Real.sqrt 2 ∧ Real.sqrt 2 < 1.41421357 := by
  constructor
  · rw [Real.lt_sqrt (by norm_num)]; norm_num
  · rw [Real.sqrt_lt' (by norm_num)]; norm_num

theorem sqrt2pi_bounds : (0.79788456 : ℝ) < Real.sqrt (2 / Real.pi) ∧ Real.sqrt (2 / Real.pi) < 0.79788457 := by
  have h1 := Real.pi_gt_d20
  have h2 := Real.pi_lt_d20
  have hp := Real.pi_pos
  constructor
  · rw [Real.lt_sqrt (by norm_num), lt_div_iff₀ hp]; nlinarith
  · rw [Real.sqrt_lt' (by norm_num), div_lt_iff₀ hp]; nlinarith

theorem gelu_f32 {rnd : ℝ → ℝ} (h : RoundsF32 rnd) (c2 c3 x : ℝ) :
    |geluWith (rnd 1.41421354) c2 c3 false x - geluR false x| ≤ 1e-8 * x ^ 2 := by
  refine (gelu_error _ _ _ _).trans ?_
  obtain ⟨h1, h2⟩ := sqrt2_bounds
  have hs : (1.7 : ℝ) < Real.sqrt Real.pi := by
    rw [Real.lt_sqrt (by norm_num)]
    have := Real.pi_gt_d2
    norm_num at this ⊢
    linarith
  have e1 : |1 / rnd 1.41421354 - 1 / Real.sqrt 2| ≤ 1.7e-8 := by
    rw [h.sqrt2]
    have e : (1 : ℝ) / (11863283 / 8388608) - 1 / Real.sqrt 2 =
        (Real.sqrt 2 - 11863283 / 8388608) / (11863283 / 8388608 * Real.sqrt 2) := by
      field_simp
    rw [e, abs_of_nonneg (div_nonneg (by norm_num at h1 ⊢; linarith) (by positivity)), div_le_iff₀ (by positivity)]
    norm_num at h1 h2 ⊢
    nlinarith
  have e2 : 1 / Real.sqrt Real.pi ≤ 1 / 1.7 := one_div_le_one_div_of_le (by norm_num) hs.le
  refine mul_le_mul_of_nonneg_right ?_ (sq_nonneg x)
  calc 1 / Real.sqrt Real.pi * |1 / rnd 1.41421354 - 1 / Real.sqrt 2| ≤ 1 / 1.7 * 1.7e-8 :=
        mul_le_mul e2 e1 (abs_nonneg _) (by norm_num)
    _ = 1e-8 := by norm_num

theorem gelu_tanh_f32 {rnd : ℝ → ℝ} (h : RoundsF32 rnd) (c1 x : ℝ) :
    |geluWith c1 (rnd 0.797884583) (rnd 0.044715) true x - geluR true x| ≤ 2e-8 * (x ^ 2 + x ^ 4) := by
  refine (gelu_tanh_error _ _ _ _).trans ?_
  obtain ⟨h1, h2⟩ := sqrt2pi_bounds
  generalize Real.sqrt (2 / Real.pi) = r at h1 h2 ⊢
  rw [h.sqrt2pi, h.cube]
  have e1 : |6693141 / 8388608 - r| ≤ 4e-8 := by
    rw [abs_le]
    norm_num at h1 h2 ⊢
    constructor <;> linarith
  have e2 : |6693141 / 8388608 * (12003091 / 268435456) - r * 0.044715| ≤ 4e-8 := by
    rw [abs_le]
    norm_num at h1 h2 ⊢
    constructor <;> linarith
  have f1 := mul_le_mul_of_nonneg_right e1 (sq_nonneg x)
  have f2 := mul_le_mul_of_nonneg_right e2 (by positivity : 0 ≤ x ^ 4)
  norm_num at f1 f2 ⊢
  linarith

end Verif.Recompose
