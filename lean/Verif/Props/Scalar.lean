import Verif.Scalar.Limits
import Verif.Scalar.Ints

/-!
# C105: the scalar code of element-wise operators

`Spec.lean` has the definitions of ONNX on real numbers, the limits at infinity, and the operators on
integers and strings.  `Model.lean` has the code that the compiler emits for one element.
-/

namespace Verif.Props
open Verif.Scalar Classical Num Filter Topology

/-- On finite numbers the code computes the function of ONNX, when nothing is rounded. -/
theorem C105_finite_partial (erf : ℝ → ℝ) (f : Fn) (x : ℝ) (h : f.Defined x) :
    emit fin erf f (fin x) = fin (onnx erf f x) :=
  emit_fin erf f h

example : Fn.Defined (.celu 1) (-2) := one_ne_zero
example (erf : ℝ → ℝ) : emit fin erf (.shrink (1 / 2) 1) (fin 3) = fin 2 := by
  rw [C105_finite_partial erf (.shrink (1 / 2) 1) 3 trivial]; simp only [onnx]; norm_num

/-- At `+∞` the code gives the limit of the function. -/
theorem C105_top_partial (erf : ℝ → ℝ) (herf : Tendsto erf atTop (𝓝 1)) (f : Fn) (h : f.GoodTop) :
    LimitOf atTop (onnx erf f) (emit fin erf f pinf) :=
  limit_top erf herf f h

example : Fn.GoodTop .mish := trivial

/-- At `-∞` too. -/
theorem C105_bottom_partial (erf : ℝ → ℝ) (f : Fn) (h : f.GoodBot) :
    LimitOf atBot (onnx erf f) (emit fin erf f ninf) :=
  limit_bot erf f h

example : Fn.GoodBot (.celu (-1)) := neg_ne_zero.2 one_ne_zero

/-- Mish, HardSwish and both forms of Gelu are NaN at `-∞`, Softsign at both ends. -/
theorem C105_infinity_false (erf : ℝ → ℝ) :
    (∀ f ∈ [Fn.mish, .hardSwish, .gelu, .geluTanh, .softsign], emit fin erf f ninf = nan) ∧
    emit fin erf .softsign pinf = nan ∧ Tendsto (onnx erf .mish) atBot (𝓝 0) := by
  refine ⟨?_, rfl, ?_⟩
  · intro f hf
    have hc : (0 : ℝ) < √(2 / Real.pi) := Real.sqrt_pos.2 (div_pos two_pos Real.pi_pos)
    have h0 : (0 : ℝ) < 0.044715 := by norm_num
    have hn : mul fin ninf (fin 0) = nan := by simp [mul, mulX, infSign, rounded, Scalar.neg]
    have ninf_mul_pos : ∀ {a : ℝ}, 0 < a → mul fin ninf (fin a) = ninf := by
      intro a ha
      simp [mul, mulX, infSign, ha, rounded, Scalar.neg]
    simp only [List.mem_cons, List.not_mem_nil, or_false] at hf
    rcases hf with rfl | rfl | rfl | rfl | rfl
    · simp only [emit, exp_ninf, add_fin, zero_add, log_fin one_pos, Real.log_one, tanh_fin,
        Real.tanh_zero, hn]
    · have h6 : (0 : ℝ) < 1 / 6 := by norm_num
      simp only [emit, ninf_mul_pos h6, add_ninf, min_ninf_fin, max_ninf_fin, hn]
    · have h2 : 0 < 1 / √2 := by positivity
      simp only [emit, mul_ninf_pos (half_pos one_pos), ninf_mul_pos h2, erfOp, add_fin]
      rw [add_neg_cancel, hn]
    · simp only [emit, mul_ninf_pos (half_pos one_pos), cube, mul_ninf_pos h0]
      change mul fin ninf (add fin (fin 1) (Scalar.tanh fin (mul fin (fin √(2 / Real.pi)) ninf))) = _
      rw [mul_ninf_pos hc]
      change mul fin ninf (fin (1 + -1)) = _
      rw [add_neg_cancel, hn]
    · rfl
  · have hb : ∀ x : ℝ, x ≤ 0 → |onnx erf .mish x| ≤ |x| * Real.exp x := by
      intro x _
      simp only [onnx, abs_mul]
      refine mul_le_mul_of_nonneg_left ?_ (abs_nonneg x)
      have hp : 0 < 1 + Real.exp x := by positivity
      rw [Real.tanh_eq, Real.exp_neg, Real.exp_log hp, abs_of_nonneg]
      · have hx := Real.exp_pos x
        rw [div_le_iff₀ (by positivity)]
        field_simp
        nlinarith [pow_pos hx 3, pow_pos hx 2]
      · refine div_nonneg ?_ (by positivity)
        rw [sub_nonneg]
        have h1 : 1 ≤ 1 + Real.exp x := by linarith [Real.exp_pos x]
        exact (inv_le_one_of_one_le₀ h1).trans h1
    have hz : Tendsto (fun x : ℝ => |x| * Real.exp x) atBot (𝓝 0) := by
      have := (Real.tendsto_pow_mul_exp_neg_atTop_nhds_zero 1).comp tendsto_neg_atBot_atTop
      refine this.congr' ?_
      filter_upwards [eventually_le_atBot 0] with x hx
      simp [abs_of_nonpos hx]
    refine squeeze_zero_norm' ?_ hz
    filter_upwards [eventually_le_atBot 0] with x hx
    exact hb x hx

/-- The operators whose code is made of arithmetic only keep NaN, whatever the rounding. -/
theorem C105_nan_partial (rnd : ℝ → Num) (erf : ℝ → ℝ) (alpha gamma : ℝ) (f : Fn)
    (h : f ∈ [Fn.sinh, .cosh, .sigmoid, .hardSwish, .elu alpha, .leakyRelu alpha, .selu alpha gamma,
      .reciprocal, .softplus, .softsign, .mish, .neg, .gelu, .geluTanh, .clip none none]) :
    emit rnd erf f nan = nan := by
  have h1 : ∀ v, mul rnd v nan = nan := by intro v; cases v <;> rfl
  have h2 : ∀ v, add rnd v nan = nan := by intro v; cases v <;> rfl
  have h3 : ∀ v, div rnd v nan = nan := by intro v; cases v <;> rfl
  have h4 : ∀ v, sub rnd v nan = nan := by intro v; cases v <;> rfl
  simp only [List.mem_cons, List.not_mem_nil, or_false] at h
  rcases h with rfl | rfl | rfl | rfl | rfl | rfl | rfl | rfl | rfl | rfl | rfl | rfl | rfl | rfl |
    rfl
  all_goals first
    | rfl
    | simp only [emit, h1, h3, h4, Scalar.exp]
  · exact h1 _

/-- Relu, Celu, HardSigmoid, Clip, ThresholdedRelu and Shrink turn NaN into a number, and Sign gives
-1 for it. -/
theorem C105_nan_false (erf : ℝ → ℝ) (alpha beta : ℝ) :
    (∀ f ∈ [Fn.relu, .celu alpha, .hardSigmoid alpha beta, .clip (some 0) none,
      .thresholdedRelu alpha, .shrink alpha beta], emit fin erf f nan = fin 0) ∧
    emit fin erf .sign nan = fin (-1) := by
  refine ⟨?_, rfl⟩
  intro f hf
  simp only [List.mem_cons, List.not_mem_nil, or_false] at hf
  rcases hf with rfl | rfl | rfl | rfl | rfl | rfl
  · rfl
  · change add fin (fin 0) (fin 0) = _
    simp
  · change min' (fin 0) (fin 1) = _
    simp
  · rfl
  · rfl
  · rfl

/-- With a format whose numbers end at `B`, Softplus is infinite where its value is not. -/
theorem C105_overflow_false (rnd : ℝ → Num) (erf : ℝ → ℝ) (B : ℝ) (hB : 1 ≤ B)
    (ho : ∀ r, B ≤ r → rnd r = pinf) :
    ∃ x, onnx erf .softplus x < B ∧ emit rnd erf .softplus (fin x) = pinf := by
  refine ⟨Real.log B, ?_, ?_⟩
  · have hp : 0 < B := by linarith
    simp only [onnx, Real.exp_log hp]
    have := Real.log_lt_sub_one_of_pos (x := B + 1) (by linarith) (by linarith)
    linarith
  · simp only [emit, Scalar.exp, Real.exp_log (by linarith : 0 < B), ho B le_rfl]
    rfl

example : ∃ rnd : ℝ → Num, ∀ r, (10 : ℝ) ≤ r → rnd r = pinf :=
  ⟨fun r => if 10 ≤ r then pinf else fin r, fun r h => if_pos h⟩

/-- Round gives a nearest integer, the even one of two, and keeps infinities and NaN. -/
theorem C105_round :
    (∀ x : ℝ, ∃ n : ℤ, emitRound fin (fin x) = fin n ∧ Quant.IsRoundEven x n) ∧
    ∀ rnd : ℝ → Num, emitRound rnd pinf = pinf ∧ emitRound rnd ninf = ninf ∧
      emitRound rnd nan = nan := by
  refine ⟨fun x => ?_, fun rnd => ⟨emitRound_pinf rnd, emitRound_ninf rnd, emitRound_nan rnd⟩⟩
  obtain ⟨n, h1, h2⟩ := Quant.roundEven_spec x
  exact ⟨n, by rw [emitRound_fin, h1], h2⟩

example : ∃ n : ℤ, Quant.IsRoundEven (5 / 2 : ℝ) n := ⟨2, by norm_num [Quant.IsRoundEven]⟩

/-- PRelu. -/
theorem C105_prelu (x slope : ℝ) :
    emitPRelu fin (fin x) (fin slope) = fin (if x < 0 then slope * x else x) := by
  simp only [emitPRelu, slt_fin, mul_fin, select_fin, decide_eq_true_eq]

example : (-2 : ℝ) < 0 := by norm_num

/-- Sum, Max, Min and Mean of any number of operands. -/
theorem C105_variadic (x : ℝ) (xs : List ℝ) :
    emitVariadic (add fin) ((x :: xs).map fin) = some (fin (x :: xs).sum) ∧
    (∃ m, emitVariadic max' ((x :: xs).map fin) = some (fin m) ∧ IsGreatest {y | y ∈ x :: xs} m) ∧
    (∃ m, emitVariadic min' ((x :: xs).map fin) = some (fin m) ∧ IsLeast {y | y ∈ x :: xs} m) ∧
    emitMean fin ((x :: xs).map fin) = some (fin ((x :: xs).sum / (x :: xs).length)) := by
  have hs : emitVariadic (add fin) ((x :: xs).map fin) = some (fin (x :: xs).sum) := by
    simp only [List.map_cons, emitVariadic]
    rw [foldl_fin (g := (· + ·)) (fun a b => add_fin a b), foldl_add_sum, List.sum_cons]
  refine ⟨hs, ⟨xs.foldl max x, ?_, (foldl_max xs x).1, fun y hy => (foldl_max xs x).2 y hy⟩,
    ⟨xs.foldl min x, ?_, (foldl_min xs x).1, fun y hy => (foldl_min xs x).2 y hy⟩, ?_⟩
  · simp only [List.map_cons, emitVariadic]
    rw [foldl_fin (fun a b => max_fin a b)]
  · simp only [List.map_cons, emitVariadic]
    rw [foldl_fin (fun a b => min_fin a b)]
  · rw [emitMean, hs, Option.map_some, List.length_map, div_fin]
    simp only [List.length_cons]
    positivity

example : IsGreatest {y | y ∈ [(1 : ℝ), 3, 2]} 3 := by
  refine ⟨by simp, fun y hy => ?_⟩
  simp at hy
  rcases hy with rfl | rfl | rfl <;> norm_num

/-- IsInf finds the infinities that are asked for. -/
theorem C105_isinf_partial (detectNeg detectPos : Bool) (h : detectNeg = true ∨ detectPos = true)
    (x : Num) :
    emitIsInf detectNeg detectPos x =
      some (decide ((detectNeg = true ∧ x = ninf) ∨ (detectPos = true ∧ x = pinf))) := by
  cases detectNeg <;> cases detectPos <;> cases x <;> simp_all [emitIsInf, oeq]

example : emitIsInf true false ninf = some true := by
  rw [C105_isinf_partial _ _ (.inl rfl)]; simp

/-- The compiler fails when it is asked for neither. -/
theorem C105_isinf_false (x : Num) : emitIsInf false false x = none := rfl

/-! ## Integers of any width -/

section
variable {w : ℕ}

/-- Mod gives the remainder with the sign of the divisor, except for the divisor zero and for the one
quotient that does not fit. -/
theorem C105_mod (fmod : Bool) (a b : BitVec w) (h0 : b ≠ 0)
    (h1 : ¬ (a = BitVec.intMin w ∧ b = -1)) :
    ∃ r, emitMod fmod a b = some r ∧ r.toInt = onnxMod false a.toInt b.toInt :=
  emitMod_eq fmod a b fun h => h.elim h0 h1

example : emitMod false (-7 : BitVec 8) 3 = some 2 := by decide +kernel

/-- With `fmod = 1` the sign should be the one of the dividend. -/
theorem C105_fmod_false : ∃ (a b r : BitVec 8), b ≠ 0 ∧ emitMod true a b = some r ∧
    r.toInt ≠ onnxMod true a.toInt b.toInt :=
  ⟨-7, 3, 2, by decide +kernel, by decide +kernel, by decide +kernel⟩

/-- Mod of the smallest number and -1 has no value, although it is 0. -/
theorem C105_mod_min_false : emitMod false (BitVec.intMin 32) (-1) = none ∧
    onnxMod false (BitVec.intMin 32).toInt (-1 : BitVec 32).toInt = 0 := by
  constructor <;> decide +kernel

/-- Div drops the fraction. -/
theorem C105_div (a b : BitVec w) (h0 : b ≠ 0) (h1 : ¬ (a = BitVec.intMin w ∧ b = -1)) :
    ∃ r, emitDiv a b = some r ∧ r.toInt = a.toInt.tdiv b.toInt :=
  emitDiv_eq a b fun h => h.elim h0 h1

example : emitDiv (-7 : BitVec 8) 2 = some (-3) := by decide +kernel

/-- Neg and Abs, except for the smallest number. -/
theorem C105_neg_abs (x : BitVec w) (h : x ≠ BitVec.intMin w) :
    (emitNeg x).toInt = -x.toInt ∧ (emitAbs x).toInt = |x.toInt| :=
  ⟨toInt_emitNeg x h, toInt_emitAbs x h⟩

example : (-5 : BitVec 8) ≠ BitVec.intMin 8 := by decide +kernel

/-- Relu, Clip, Max, Min, PRelu, Sign and BitwiseNot. -/
theorem C105_integers (hw : 1 < w) (x y : BitVec w) (lo hi : Option (BitVec w)) :
    (emitReluI x).toInt = max 0 x.toInt ∧
    (emitClipI lo hi x).toInt = onnxClip (lo.map BitVec.toInt) (hi.map BitVec.toInt) x.toInt ∧
    (maxSI x y).toInt = max x.toInt y.toInt ∧ (minSI x y).toInt = min x.toInt y.toInt ∧
    emitPReluI x y = (if x.toInt < 0 then BitVec.ofInt w (y.toInt * x.toInt) else x) ∧
    (emitSignI x).toInt = x.toInt.sign ∧ ∀ i (h : i < w), (emitBitwiseNot x)[i] = !x[i] := by
  refine ⟨?_, ?_, toInt_maxSI x y, toInt_minSI x y, ?_, toInt_emitSign hw x, ?_⟩
  · rw [emitReluI, toInt_maxSI]; simp
  · cases lo <;> cases hi <;>
      simp only [emitClipI, onnxClip, Option.map_none, Option.map_some, toInt_maxSI, toInt_minSI]
  · have s : x.slt 0 = decide (x.toInt < 0) := by rw [BitVec.slt_eq_decide]; simp
    rw [emitPReluI, s, select]
    simp only [decide_eq_true_eq]
    congr 1
    rw [BitVec.ofInt_mul, BitVec.ofInt_toInt, BitVec.ofInt_toInt]
  · intro i h
    rw [emitBitwiseNot_eq]
    simp

example : (emitClipI (some (-3)) (some 5) (-100 : BitVec 8)).toInt = -3 := by decide +kernel

/-- BitShift by less than the width: a product, cut to the width, or a quotient. -/
theorem C105_shift (x s : BitVec w) (h : s.toNat < w) :
    (emitShift true x s).map BitVec.toNat = some (x.toNat * 2 ^ s.toNat % 2 ^ w) ∧
    (emitShift false x s).map BitVec.toNat = some (x.toNat / 2 ^ s.toNat) := by
  simp [emitShift, not_le.2 h, Nat.shiftLeft_eq, Nat.shiftRight_eq_div_pow]

example : (3 : BitVec 8).toNat < 8 := by decide +kernel

/-- A shift by the width or more has no value; in ONNX it is 0. -/
theorem C105_shift_false (left : Bool) (x s : BitVec w) (h : w ≤ s.toNat) :
    emitShift left x s = none ∧ x.toNat * 2 ^ s.toNat % 2 ^ w = 0 ∧ x.toNat / 2 ^ s.toNat = 0 := by
  refine ⟨by simp [emitShift, h], ?_, ?_⟩
  · exact Nat.mod_eq_zero_of_dvd (Dvd.dvd.mul_left (pow_dvd_pow 2 h) _)
  · exact Nat.div_eq_of_lt (x.isLt.trans_le (Nat.pow_le_pow_right two_pos h))

example : 8 ≤ (9 : BitVec 8).toNat := by decide +kernel

/-- Binarizer with a threshold that is an integer of the type. -/
theorem C105_binarizer_partial (t : BitVec w) (x : BitVec w) :
    emitBinarizerI (t.toInt : ℚ) x = some (if t.toInt < x.toInt then 1 else 0) := by
  have e : BitVec.ofInt w ((t.toInt : ℚ)).num = t := by
    rw [Rat.num_intCast, BitVec.ofInt_toInt]
  rw [emitBinarizerI, if_pos (Rat.den_intCast _), e, BitVec.slt_eq_decide, select]
  simp

/-- The compiler fails on any other threshold, such as 1/2. -/
theorem C105_binarizer_false (x : BitVec w) : emitBinarizerI (1 / 2) x = none := by
  rw [emitBinarizerI, if_neg (by decide +kernel)]

end

/-! ## Strings -/

/-- Equal says that the first string begins the second. -/
theorem C105_string (a b : CStr) : emitEqualStr a b = true ↔ a.bytes <+: b.bytes :=
  strncmpEq_length a.bytes b.bytes

/-- So that "ab" equals "abc", but "abc" does not equal "ab". -/
theorem C105_string_false : ∃ a b : CStr, a.bytes ≠ b.bytes ∧ emitEqualStr a b = true ∧
    emitEqualStr b a = false :=
  ⟨⟨[97, 98], by decide⟩, ⟨[97, 98, 99], by decide⟩, by decide, by decide +kernel,
    by decide +kernel⟩

end Verif.Props
