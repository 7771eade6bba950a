import Verif.Quant.Products
import Mathlib.Data.Rat.Floor

/-!
# C101: quantised operators

The code that is generated for QuantizeLinear, DequantizeLinear, DynamicQuantizeLinear, MatMulInteger and QLinearMatMul,
element by element, against their definitions in `Verif.Quant.Spec`. Numbers are those of an ordered field with a floor, so
the rounding of floating-point operations is left out.
-/

namespace Verif.Props

open Verif.Quant

variable {K : Type} [Field K] [LinearOrder K] [IsStrictOrderedRing K] [FloorRing K]

/-- The emulation of rounding gives the nearest integer, and the even one of two that are as near. -/
theorem C101_round (x : K) : ∃ n : ℤ, roundEven x = (n : K) ∧ IsRoundEven x n := roundEven_spec x

/-- There is only one such integer. -/
theorem C101_round_unique (x : K) (m n : ℤ) (hm : IsRoundEven x m) (hn : IsRoundEven x n) : m = n :=
  isRoundEven_unique hm hn

example : roundEven (5 / 2 : ℚ) = 2 ∧ roundEven (7 / 2 : ℚ) = 4 ∧ roundEven (-5 / 2 : ℚ) = -2 ∧ roundEven (-1 / 3 : ℚ) = 0 := by
  decide +kernel

/-- QuantizeLinear with a scale of rank 0: every element is `saturate (round (x / scale) + zero point)`, with or without
the reciprocal, for each scale and zero point. -/
theorem C101_quantize (fast signed : Bool) (scale : K) (zp : Option (BitVec 8)) (x : K) :
    ∃ y, quantizeLinear fast false signed 0 scale zp x = some y ∧
      IsQuantized signed scale ((zp.map (val8 signed)).getD 0) x (val8 signed y) := by
  obtain ⟨r, hr⟩ : ∃ r, IsRoundEven (x / scale) r := by
    obtain ⟨r, _, hr⟩ := roundEven_spec (x / scale); exact ⟨r, hr⟩
  refine ⟨_, rfl, r, hr, ?_⟩
  cases zp with
  | none =>
    simp only [Bool.false_eq_true, if_false, Option.map_none, Option.getD_none]
    rw [quantizeElem_none, quantizeElem_eq fast signed scale 0 x r hr,
      val8_ofInt signed _ (saturate_mem _ _).1 (saturate_mem _ _).2]
  | some z =>
    simp only [Bool.false_eq_true, if_false, Option.map_some, Option.getD_some, castFrom8]
    rw [quantizeElem_eq fast signed scale _ x r hr, val8_ofInt signed _ (saturate_mem _ _).1 (saturate_mem _ _).2]

example : quantizeLinear true false true 0 (1 / 2 : ℚ) (some 3) (9 / 4) = some 7 ∧
    quantizeLinear true false true 0 (1 / 2 : ℚ) (some 3) 900 = some 127 ∧
    quantizeLinear false false false 0 (1 / 2 : ℚ) (some 3) (-900) = some 0 := by decide +kernel

/-- With zero points disabled, a zero point other than zero is lost. -/
theorem C101_no_zero_false : ¬ ∀ (scale : ℚ) (zp : BitVec 8) (x : ℚ) (y : BitVec 8),
    quantizeLinear true true true 0 scale (some zp) x = some y → IsQuantized true scale (val8 true zp) x (val8 true y) := by
  intro h
  obtain ⟨r, hr, he⟩ := h 1 3 0 0 (by decide +kernel)
  have : r = 0 := isRoundEven_unique hr (roundEven_iff.2 (by decide +kernel))
  subst this
  revert he; decide

/-- A scale that is a vector of one element, which means the same as a scalar, stops the compiler. -/
theorem C101_scale_rank_false : ¬ ∀ (scale : ℚ) (zp : Option (BitVec 8)) (x : ℚ),
    ∃ y, quantizeLinear true false true 1 scale zp x = some y := by
  intro h
  obtain ⟨y, hy⟩ := h 1 none 0
  revert hy
  simp [quantizeLinear]

/-- DequantizeLinear with one scale and one zero point for the tensor. -/
theorem C101_dequantize (signed : Bool) (scale : K) (zp : Option (BitVec 8)) (x : BitVec 8) :
    dequantizeElem false signed true scale zp x
      = some (dequantize scale ((zp.map (val8 signed)).getD 0) (val8 signed x)) := by
  cases zp <;> simp [dequantizeElem, dequantize, castFrom8]

/-- Scales for each slice along an axis stop the compiler. -/
theorem C101_dequantize_axis_false : ¬ ∀ (scale : ℚ) (zp : Option (BitVec 8)) (x : BitVec 8),
    ∃ y, dequantizeElem false true false scale zp x = some y := by
  intro h
  obtain ⟨y, hy⟩ := h 1 none 0
  simp [dequantizeElem] at hy

/-- Quantising and dequantising again moves a number that is not saturated by half a step at most. -/
theorem C101_round_trip (fast signed : Bool) (scale : K) (hs : 0 < scale) (zp : BitVec 8) (x : K)
    (hlo : (lo8 signed : K) ≤ x / scale + val8 signed zp) (hhi : x / scale + val8 signed zp ≤ hi8 signed) :
    ∃ y d, quantizeLinear fast false signed 0 scale (some zp) x = some y ∧
      dequantizeElem false signed true scale (some zp) y = some d ∧ |d - x| ≤ scale / 2 := by
  obtain ⟨y, hy, r, hr, he⟩ := C101_quantize fast signed scale (some zp) x
  refine ⟨y, _, hy, C101_dequantize signed scale (some zp) y, ?_⟩
  simp only [Option.map_some, Option.getD_some] at he ⊢
  have r1 := abs_le.1 hr.1
  have a1 : ((lo8 signed - 1 : ℤ) : K) < ((r + val8 signed zp : ℤ) : K) := by push_cast; linarith [r1.1, r1.2]
  have a2 : ((r + val8 signed zp : ℤ) : K) < ((hi8 signed + 1 : ℤ) : K) := by push_cast; linarith [r1.1, r1.2]
  have b1 : lo8 signed - 1 < r + val8 signed zp := by exact_mod_cast a1
  have b2 : r + val8 signed zp < hi8 signed + 1 := by exact_mod_cast a2
  rw [he, saturate_of_mem signed _ (by omega) (by omega)]
  exact static_error scale hs _ r x hr

example : ((lo8 true : ℤ) : ℚ) ≤ 9 / 4 / (1 / 2) + val8 true 3 ∧ (9 / 4 : ℚ) / (1 / 2) + val8 true 3 ≤ (hi8 true : ℤ) := by
  decide +kernel

/-- DynamicQuantizeLinear: the scale is the width of the smallest range with zero and all the elements over 255, the zero
point is the rounded place of zero in it, and each element is quantised with them. -/
theorem C101_dynamic (fast : Bool) (xs : List K) (hs : ∃ x ∈ xs, x ≠ 0) :
    ∃ top bot zp, IsTop xs top ∧ IsBottom xs bot ∧ (dynamicQuantize fast xs).2.1 = (top - bot) / 255 ∧
      0 < (top - bot) / 255 ∧
      val8 false (dynamicQuantize fast xs).2.2 = zp ∧ IsQuantized false (1 : K) 0 (-bot / ((top - bot) / 255)) zp ∧
      List.Forall₂ (fun x y => IsQuantized false ((top - bot) / 255) zp x (val8 false y)) xs (dynamicQuantize fast xs).1 := by
  have ht := inputMax_spec xs
  have hb := inputMin_spec xs
  have hpos : 0 < dynScale xs := by
    rw [dynScale_eq]
    obtain ⟨x, hx, hne⟩ := hs
    refine div_pos ?_ (by norm_num)
    rcases lt_or_gt_of_ne hne with h | h
    · linarith [hb.2.2 x hx, ht.2.1]
    · linarith [ht.2.2 x hx, hb.2.1]
  obtain ⟨z, hz, hzr, z0, z1⟩ := dynZero_spec xs hpos
  have e := dynScale_eq xs
  have hval : val8 false (dynamicQuantize fast xs).2.2 = z := by
    show val8 false (castTo8 (dynZero xs)) = z
    rw [hz, castTo8_cast]
    exact val8_ofInt false z z0 z1
  refine ⟨inputMax xs, inputMin xs, z, ht, hb, e, e ▸ hpos, hval, ⟨z, ?_, ?_⟩, ?_⟩
  · rw [← e, div_one, neg_div]; simpa using hzr
  · rw [saturate_of_mem false _ (by simpa [lo8] using z0) (by simpa [hi8] using z1)]; simp
  · show List.Forall₂ _ xs (xs.map _)
    rw [List.forall₂_map_right_iff, List.forall₂_same]
    intro x _
    obtain ⟨r, _, hr⟩ := roundEven_spec (x / dynScale xs)
    refine ⟨r, e ▸ hr, ?_⟩
    rw [hz, quantizeElem_eq fast false (dynScale xs) z x r hr,
      val8_ofInt false _ (saturate_mem _ _).1 (saturate_mem _ _).2]

/-- Dequantising what DynamicQuantizeLinear made gives each element back up to half a step: nothing is saturated by more. -/
theorem C101_dynamic_round_trip (fast : Bool) (xs : List K) (hs : ∃ x ∈ xs, x ≠ 0) :
    List.Forall₂ (fun x y => |dequantize (dynamicQuantize fast xs).2.1 (val8 false (dynamicQuantize fast xs).2.2) (val8 false y) - x|
      ≤ (dynamicQuantize fast xs).2.1 / 2) xs (dynamicQuantize fast xs).1 := by
  have ht := inputMax_spec xs
  have hb := inputMin_spec xs
  have hpos : 0 < dynScale xs := by
    rw [dynScale_eq]
    obtain ⟨x, hx, hne⟩ := hs
    refine div_pos ?_ (by norm_num)
    rcases lt_or_gt_of_ne hne with h | h
    · linarith [hb.2.2 x hx, ht.2.1]
    · linarith [ht.2.2 x hx, hb.2.1]
  obtain ⟨z, hz, hzr, z0, z1⟩ := dynZero_spec xs hpos
  have hval : val8 false (dynamicQuantize fast xs).2.2 = z := by
    show val8 false (castTo8 (dynZero xs)) = z
    rw [hz, castTo8_cast]
    exact val8_ofInt false z z0 z1
  rw [hval]
  show List.Forall₂ _ xs (xs.map _)
  rw [List.forall₂_map_right_iff, List.forall₂_same]
  intro x hx
  obtain ⟨r, _, hr⟩ := roundEven_spec (x / dynScale xs)
  rw [hz, quantizeElem_eq fast false (dynScale xs) z x r hr,
    val8_ofInt false _ (saturate_mem _ _).1 (saturate_mem _ _).2]
  exact dyn_error xs hpos z hzr x hx r hr

example : dynamicQuantize true [(-1 : ℚ), 0, 2, 1 / 2] = ([0, 85, 255, 127], 3 / 255, 85) ∧
    ∃ x ∈ [(-1 : ℚ), 0, 2, 1 / 2], x ≠ 0 := by decide +kernel

/-- MatMulInteger: each element is the sum of the products of the differences, modulo `2 ^ 32`, with zero points that are
missing, single or one for each row and column, for operands of either sign. -/
theorem C101_matmul_integer (sA sB : Bool) (m k n : ℕ) (a b : ℕ → ℕ → BitVec 8) (za zb : Option (Par (BitVec 8)))
    (ha : ∀ z, za = some z → z.Fits m) (hb : ∀ z, zb = some z → z.Fits n) (i j : ℕ) (hi : i < m) (hj : j < n) :
    matMulInteger sA sB k a b (za.map Par.toT2) (zb.map Par.toT2) i j = BitVec.ofInt 32
      (accumulate k (fun i l => val8 sA (a i l)) (fun l j => val8 sB (b l j))
        ((za.map (Par.map (val8 sA))).getD (.scalar 0)) ((zb.map (Par.map (val8 sB))).getD (.scalar 0)) i j) :=
  matMulInteger_eq sA sB m k n a b za zb ha hb i j hi hj

example : matMulInteger false true 2 (fun i l => BitVec.ofNat 8 (200 + 10 * i + l)) (fun l j => BitVec.ofInt 8 (l - 3 * j))
    (some (Par.each 3 fun i => BitVec.ofNat 8 (100 * i)).toT2) (some (Par.scalar (1 : BitVec 8)).toT2) 2 1
    = BitVec.ofInt 32 ((220 - 200) * (-3 - 1) + (221 - 200) * (-2 - 1)) := by decide +kernel

/-- QLinearMatMul with one scale for the left matrix. Missing: results that have to be saturated, see
`C101_saturate_false`, and a scale for each row, see `C101_row_scale_false`. Up to 33025 products the accumulator does not
overflow. -/
theorem C101_qlinear_partial (sA sB sY : Bool) (m k n : ℕ) (a b : ℕ → ℕ → BitVec 8) (za zb : Par (BitVec 8))
    (hza : za.Fits m) (hzb : zb.Fits n) (s : K) (sb : Par K) (hsb : sb.Fits n) (sy : K) (zy : BitVec 8)
    (hk : k ≤ 33025) (i j : ℕ) (hi : i < m) (hj : j < n) (r : ℤ)
    (hr : IsRoundEven ((accumulate k (fun i l => val8 sA (a i l)) (fun l j => val8 sB (b l j)) (za.map (val8 sA))
      (zb.map (val8 sB)) i j : K) * (s * sb.get j / sy)) r)
    (hlo : lo8 sY ≤ r + val8 sY zy) (hhi : r + val8 sY zy ≤ hi8 sY) :
    IsQLinear sY k (fun i l => val8 sA (a i l)) (fun l j => val8 sB (b l j)) (za.map (val8 sA)) (zb.map (val8 sB))
      (.scalar s) sb sy (val8 sY zy) i j
      (val8 sY (qLinearMatMul sA sB sY k a b za.toT2 zb.toT2 (Par.scalar s).toT2 sb.toT2 sy zy i j)) := by
  refine ⟨r, hr, ?_⟩
  rw [qLinear_eq sA sB sY m k n a b za zb hza hzb s sb hsb sy zy hk i j hi hj r hr, saturate_of_mem _ _ hlo hhi]
  exact val8_ofInt sY _ hlo hhi

example : qLinearMatMul false true false 2 (fun i l => BitVec.ofNat 8 (200 + 10 * i + l)) (fun l j => BitVec.ofInt 8 (l - 3 * j))
    (Par.scalar (199 : BitVec 8)).toT2 (Par.scalar (1 : BitVec 8)).toT2 (Par.scalar (1 / 2 : ℚ)).toT2
    (Par.each 2 fun j => (j : ℚ) + 1).toT2 3 100 1 1
    = BitVec.ofInt 8 (100 - 27) := by decide +kernel

/-- What overflows 8 bits wraps around where ONNX saturates it. -/
theorem C101_saturate_false : ¬ ∀ (a b : ℕ → ℕ → BitVec 8) (y : ℤ),
    IsQLinear true 1 (fun i l => val8 true (a i l)) (fun l j => val8 true (b l j)) (.scalar 0) (.scalar 0)
      (.scalar (1 : ℚ)) (.scalar 1) 1 0 0 0 y →
    val8 true (qLinearMatMul true true true 1 a b (.rank0 0) (.rank0 0) (.rank0 (1 : ℚ)) (.rank0 1) 1 0 0 0) = y := by
  intro h
  have := h (fun _ _ => 100) (fun _ _ => 100) 127 ⟨10000, roundEven_iff.2 (by decide +kernel), by decide⟩
  revert this
  decide +kernel

/-- A scale for each row is applied to the columns. -/
theorem C101_row_scale_false : ¬ ∀ (a b : ℕ → ℕ → BitVec 8) (sa : Par ℚ) (y : ℤ), sa.Fits 2 →
    IsQLinear true 1 (fun i l => val8 true (a i l)) (fun l j => val8 true (b l j)) (.scalar 0) (.scalar 0)
      sa (.scalar 1) 1 0 0 1 y →
    val8 true (qLinearMatMul true true true 1 a b (.rank0 0) (.rank0 0) sa.toT2 (.rank0 1) 1 0 0 1) = y := by
  intro h
  have := h (fun _ _ => 1) (fun _ _ => 1) (.each 2 fun i => (i : ℚ) + 1) 1 rfl
    ⟨1, roundEven_iff.2 (by decide +kernel), by decide⟩
  revert this
  decide +kernel

/-- The number that is rounded in the end is the same. -/
theorem C101_recompose_value (k : ℕ) (a b : ℕ → ℕ → ℤ) (za zb : Par ℤ) (sa sb : Par K) (sy : K) (i j : ℕ) :
    (∑ l : Fin k, dequantize (sa.get i) (za.get i) (a i l) * dequantize (sb.get j) (zb.get j) (b l j)) / sy
      = (accumulate k a b za zb i j : K) * (sa.get i * sb.get j / sy) := by
  unfold accumulate dequantize
  push_cast
  rw [Finset.sum_mul, Finset.sum_div]
  refine Finset.sum_congr rfl fun l _ => ?_
  ring

/-- DequantizeLinear of both operands, MatMul and QuantizeLinear compute a QLinearMatMul, with a scale and zero point
for each row of the left operand, each column of the right one, or for the whole: the two definitions give the same
number. -/
theorem C101_recompose (signed : Bool) (k : ℕ) (a b : ℕ → ℕ → ℤ) (za zb : Par ℤ) (sa sb : Par K) (sy : K) (zy : ℤ) (i j : ℕ)
    (y : ℤ) :
    IsQuantized signed sy zy
        (∑ l : Fin k, dequantize (sa.get i) (za.get i) (a i l) * dequantize (sb.get j) (zb.get j) (b l j)) y ↔
      IsQLinear signed k a b za zb sa sb sy zy i j y := by
  unfold IsQuantized IsQLinear
  rw [C101_recompose_value]

/-- What the rewriting makes of them, after the lowering: with one scale for the left operand and zero points that are all
there, the number that DequantizeLinear, MatMul and QuantizeLinear give. Missing: as in `C101_qlinear_partial`, and the cases
of `C101_missing_zero_false` and `C101_recompose_axis_false`. -/
theorem C101_recompose_partial (sA sB sY : Bool) (m k n : ℕ) (a b : ℕ → ℕ → BitVec 8) (za zb : Par (BitVec 8))
    (hza : za.Fits m) (hzb : zb.Fits n) (s : K) (sb : Par K) (hsb : sb.Fits n) (sy : K) (zy : BitVec 8)
    (hk : k ≤ 33025) (i j : ℕ) (hi : i < m) (hj : j < n) (r : ℤ)
    (hr : IsRoundEven ((∑ l : Fin k, dequantize s (val8 sA (za.get i)) (val8 sA (a i l)) *
      dequantize (sb.get j) (val8 sB (zb.get j)) (val8 sB (b l j))) / sy) r)
    (hlo : lo8 sY ≤ r + val8 sY zy) (hhi : r + val8 sY zy ≤ hi8 sY) :
    ∃ q v, recompose ⟨.scalar s, some za, 0⟩ ⟨sb, some zb, 1⟩ sy (some zy) = some q ∧
      lowerQL sA sB sY k a b q i j = some v ∧
      IsQuantized sY sy (val8 sY zy) (∑ l : Fin k, dequantize s (val8 sA (za.get i)) (val8 sA (a i l)) *
        dequantize (sb.get j) (val8 sB (zb.get j)) (val8 sB (b l j))) (val8 sY v) := by
  refine ⟨_, _, rfl, rfl, ?_⟩
  have e := C101_recompose_value k (fun i l => val8 sA (a i l)) (fun l j => val8 sB (b l j)) (za.map (val8 sA))
    (zb.map (val8 sB)) (.scalar s) sb sy i j
  simp only [Par.get_map, Par.get_scalar] at e
  have h := C101_qlinear_partial sA sB sY m k n a b za zb hza hzb s sb hsb sy zy hk i j hi hj r (by
    rw [e] at hr; exact hr) hlo hhi
  rw [← C101_recompose] at h
  simpa only [Par.get_map, Par.get_scalar] using h

/-- Without a zero point the operation that is made has no lowering. -/
theorem C101_missing_zero_false : ¬ ∀ (da db : DQ ℚ) (sy : ℚ) (zy : Option (BitVec 8)) (q : QL ℚ),
    recompose da db sy zy = some q → ∃ v, lowerQL true true true 1 (fun _ _ => 1) (fun _ _ => 1) q 0 0 = some v := by
  intro h
  obtain ⟨v, hv⟩ := h ⟨.scalar 1, none, 1⟩ ⟨.scalar 1, some (.scalar 0), 1⟩ 1 (some 0) _ rfl
  simp [lowerQL] at hv

/-- The axis of the scales is not looked at. With scales 1 and 3 for the two columns (axis 1) of a left operand of ones,
every element of the product is 4; the code takes them for scales of rows, and the first column comes out as 2. -/
theorem C101_recompose_axis_false : ¬ ∀ (sa : ℕ → ℚ) (q : QL ℚ) (v : BitVec 8) (j : ℕ) (y : ℤ), j < 2 →
    recompose ⟨.each 2 sa, some (.scalar 0), 1⟩ ⟨.scalar 1, some (.scalar 0), 1⟩ 1 (some 0) = some q →
    lowerQL true true true 2 (fun _ _ => 1) (fun _ _ => 1) q 0 j = some v →
    IsQuantized true (1 : ℚ) 0 (∑ l : Fin 2, dequantize (sa l) 0 1 * dequantize 1 0 1) y → val8 true v = y := by
  intro h
  have := h (fun i => if i = 0 then 1 else 3) _ 2 0 4 (by decide) rfl (by decide +kernel)
    ⟨4, roundEven_iff.2 (by decide +kernel), by decide⟩
  revert this
  decide

end Verif.Props
