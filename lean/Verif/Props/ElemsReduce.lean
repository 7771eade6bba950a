import Verif.Elems.ReduceLemmas
import Verif.Elems.CastLemmas
import Verif.Elems.GatherLemmas

/-! # Properties of reductions, products, comparisons and casts of constants (C48–C52) -/

namespace Verif.Props

open Verif Verif.Elems

variable {W : Type}

/-! ## C48: reductions -/

/-- C48. Reducing a non-empty constant over distinct axes, in any order. Each element of the result is
the left fold, in row-major order, of the elements whose index agrees with it outside the axes. The
reduced axes are kept with extent 1 or left out. -/
theorem C48_reduce (red : W → W → W) {e : Elms W} (hB : Built e) (hne : 0 < e.shape.prod)
    (axes : List Nat) (hnd : axes.Nodup) (keep : Bool) :
    ∃ r, reduce red e axes keep = some r ∧ Built r ∧
      r.shape = project (if keep then some 1 else none) axes 0 e.shape ∧
      ∀ idx, InBounds r.shape idx → ∃ (v : W) (vs : List W),
        ((allIndices e.shape).filter fun j =>
          decide (project (if keep then some 0 else none) axes 0 j = idx)).map (value e) = some v :: vs.map some ∧
        value r idx = some (vs.foldl red v) := by
  obtain ⟨r, h1, h2, h3, h4⟩ := reduce_spec hB.wf hne red keep axes hnd
  refine ⟨r, h1, ?_, h2, h4⟩
  unfold reduce at h1
  rw [if_neg (by omega)] at h1
  split at h1
  · cases h1; exact hB
  · simp only at h1
    obtain ⟨l, -, rfl⟩ := Option.map_eq_some_iff.1 h1
    refine Built.ofBuffer _ _ ?_
    have hs : nzProd (fromWideNums (W := W) _ l).shape (fromWideNums (W := W) _ l).strides = l.length := h3.size
    rw [← hs]
    exact (nzProd_default _)

/-- Witness: reducing the middle axis of a transposed constant, and two axes at once. -/
example : Built (transpose (fromWideNums [2, 3] [1, 2, 3, 4, 5, 6]) [1, 0]) ∧ ([2, 0] : List Nat).Nodup ∧
    (reduce (· - ·) (transpose (fromWideNums [2, 3] [1, 2, 3, 4, 5, 6]) [1, 0]) [0] true).bind
      (fun r => r.wideNums.map (r.shape, ·)) = some ([1, 2], [(1 : Int) - 2 - 3, 4 - 5 - 6]) ∧
    (reduce (· + ·) (fromWideNums [2, 2, 2] [1, 2, 3, 4, 5, 6, 7, 8]) [2, 0] false).bind
      (fun r => r.wideNums.map (r.shape, ·)) = some ([2], [(14 : Int), 22]) :=
  ⟨(Built.ofBuffer _ _ rfl).transpose _ (by decide), by decide, by decide +kernel, by decide +kernel⟩

/-! ## C49: matrix products -/

/-- C49. The product of two batches of matrices, or of a matrix and a vector. Batch shapes broadcast.
Each element is the sum over `k`, in order, of products. A vector operand has no row or column in the
result. -/
theorem C49_matMul (zero : W) (add mul : W → W → W) {l r : Elms W} (hl : Built l) (hr : Built r)
    {lb rb batch : List Nat} {M K N : Nat} (sl : IsLhs l.shape lb M K) (sr : IsRhs r.shape rb K N)
    (bl : BroadcastTo lb batch) (br : BroadcastTo rb batch) :
    ∃ o, matMul zero add mul l r batch = some o ∧
      o.shape = batch ++ (if l.shape.length = 1 then [] else [M]) ++ (if r.shape.length = 1 then [] else [N]) ∧
      ∀ b m n, InBounds batch b → m < M → n < N → ∃ x y : Nat → W,
        (∀ k < K, value l (lhsIdx l.shape lb b m k) = some (x k) ∧
          value r (rhsIdx r.shape rb b k n) = some (y k)) ∧
        value o (b ++ (if l.shape.length = 1 then [] else [m]) ++ (if r.shape.length = 1 then [] else [n])) =
          some ((List.range K).foldl (fun acc k => add acc (mul (x k) (y k))) zero) := by
  obtain ⟨o, h1, -, h3, h4⟩ := matMul_spec hl.wf hr.wf zero add mul sl sr bl br
  exact ⟨o, h1, h3, h4⟩

/-- Witness: a batch of two row vectors times a matrix, and a matrix times a vector. -/
example : IsLhs [2, 1, 2] [2] 1 2 ∧ IsRhs [2, 2] [] 2 2 ∧ BroadcastTo [2] [2] ∧ BroadcastTo [] [2] ∧
    (matMul 0 (· + ·) (· * ·) (fromWideNums [2, 1, 2] [1, 2, 3, 4]) (fromWideNums [2, 2] [5, 6, 7, 8]) [2]).bind
      (fun r => r.wideNums.map (r.shape, ·)) = some ([2, 1, 2], [(19 : Int), 22, 43, 50]) ∧
    (matMul 0 (· + ·) (· * ·) (fromWideNums [2, 2] [1, 2, 3, 4]) (fromWideNums [2] [5, 6]) []).bind
      (fun r => r.wideNums.map (r.shape, ·)) = some ([2], [(17 : Int), 39]) :=
  ⟨.inr rfl, .inr rfl, BroadcastTo.refl _, ⟨by decide, by simp⟩, by decide +kernel, by decide +kernel⟩

/-! ## C50: comparisons -/

/-- C50. Two constants compare equal exactly if all their elements do, after broadcasting. -/
theorem C50_equal {l r : Elms W} (hl : Built l) (hr : Built r) {S : List Nat}
    (bl : BroadcastTo l.shape S) (br : BroadcastTo r.shape S) (same : W → W → Bool) :
    ∃ b, equal same l r S = some b ∧ (b = true ↔ ∀ idx, InBounds S idx →
      ∃ x y, value l (bIdx l.shape idx) = some x ∧ value r (bIdx r.shape idx) = some y ∧ same x y = true) :=
  equal_spec hl.wf hr.wf bl br same

/-- Witness: a constant and its double transpose, and a splat that differs in one place. -/
example : equal (· == ·) (transpose (fromWideNums [2, 2] [1, 2, 3, 4]) [1, 0]) (fromWideNums [2, 2] [1, 3, 2, 4])
      [2, 2] = some true ∧
    equal (· == ·) (fromWideNums [2] [7, 8]) (splat [] 7) [2] = some false := by
  constructor <;> decide +kernel

/-- C50. A non-empty constant is recognised as all equal to a number exactly if every element is. What is
missing: constants without elements (`C50_allEqual_empty_false`). -/
theorem C50_allEqual_partial {e : Elms W} (h : Built e) (hne : 0 < e.shape.prod) (same : W → W → Bool) (n : W) :
    allEqual same e n = true ↔ ∀ idx, InBounds e.shape idx → ∃ v, value e idx = some v ∧ same n v = true :=
  allEqual_spec h.wf hne same n

/-- Witness. -/
example : 0 < (expand (splat [1] 3) [2, 2]).shape.prod ∧ allEqual (· == ·) (expand (splat [1] 3) [2, 2]) 3 = true ∧
    allEqual (· == ·) (fromWideNums [2] [3, 4]) 3 = false := by
  refine ⟨by decide, by decide +kernel, by decide +kernel⟩

/-- C50 fails for a splat that was expanded to no elements: all of them are equal to 4, but the answer is
no. -/
theorem C50_allEqual_empty_false : ∃ e : Elms Nat, Built e ∧ e.shape.prod = 0 ∧ allEqual (· == ·) e 4 = false :=
  ⟨splat [0] 3, Built.ofSplat _ _, by decide, by decide +kernel⟩

/-! ## C51: casts -/

/-- C51. Casting a finite floating point constant to an integer type of 2 to 64 bits: the number without
its fraction or, when rounding is asked for, the nearest integer with ties to even; then clamped to the
range of the type. The conversion never leaves the range in which C++ defines it. -/
theorem C51_float_to_int {q : ℚ} (hq : IsDbl q) (round unsigned : Bool) {w : Nat} (h1 : 2 ≤ w) (h2 : w ≤ 64) :
    ∃ r : Int, (if round then IsNearestEven q r else IsTrunc q r) ∧
      castFloatToInt round unsigned w (.fin q) =
        some (if unsigned then max 0 (min (2 ^ w - 1) r)
          else max (-2 ^ (w - 1)) (min (2 ^ (w - 1) - 1) r)) := by
  unfold castFloatToInt
  cases unsigned
  · obtain ⟨r, a, b⟩ := convert_spec hq (!round) false (m := w - 1) (lo := -2 ^ (w - 1)) (by omega)
      (.inr ⟨rfl, rfl, by omega⟩)
    refine ⟨r, by cases round <;> simpa using a, ?_⟩
    rw [castMin_eq (by omega) h2, castMax_signed (by omega) h2]
    simpa using b
  · obtain ⟨r, a, b⟩ := convert_spec hq (!round) true (m := w) (lo := 0) (by omega)
      (.inl ⟨rfl, rfl, by omega⟩)
    refine ⟨r, by cases round <;> simpa using a, ?_⟩
    rw [castMax_unsigned h2]
    simpa [castMin] using b

/-- The integer is determined by the specification. -/
theorem C51_unique {q : ℚ} {round : Bool} {r s : Int} (h : if round then IsNearestEven q r else IsTrunc q r)
    (h' : if round then IsNearestEven q s else IsTrunc q s) : r = s := by
  cases round
  · exact isTrunc_unique h h'
  · exact isNearestEven_unique h h'

/-- C51. NaN becomes zero and infinities saturate. -/
theorem C51_special (round unsigned : Bool) {w : Nat} (h1 : 2 ≤ w) (h2 : w ≤ 64) :
    castFloatToInt round unsigned w .nan = some 0 ∧
    castFloatToInt round unsigned w (.inf false) = some (if unsigned then 2 ^ w - 1 else 2 ^ (w - 1) - 1) ∧
    castFloatToInt round unsigned w (.inf true) = some (if unsigned then 0 else -2 ^ (w - 1)) := by
  refine ⟨by simp [castFloatToInt, convertIntFromDouble], ?_, ?_⟩
  · cases unsigned
    · simp [castFloatToInt, convertIntFromDouble, Dbl.lt, Dbl.ge, castMax_signed (by omega : 1 ≤ w) h2]
    · simp [castFloatToInt, convertIntFromDouble, Dbl.lt, Dbl.ge, castMax_unsigned h2]
  · cases unsigned
    · simp [castFloatToInt, convertIntFromDouble, Dbl.lt, castMin_eq (by omega : 1 ≤ w) h2]
    · simp [castFloatToInt, convertIntFromDouble, Dbl.lt, castMin]

/-- Witness: 2.5 to `i8` rounds to 2, -200.7 saturates. -/
example : IsDbl (5 / 2) ∧ IsDbl (-300) ∧ castFloatToInt true false 8 (.fin (5 / 2)) = some 2 ∧
    castFloatToInt false false 8 (.fin (-300)) = some (-128) ∧
    castFloatToInt false true 64 (.fin (2 ^ 64)) = some (2 ^ 64 - 1) :=
  ⟨⟨5, -1, by norm_num, by norm_num⟩, ⟨-300, 0, by norm_num, by norm_num⟩, by decide +kernel, by decide +kernel,
    by decide +kernel⟩

/-- C51. Casting to `bool`: everything but zero is true. -/
theorem C51_bool (d : Dbl) : castFloatToBool d = false ↔ d = .fin 0 := by
  simp [castFloatToBool]

/-- C51. Saturating casts to narrow floats clamp to the largest finite value and keep NaN. -/
theorem C51_saturate {mx : ℚ} (h : 0 ≤ mx) :
    saturate mx .nan = .nan ∧ saturate mx (.inf false) = .fin mx ∧ saturate mx (.inf true) = .fin (-mx) ∧
    ∀ q, saturate mx (.fin q) = .fin (max (-mx) (min mx q)) := by
  refine ⟨rfl, rfl, rfl, fun q => ?_⟩
  unfold saturate
  simp only
  split
  · rw [max_eq_left]
    exact le_trans (min_le_right _ _) (by assumption)
  · split
    · rename_i h1 h2
      rw [min_eq_left h2, max_eq_right (by linarith)]
    · rename_i h1 h2
      push Not at h1 h2
      rw [min_eq_right h2.le, max_eq_right h1.le]

/-- C51, integers: read out at the new type, a cast keeps the low bits. The element held meanwhile may
be outside the type (`C51_int_chain_false`). -/
theorem C51_int_partial {src dst : IntTy} (h : dst.width ≤ 64) (n : Int) :
    dst.wrap (castIntToInt src dst n) = dst.wrap n := by
  have hd : (2 : Int) ^ dst.width ∣ 2 ^ 64 := pow_dvd_pow 2 h
  unfold castIntToInt
  split
  · rfl
  · unfold IntTy.wrap
    split
    · unfold toUnsigned
      exact Int.emod_emod_of_dvd n hd
    · unfold toSigned
      congr 1
      have e : (n + 2 ^ (64 - 1)) % 2 ^ 64 - 2 ^ (64 - 1) + 2 ^ (dst.width - 1) ≡ n + 2 ^ (dst.width - 1)
          [ZMOD 2 ^ dst.width] := by
        apply Int.ModEq.add_right
        have h2 : (n + 2 ^ (64 - 1)) % 2 ^ 64 ≡ n + 2 ^ (64 - 1) [ZMOD 2 ^ dst.width] :=
          (Int.mod_modEq _ _).of_dvd hd
        have h3 := h2.sub_right (2 ^ (64 - 1))
        rwa [add_sub_cancel_right] at h3
      exact e

/-- C51 fails for chains of integer casts: 300 cast to `i8` and back to `i32` is 300, not 44. -/
theorem C51_int_chain_false : ∃ (i8 i32 : IntTy) (n : Int), i32.wrap n = n ∧
    i32.wrap (castIntToInt i8 i32 (castIntToInt i32 i8 n)) ≠ i32.wrap (castIntToInt i8 i32 (i8.wrap n)) :=
  ⟨⟨false, 8⟩, ⟨false, 32⟩, 300, by decide +kernel, by decide +kernel⟩

/-! ## C52: ranges and non-zero elements -/

/-- C52. A range holds the start plus repeated increments. -/
theorem C52_range (add : W → W → W) (n : Nat) (start delta : W) :
    Built (range add n start delta) ∧ (range add n start delta).shape = [n] ∧
    ∀ i < n, value (range add n start delta) [i] = some ((fun x => add x delta)^[i] start) := by
  refine ⟨Built.ofBuffer _ _ (by rw [rangeLoop_length]; simp), rfl, fun i hi => ?_⟩
  unfold range
  rw [value_fromWideNums]
  have : rowMajor [n] [i] = i := by simp [rowMajor]
  rw [this]
  exact rangeLoop_get add delta n start i hi

/-- Over the integers this is `start + i · delta`. -/
theorem C52_range_int (n : Nat) (start delta : Int) (i : Nat) (hi : i < n) :
    value (range (· + ·) n start delta) [i] = some (start + i * delta) := by
  rw [(C52_range (· + ·) n start delta).2.2 i hi]
  congr 1
  clear hi
  induction i with
  | zero => simp
  | succ i ih => rw [Function.iterate_succ_apply', ih]; push_cast; ring

/-- Witness. -/
example : (range (· + ·) 4 (7 : Int) (-2)).wideNums = some [7, 5, 3, 1] := by decide +kernel

/-- C52. The non-zero elements: column `t` of the result is the index of the `t`-th non-zero element in
row-major order. What is missing: rank 0 (`C52_rank0_false`). -/
theorem C52_nonZero_partial (zero : W → Bool) {e : Elms W} (h : Built e) (hr : e.shape.length ≠ 0) :
    ∃ r, nonZero zero e = some r ∧
      r.shape = [e.shape.length, ((allIndices e.shape).filter fun j => (value e j).any fun x => !zero x).length] ∧
      ∀ a t, InBounds r.shape [a, t] →
        value r [a, t] = (((allIndices e.shape).filter fun j => (value e j).any fun x => !zero x)[t]?).bind (·[a]?) := by
  obtain ⟨r, h1, -, h3, h4⟩ := nonZero_spec zero h.wf hr
  exact ⟨r, h1, h3, h4⟩

/-- Witness. -/
example : (nonZero (· == 0) (fromWideNums [2, 3] [0, 5, 0, 6, 0, 7])).bind (fun r => r.wideNums.map (r.shape, ·)) =
    some ([2, 3], [0, 1, 1, 1, 0, 2]) := by decide +kernel

/-- C52 fails for scalars: the code divides by the rank. -/
theorem C52_rank0_false : ∃ e : Elms Nat, Built e ∧ nonZero (· == 0) e = none :=
  ⟨fromWideNums [] [1], Built.ofBuffer _ _ rfl, by decide +kernel⟩

end Verif.Props
