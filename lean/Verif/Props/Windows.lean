import Verif.Window.Spec
import Mathlib.Tactic.Linarith
import Mathlib.Tactic.NormNum
import Mathlib.Tactic.Ring

/-!
# C118: window functions
-/

namespace Verif.Props

open Verif.Window

theorem wrap32_small {x : ℤ} (h0 : 0 ≤ x) (h : x < 2147483648) : wrap32 x = x := by
  unfold wrap32; omega

theorem window_lower (k : Kind) (t : SizeTy) (size : ℕ) (periodic : Bool) (h : WindowOk t size periodic) :
    0 < period size periodic ∧
    lower k t size periodic = .values ((List.range size).map fun i : ℕ => emit k i (period size periodic)) := by
  unfold WindowOk at h
  unfold lower computeSize period
  cases periodic with
  | true =>
    simp only [if_true] at h ⊢
    obtain ⟨rfl, h1, h2⟩ := h
    refine ⟨by omega, ?_⟩
    simp only
    rw [wrap32_small (by omega) (by omega)]
    have : ((((size : ℤ) + 1 : ℤ) : ℝ) - 1) = (size : ℝ) := by push_cast; ring
    rw [this, if_neg]
    rintro ⟨h3, _⟩
    have : size = 0 := by exact_mod_cast h3
    omega
  | false =>
    simp only [Bool.false_eq_true, if_false] at h ⊢
    refine ⟨by omega, ?_⟩
    have : (((size : ℤ) : ℝ) - 1) = ((size - 1 : ℕ) : ℝ) := by
      rw [Nat.cast_sub (by omega)]; push_cast; ring
    rw [this, if_neg]
    rintro ⟨h3, _⟩
    have : size - 1 = 0 := by exact_mod_cast h3
    omega

/-- HannWindow and BlackmanWindow return the values of ONNX, for all sizes, up to rounding. Missing: periodic windows with a size
of type int64 (`C118_int64_false`), integer output types. -/
theorem C118_hann_blackman_partial (k : Kind) (hk : k ≠ .hamming) (t : SizeTy) (size : ℕ) (periodic : Bool)
    (h : WindowOk t size periodic) : lower k t size periodic = .values ((List.range size).map (window k size periodic)) := by
  rw [(window_lower k t size periodic h).2]
  congr 1
  apply List.map_congr_left
  intro i _
  cases k with
  | hamming => exact absurd rfl hk
  | hann =>
    simp only [emit, window, coeff]
    ring_nf
  | blackman =>
    simp only [emit, window, coeff]
    rw [show 2 * (2 * Real.pi * (i : ℝ) / (period size periodic : ℕ)) = 4 * Real.pi * i / (period size periodic : ℕ) by ring]
    norm_num

/-- HammingWindow returns values within 0.0000166 of those of ONNX. -/
theorem C118_hamming_partial (t : SizeTy) (size : ℕ) (periodic : Bool) (h : WindowOk t size periodic) :
    ∃ l, lower .hamming t size periodic = .values l ∧ l.length = size ∧
      ∀ (i : ℕ) (hi : i < l.length), |l[i] - window .hamming size periodic i| ≤ 0.0000166 := by
  refine ⟨_, (window_lower .hamming t size periodic h).2, by simp, ?_⟩
  intro i hi
  simp only [List.getElem_map, List.getElem_range, emit, window, coeff]
  have h1 := Real.neg_one_le_cos (2 * Real.pi * (i : ℝ) / (period size periodic : ℕ))
  have h2 := Real.cos_le_one (2 * Real.pi * (i : ℝ) / (period size periodic : ℕ))
  rw [abs_le]
  constructor <;> norm_num <;> linarith

/-- The values of HammingWindow are not those of ONNX: the constants have five digits. The first one, 4/46, is too small by more
than one part in 6000, a thousand times the precision of float32. -/
theorem C118_hamming_false (t : SizeTy) (size : ℕ) (periodic : Bool) (h : WindowOk t size periodic) :
    ∃ l x, lower .hamming t size periodic = .values l ∧ l.head? = some x ∧ window .hamming size periodic 0 = 4 / 46 ∧
      x < 4 / 46 * (1 - 1 / 6000) := by
  have hs : 0 < size := by
    unfold WindowOk at h
    cases periodic <;> simp at h <;> omega
  obtain ⟨n, rfl⟩ : ∃ n, size = n + 1 := ⟨size - 1, by omega⟩
  refine ⟨_, 0.54347 - 0.45653 * Real.cos 0, (window_lower .hamming t (n + 1) periodic h).2, ?_, ?_, ?_⟩
  · simp [List.range_succ_eq_map, emit]
  · simp [window, coeff]; norm_num
  · rw [Real.cos_zero]; norm_num

/-- A periodic window (the default) with a size of type int64, which ONNX allows, cannot be compiled. -/
theorem C118_int64_false (k : Kind) (size : ℕ) : lower k .i64 size true = .assertion := rfl

/-- A symmetric window of one element divides by zero, as the definition of ONNX does. -/
theorem C118_one (k : Kind) (t : SizeTy) : lower k t 1 false = .divisionByZero := by
  simp [lower, computeSize]

example : WindowOk .i32 10 true ∧ WindowOk .i64 10 false ∧ window .hann 10 true 5 = 1 := by
  refine ⟨by simp [WindowOk], by simp [WindowOk], ?_⟩
  simp only [window, coeff, period, if_true]
  rw [show 2 * Real.pi * ((5 : ℕ) : ℝ) / ((10 : ℕ) : ℝ) = Real.pi by push_cast; ring]
  simp; norm_num

end Verif.Props
