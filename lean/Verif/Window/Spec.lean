import Verif.Window.Model

/-!
# Window functions (specification)

The functions that ONNX gives as definitions of HammingWindow, HannWindow and BlackmanWindow (opset 17).
-/

namespace Verif.Window

/-- The coefficients. -/
noncomputable def coeff : Kind → ℝ × ℝ × ℝ
  | .hamming => (25 / 46, 1 - 25 / 46, 0)
  | .hann => (1 / 2, 1 / 2, 0)
  | .blackman => (42 / 100, 1 / 2, 8 / 100)

/-- The number of steps of the full period: the size for a periodic window, one less for a symmetric one. -/
def period (size : ℕ) (periodic : Bool) : ℕ := if periodic then size else size - 1

/-- Element `n` of the window. -/
noncomputable def window (k : Kind) (size : ℕ) (periodic : Bool) (n : ℕ) : ℝ :=
  let θ := 2 * Real.pi * n / period size periodic
  (coeff k).1 - (coeff k).2.1 * Real.cos θ + (coeff k).2.2 * Real.cos (2 * θ)

/-- The sizes for which there is code and no division by zero. -/
def WindowOk (t : SizeTy) (size : ℕ) (periodic : Bool) : Prop :=
  if periodic then t = .i32 ∧ 1 ≤ size ∧ size < 2147483647 else 2 ≤ size

end Verif.Window
