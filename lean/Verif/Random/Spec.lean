import Verif.Random.Model

/-!
# Random values (specification)
-/

namespace Verif.Random

/-- The run-time sizes agree with the type. -/
def Agree : Dims → List ℕ → Prop
  | [], [] => True
  | some d :: ds, x :: xs => d = x ∧ Agree ds xs
  | none :: ds, _ :: xs => Agree ds xs
  | _, _ => False

/-- The largest distance from the mean, for a scale of one: the root of 62 times the logarithm of 2, about 6.56. -/
noncomputable def maxNormal : ℝ := Real.sqrt (62 * Real.log 2)

/-- A generator that returns its state for ever, for examples. -/
def constGen : Gen where
  State := ℕ
  srand := fun n => n
  rand := fun s => (min s randMax, s)
  bound := fun s => Nat.min_le_right s randMax

end Verif.Random
