import Verif.LoopTrip.Model

/-! # Loops that count (vocabulary of the claims about trip counts) -/

namespace Verif.LoopTrip

variable {X : Type}

/-- The integer that a value of the body has in the first iteration, for constants and carried values. -/
def startOf (env : Env X) (l : LoopOp) : Val → Option ℤ
  | .arg (k + 2) => match (l.init[k]?).map (Src.eval env) with
    | some (.int z) => some z
    | _ => none
  | .const _ z => some z
  | _ => none

/-- The loop goes on while its counter, which begins at `lb` and grows by `step`, is below `ub`. -/
def Counts (env : Env X) (l : LoopOp) (lb ub step : ℤ) : Prop :=
  ∃ k s u, l.yields.head? = some (.less (.add (.arg k) s) u) ∧
    startOf env l (.arg k) = some lb ∧ startOf env l s = some step ∧ startOf env l u = some ub

/-- Arguments of the body that are carried values, and anything that is not an argument. -/
def Val.Carried (l : LoopOp) : Val → Prop
  | .arg k => 1 ≤ k ∧ k < 2 + l.init.length
  | .outerArg _ _ => False
  | _ => True

/-- The value of the trip count is not used for anything else by the loop. -/
def TripUnshared (l : LoopOp) : Prop := ∀ s, l.trip = .src s → l.cond ≠ s ∧ s ∉ l.init

end Verif.LoopTrip
