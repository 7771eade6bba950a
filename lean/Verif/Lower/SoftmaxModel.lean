import Verif.Lower.Nd
import Mathlib.Analysis.SpecialFunctions.Exp

/-!
Model of the lowering of Softmax.

Source: /repo/src/Conversion/ONNXToKrnl/Math/Softmax.cpp 24-312

Numbers are real numbers or minus infinity (which masked inputs contain): rounding is left
out.  The exponential is a parameter that may fail, on overflow.  An operation whose floating
point result is not a number fails.  Loops are run in order, parallel loops are not modelled.
-/

namespace Verif.Lower

/-- Subtraction of the maximum; minus infinity minus itself is not a number. -/
noncomputable def subMax (x m : WithBot ℝ) : Option (WithBot ℝ) :=
  match x, m with
  | some x, some m => some ((x - m : ℝ) : WithBot ℝ)
  | none, some _ => some ⊥
  | _, none => none

/-- `math.exp`: zero at minus infinity, `ex` elsewhere. -/
def expBot (ex : ℝ → Option ℝ) (x : WithBot ℝ) : Option ℝ :=
  match x with
  | none => some 0
  | some x => ex x

open Classical in
/-- Division; without a result when the divisor is zero. -/
noncomputable def fdiv (a b : ℝ) : Option ℝ := if b = 0 then none else some (a / b)

/-- The indices built in the three loops (45-57, 83-95, 120-132). -/
def smPos (coerced : Bool) (axis : ℕ) (outer inner : Idx) : Idx :=
  if coerced then outer ++ inner else outer.take axis ++ inner.take 1 ++ outer.drop axis

/-- First loop of `emitInnerLoops` (33-66): the maximum, from minus infinity. -/
noncomputable def smMax (X : Mem (WithBot ℝ)) (inner : List ℤ) (pos : Idx → Idx) : Option (WithBot ℝ) :=
  (idxs inner).foldlM (fun m k => (X.load (pos k)).map fun x => max m x) ⊥

/-- One iteration of the second loop (75-106): the exponential is added and stored. -/
noncomputable def smExpStep (X : Mem (WithBot ℝ)) (ex : ℝ → Option ℝ) (m : WithBot ℝ) (p : Idx) (s : ℝ × Mem ℝ) :
    Option (ℝ × Mem ℝ) :=
  (X.load p).bind fun x => (subMax x m).bind fun d => (expBot ex d).bind fun e =>
    (s.2.store p e).map fun o => (s.1 + e, o)

/-- One iteration of the third loop (114-138). -/
noncomputable def smDivStep (sum : ℝ) (p : Idx) (o : Mem ℝ) : Option (Mem ℝ) :=
  (o.load p).bind fun e => (fdiv e sum).bind fun r => o.store p r

/-- `emitInnerLoops` (26-139). -/
noncomputable def smInner (X : Mem (WithBot ℝ)) (ex : ℝ → Option ℝ) (inner : List ℤ) (pos : Idx → Idx) (o : Mem ℝ) :
    Option (Mem ℝ) :=
  (smMax X inner pos).bind fun m =>
    ((idxs inner).foldlM (fun s k => smExpStep X ex m (pos k) s) (0, o)).bind fun s =>
      (idxs inner).foldlM (fun o k => smDivStep s.1 (pos k) o) s.2

/-- `axis >= 0 ? axis : rank + axis` and the assertion (285-286).  The assertion admits
axes that are still negative, for which loop bounds do not exist. -/
def smAxis (rank : ℕ) (axis : ℤ) : Option ℕ :=
  let a := if axis ≥ 0 then axis else rank + axis
  if -(rank : ℤ) ≤ a ∧ a ≤ rank - 1 then (if 0 ≤ a then some a.toNat else none) else none

/-- The outer loops for opset 13 (219-262): all dimensions but the axis. -/
noncomputable def softmax13 (X : Mem (WithBot ℝ)) (ex : ℝ → Option ℝ) (axis : ℤ) (junk : Idx → ℝ) : Option (Mem ℝ) :=
  (smAxis X.shape.length axis).bind fun a =>
    iterate (X.shape.eraseIdx a) (fun o m => smInner X ex [X.shape.getD a 0] (smPos false a o) m) ⟨X.shape, junk⟩

/-- The outer loops up to opset 11 (149-214): the dimensions before the axis, no loop at all
when the axis is 0. -/
noncomputable def softmax11 (X : Mem (WithBot ℝ)) (ex : ℝ → Option ℝ) (axis : ℤ) (junk : Idx → ℝ) : Option (Mem ℝ) :=
  (smAxis X.shape.length axis).bind fun a =>
    if a = 0 then smInner X ex X.shape (smPos true 0 []) ⟨X.shape, junk⟩
    else iterate (X.shape.take a) (fun o m => smInner X ex (X.shape.drop a) (smPos true a o) m) ⟨X.shape, junk⟩

end Verif.Lower
