import Verif.Props.LoopTrip

/-!
# C90: loops that the rewrite of the trip count changes

Each theorem is a concrete model for which the condition of `C90_trip_count_partial` named in the comment fails, and the
rewritten loop gives something else.
-/

namespace Verif.Props

open Verif.LoopTrip

/-- `do { } while (++i < n)` with `n` and the start `i` computed elsewhere. -/
def countTo (step : ℤ) : LoopOp where
  trip := .src (.const 0 100)
  cond := .value 1
  init := [.value 2, .value 3]
  yields := [.less (.add (.arg 2) (.const 5 step)) (.arg 3), .add (.arg 2) (.const 5 step), .arg 3]

/-- The same, after the rewrite. -/
def countTo' (step : ℤ) : LoopOp :=
  { countTo step with
    trip := .code (.const 0 100) (.value 2) (.value 3) (.const 5 step)
    yields := [.arg 1, .add (.arg 2) (.const 5 step), .arg 3] }

theorem countTo_rewrites (f64 : ℚ → ℚ) (fresh : ℕ) (step : ℤ) :
    rewriteTrip f64 fresh (countTo step) = .into (countTo' step) := by
  simp [rewriteTrip, countTo, countTo', Val.argNumber, yieldsAt, fixedValue, LoopOp.operand, withBounds, Src.const?,
    replaceTrip]

/-- Surroundings: the start and the bound. -/
def startAndBound (w : ℕ) (a b : ℤ) : Env ℕ where
  width := w
  src := fun n => if n = 2 then .int a else if n = 3 then .int b else .bool true
  other := fun _ _ _ _ => .bool true

/-- The start is not below the bound: the body of the loop runs once, as the condition is looked at after the body, the
rewritten loop does not run at all. -/
theorem C90_start_at_bound_false : Counts (startAndBound 64 5 5) (countTo 1) 5 5 1 ∧
    (countTo 1).run (roundTo 24) (startAndBound 64 5 5) = ([.int 6, .int 5], [[]]) ∧
    (countTo' 1).run (roundTo 24) (startAndBound 64 5 5) = ([.int 5, .int 5], []) := by
  refine ⟨⟨2, .const 5 1, .arg 3, rfl, rfl, rfl, rfl⟩, ?_, ?_⟩ <;> decide +kernel

/-- The counter falls: it stays below the bound, so the loop runs as often as its trip count says (100 times); the
rewritten loop does not run. -/
theorem C90_falling_counter_false : Counts (startAndBound 64 5 7) (countTo (-1)) 5 7 (-1) ∧
    ((countTo (-1)).run (roundTo 24) (startAndBound 64 5 7)).1 = [.int (-95), .int 7] ∧
    (countTo' (-1)).run (roundTo 24) (startAndBound 64 5 7) = ([.int 5, .int 7], []) := by
  refine ⟨⟨2, .const 5 (-1), .arg 3, rfl, rfl, rfl, rfl⟩, ?_, ?_⟩ <;> decide +kernel

/-- The range has more than 24 digits: the last iteration is lost. -/
theorem C90_large_range_false : Counts (startAndBound 64 0 33554433) (countTo 16777216) 0 33554433 16777216 ∧
    (countTo 16777216).run (roundTo 24) (startAndBound 64 0 33554433) =
      ([.int 50331648, .int 33554433], [[], [], []]) ∧
    (countTo' 16777216).run (roundTo 24) (startAndBound 64 0 33554433) =
      ([.int 33554432, .int 33554433], [[], []]) := by
  refine ⟨⟨2, .const 5 16777216, .arg 3, rfl, rfl, rfl, rfl⟩, ?_, ?_⟩ <;> decide +kernel

/-- The counter overflows its type, here 8 bits: 126 + 2 is -128, which is below the bound again. -/
theorem C90_overflow_false : Counts (startAndBound 8 0 127) (countTo 2) 0 127 2 ∧
    ((countTo 2).run (roundTo 24) (startAndBound 8 0 127)).2.length = 100 ∧
    ((countTo' 2).run (roundTo 24) (startAndBound 8 0 127)).2.length = 64 := by
  refine ⟨⟨2, .const 5 2, .arg 3, rfl, rfl, rfl, rfl⟩, ?_, ?_⟩ <;> decide +kernel

/-- A loop in which the constant 1000 is the trip count and the initial value of a carried value. -/
def sharedTrip : LoopOp where
  trip := .src (.const 0 1000)
  cond := .value 1
  init := [.const 0 1000, .const 4 0]
  yields := [.less (.add (.arg 3) (.const 5 1)) (.const 6 3), .arg 2, .add (.arg 3) (.const 5 1)]

/-- The new trip count is put in place of every use of the old one by the loop, the initial value included. -/
theorem C90_shared_trip_count_false : ∃ l', rewriteTrip (roundTo 53) 9 sharedTrip = .into l' ∧
    sharedTrip.run (roundTo 24) (startAndBound 64 0 0) = ([.int 1000, .int 3], [[], [], []]) ∧
    l'.run (roundTo 24) (startAndBound 64 0 0) = ([.int 3, .int 3], [[], [], []]) := by
  refine ⟨{ sharedTrip with
    trip := .src (.const 9 3), init := [.const 9 3, .const 4 0]
    yields := [.arg 1, .arg 2, .add (.arg 3) (.const 5 1)] }, ?_, ?_, ?_⟩
  · have h : constTrip (roundTo 53) 0 3 1 1000 = some 3 := by decide +kernel
    show withBounds (roundTo 53) 9 sharedTrip (.const 0 1000) 1000 (.const 4 0) (.const 6 3) (.const 5 1) = _
    simp only [withBounds, Src.const?, h]
    rfl
  all_goals decide +kernel

/-- The bound is argument 3 of the function around the loop, and the loop yields it for its own argument 3. -/
def outerBound : LoopOp where
  trip := .src (.const 0 1000)
  cond := .value 1
  init := [.const 4 0, .const 6 2]
  yields := [.less (.add (.arg 2) (.const 5 1)) (.outerArg 3 3), .add (.arg 2) (.const 5 1), .outerArg 3 3]

/-- An argument of an enclosing block is taken for the argument of the body with the same number: the loop counts to the
value of the outer argument (7), the rewritten loop to the initial value of its own (2). -/
theorem C90_outer_argument_false : ∃ l', rewriteTrip (roundTo 53) 9 outerBound = .into l' ∧
    outerBound.run (roundTo 24) (startAndBound 64 0 7) = ([.int 7, .int 7], List.replicate 7 []) ∧
    l'.run (roundTo 24) (startAndBound 64 0 7) = ([.int 2, .int 7], List.replicate 2 []) := by
  refine ⟨{ outerBound with
    trip := .src (.const 9 2)
    yields := [.arg 1, .add (.arg 2) (.const 5 1), .outerArg 3 3] }, ?_, ?_, ?_⟩
  · have h : constTrip (roundTo 53) 0 2 1 1000 = some 2 := by decide +kernel
    show withBounds (roundTo 53) 9 outerBound (.const 0 1000) 1000 (.const 4 0) (.const 6 2) (.const 5 1) = _
    simp only [withBounds, Src.const?, h]
    rfl
  all_goals decide +kernel

/-- A loop that goes on while the iteration number plus one is below ten; and one that counts to argument 0 of the
function around it. -/
def iterationNumber : LoopOp where
  trip := .src (.const 0 1000)
  cond := .value 1
  init := [.value 2]
  yields := [.less (.add (.arg 0) (.const 5 1)) (.const 6 10), .arg 2]

def firstInput : LoopOp where
  trip := .src (.const 0 1000)
  cond := .value 1
  init := [.const 4 0]
  yields := [.less (.add (.arg 2) (.const 5 1)) (.outerArg 0 3), .add (.arg 2) (.const 5 1)]

/-- The pattern looks for argument 0 at position -1 of the yielded values. -/
theorem C90_crash_false : rewriteTrip (roundTo 53) 9 iterationNumber = .crash ∧
    rewriteTrip (roundTo 53) 9 firstInput = .crash := by
  constructor <;>
    simp [rewriteTrip, iterationNumber, firstInput, Val.argNumber, yieldsAt, fixedValue, LoopOp.operand]

end Verif.Props
