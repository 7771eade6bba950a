import Mathlib.Order.Lattice
import Mathlib.Order.Defs.LinearOrder

/-!
# Model of the runtime sort

Source: `/repo/src/Runtime/OMSort.c`. The order array is a map from positions to entries
together with its length `n`; an access outside `[0, n)` is the outcome `none`. Element values
are any linearly ordered type, so floating-point NaN is outside the model.
-/

namespace Verif.Runtime.Sort

/-- `compareFunctionBody`, OMSort.c 50-58: -1 when the first index goes first, else 1. -/
def cmp {α : Type} [LinearOrder α] (asc : Bool) (v : Nat → α) (x y : Nat) : Int :=
  if (if asc then v x < v y else v x > v y) ∨ (v x = v y ∧ x < y) then -1 else 1

/-- An array of `uint64_t` positions. -/
abbrev Mem := Int → Nat

/-- Array read. -/
def rd (n : Int) (m : Mem) (i : Int) : Option Nat :=
  if 0 ≤ i ∧ i < n then some (m i) else none

/-- `SWAP_INDEX`, OMSort.c 130-135. -/
def swap (n : Int) (m : Mem) (i j : Int) : Option Mem :=
  if 0 ≤ i ∧ i < n ∧ 0 ≤ j ∧ j < n then
    some fun k => if k = i then m j else if k = j then m i else m k
  else none

/-- The loop of `quick_sort_partition`, OMSort.c 195-207. `t` is the number of iterations
left, `end - j`. -/
def partLoop (n : Int) (c : Nat → Nat → Int) (e : Int) : Nat → Int → Int → Mem → Option (Int × Mem)
  | 0, _, i, m => some (i, m)
  | t + 1, j, i, m =>
    (rd n m j).bind fun x => (rd n m e).bind fun y =>
      if c x y ≤ 0 then
        (swap n m i j).bind fun m' => partLoop n c e t (j + 1) (i + 1) m'
      else partLoop n c e t (j + 1) i m

/-- `quick_sort_partition`, OMSort.c 186-209. `r` is the result of `rand()`. -/
def partition (n : Int) (c : Nat → Nat → Int) (r : Nat) (b e : Int) (m : Mem) :
    Option (Int × Mem) :=
  (swap n m (b + (r : Int) % (e - b + 1)) e).bind fun m1 =>
  (partLoop n c e (e - b).toNat b b m1).bind fun p =>
  (swap n p.2 e p.1).bind fun m3 => some (p.1, m3)

/-- `log2u`, OMSort.c 177-183. -/
def log2u (n : Nat) : Nat := if n > 1 then log2u (n / 2) + 1 else 0
termination_by n

/-- State of `quick_sort_custom`: pending intervals (top first), array, number of calls to
`rand()` so far. -/
structure QS where
  stack : List (Int × Int)
  m : Mem
  calls : Nat

/-- `STACK_PUSH`, OMSort.c 151-156. Each entry uses two slots; `none` is the assertion that
there is room failing. -/
def push (cap : Int) (st : List (Int × Int)) (x : Int × Int) : Option (List (Int × Int)) :=
  if 2 * (st.length : Int) ≤ cap - 2 then some (x :: st) else none

/-- Conditional push, OMSort.c 239-247. -/
def pushIf (cap : Int) (x : Int × Int) (st : List (Int × Int)) : Option (List (Int × Int)) :=
  if x.1 < x.2 then push cap st x else some st

/-- One iteration of the main loop, OMSort.c 230-249. -/
def qsStep (n cap : Int) (c : Nat → Nat → Int) (rand : Nat → Nat) (s : QS) : Option QS :=
  match s.stack with
  | [] => none
  | (b, e) :: st =>
    if b < e then
      (partition n c (rand s.calls) b e s.m).bind fun pm =>
        let p := pm.1
        let st' :=
          if p - b > e - p then
            (pushIf cap (b, p - 1) st).bind (pushIf cap (p + 1, e))
          else
            (pushIf cap (p + 1, e) st).bind (pushIf cap (b, p - 1))
        st'.map fun st'' => { stack := st'', m := pm.2, calls := s.calls + 1 }
    else some { s with stack := st }

/-- Outcome of running the loop for a while. -/
inductive Outcome
  | fault
  | running (s : QS)
  | done (m : Mem)

/-- At most `fuel` iterations of the main loop. -/
def qsIter (n cap : Int) (c : Nat → Nat → Int) (rand : Nat → Nat) : Nat → QS → Outcome
  | 0, s => if s.stack.isEmpty then .done s.m else .running s
  | f + 1, s =>
    if s.stack.isEmpty then .done s.m
    else
      match qsStep n cap c rand s with
      | none => .fault
      | some s' => qsIter n cap c rand f s'

/-- `quick_sort_custom`, OMSort.c 216-250, cut after `fuel` iterations. -/
def quickSortCustom (c : Nat → Nat → Int) (rand : Nat → Nat) (n : Nat) (m : Mem) (fuel : Nat) :
    Outcome :=
  let stackSize : Int := ((log2u (n + 1) : Int) + 2) * 2
  match push stackSize [] (0, (n : Int) - 1) with
  | none => .fault
  | some st => qsIter n stackSize c rand fuel ⟨st, m, 0⟩

/-- The array as a list. -/
def toList (n : Nat) (m : Mem) : List Nat := (List.range n).map fun k : Nat => m (k : Int)

end Verif.Runtime.Sort
