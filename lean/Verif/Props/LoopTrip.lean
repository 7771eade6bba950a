import Verif.LoopTrip.RunLemmas

/-!
# C90: replacing the condition of a Loop by a smaller trip count

`LoopOpRewriteMaxTripCountPattern` finds loops that go on while a counter is below a bound, computes how often that is,
and runs the loop that often without looking at the condition. Specification: `Verif/LoopTrip/Spec.lean` (the Loop
operator and rounding) and `Verif/LoopTrip/Claim.lean` (loops that count).
-/

namespace Verif.Props

open Verif.LoopTrip

/-- The rewritten loop has the results of the loop: the final values and everything scanned, in any surroundings, for
any other operations in the body and any initial condition.

Partial: the counter must grow (`0 < step`), begin below the bound, and not overflow; the range must be below `2 ^ 24`
(the division is done in single precision); and the value of the trip count must not be used by the loop for anything
else. See `Verif/Props/LoopTripWrong.lean` for what happens otherwise. -/
theorem C90_trip_count_partial {X : Type} {f64 f32 : ℚ → ℚ} (h64 : Rounds 53 f64) (h32 : Rounds 24 f32) {fresh : ℕ}
    {l l' : LoopOp} (h : rewriteTrip f64 fresh l = .into l') (env : Env X) {lb ub step : ℤ}
    (hcount : Counts env l lb ub step) (hpos : 0 < step) (hlt : lb < ub)
    (hw : 1 ≤ env.width) (hlo : -(2 ^ (env.width - 1)) ≤ lb) (hhi : ub + step ≤ 2 ^ (env.width - 1))
    (hrange : ub - lb < 2 ^ 24) (hstep : step ≤ 2 ^ 24) (hun : TripUnshared l) :
    l'.run f32 env = l.run f32 env := by
  refine rewriteTrip_run h64 h32 h env hcount hpos hlt hw hlo hhi (by omega) ?_ hun
  by_cases hs : ∃ s, l'.trip = .src s
  · exact .inl ⟨hs, by omega, by omega⟩
  · exact .inr ⟨hrange, hstep, hs⟩

/-- When all bounds are constants the new trip count is a constant, computed in double precision: ranges below `2 ^ 53`
are fine. -/
theorem C90_constant_trip_count_partial {X : Type} {f64 f32 : ℚ → ℚ} (h64 : Rounds 53 f64) (h32 : Rounds 24 f32)
    {fresh : ℕ} {l l' : LoopOp} (h : rewriteTrip f64 fresh l = .into l') (hconst : ∃ s, l'.trip = .src s)
    (env : Env X) {lb ub step : ℤ}
    (hcount : Counts env l lb ub step) (hpos : 0 < step) (hlt : lb < ub)
    (hw : 1 ≤ env.width) (hlo : -(2 ^ (env.width - 1)) ≤ lb) (hhi : ub + step ≤ 2 ^ (env.width - 1))
    (hrange : ub - lb < 2 ^ 53) (hstep : step ≤ 2 ^ 53) (hun : TripUnshared l) :
    l'.run f32 env = l.run f32 env :=
  rewriteTrip_run h64 h32 h env hcount hpos hlt hw hlo hhi (by omega) (.inl ⟨hconst, hrange, hstep⟩) hun

/-- With constant bounds the code itself sees to it that the counter grows and begins below the bound. -/
theorem C90_constant_bounds_checked {f64 : ℚ → ℚ} {fresh : ℕ} {l l' : LoopOp}
    (h : rewriteTrip f64 fresh l = .into l') {k n1 n2 n3 : ℕ} {lb ub step : ℤ}
    (hh : l.yields.head? = some (.less (.add (.arg (k + 2)) (.const n1 step)) (.const n2 ub)))
    (hlb : l.init[k]? = some (.const n3 lb)) : 0 < step ∧ lb < ub := by
  obtain ⟨n, mz, counter, sv, uv, k', st, lbs, us, htrip, hh', hk, hy, hst, hl, hu, hb⟩ := rewriteTrip_into h
  rw [hh] at hh'
  cases hh'
  cases hk
  have hl' : l.operand (.const n mz) (k + 2) = l.init[k]? := rfl
  rw [hl', hlb] at hl
  cases hl
  simp only [fixedValue, Val.argNumber] at hst hu
  cases hst
  cases hu
  simp only [withBounds, Src.const?, constTrip] at hb
  by_contra hc
  rw [if_pos (by omega)] at hb
  cases hb

/-- The pattern makes no access out of range when it looks at carried values, constants and results of operations.

Partial: not so for the iteration number and for arguments of enclosing blocks, see `C90_crash_false`. -/
theorem C90_no_crash_partial (f64 : ℚ → ℚ) (fresh : ℕ) {l : LoopOp} (hy : 1 + l.init.length ≤ l.yields.length)
    (h : ∀ c s u, l.yields.head? = some (.less (.add c s) u) → c.Carried l ∧ s.Carried l ∧ u.Carried l) :
    rewriteTrip f64 fresh l ≠ .crash := rewriteTrip_ne_crash f64 fresh hy h

/-! ### The hypotheses are met -/

/-- `for (i = 1; i < 10; i += 2)`, at most 1000 times, with the bound as a carried value and a running list. -/
def countToTen : LoopOp where
  trip := .src (.const 0 1000)
  cond := .value 1
  init := [.value 2, .value 3, .const 4 1]
  yields := [.less (.add (.arg 4) (.const 5 2)) (.arg 3), .other 7, .arg 3, .add (.arg 4) (.const 5 2), .other 8]

/-- Surroundings in which the bound is `b`. -/
def surroundings (b : ℤ) : Env ℕ where
  width := 32
  src := fun n => if n = 3 then .int b else if n = 1 then .bool true else .other n
  other := fun n i _ _ => .other (n + i)

example (f64 : ℚ → ℚ) : rewriteTrip f64 9 countToTen = .into
    { countToTen with
      trip := .code (.const 0 1000) (.const 4 1) (.value 3) (.const 5 2)
      yields := [.arg 1, .other 7, .arg 3, .add (.arg 4) (.const 5 2), .other 8] } := rfl

example : Counts (surroundings 10) countToTen 1 10 2 := ⟨4, .const 5 2, .arg 3, rfl, rfl, rfl, rfl⟩

example : TripUnshared countToTen := by
  intro s hs
  cases hs
  decide +kernel

example : countToTen.run (roundTo 24) (surroundings 10) =
    ([.other 11, .int 10, .int 11], [[.other 8], [.other 9], [.other 10], [.other 11], [.other 12]]) := by
  decide +kernel

/-- The rounding of floating-point numbers, with an unbounded exponent, is a rounding in the sense of the claims. -/
example : Rounds 24 (roundTo 24) ∧ Rounds 53 (roundTo 53) :=
  ⟨roundTo_rounds 24 (by norm_num), roundTo_rounds 53 (by norm_num)⟩

/-- The same with constant bounds. -/
def countToTenConst : LoopOp where
  trip := .src (.const 0 1000)
  cond := .value 1
  init := [.value 2, .const 4 1]
  yields := [.less (.add (.arg 3) (.const 5 2)) (.const 6 10), .other 7, .add (.arg 3) (.const 5 2), .other 8]

example : rewriteTrip id 9 countToTenConst = .into
    { countToTenConst with
      trip := .src (.const 9 5)
      yields := [.arg 1, .other 7, .add (.arg 3) (.const 5 2), .other 8] } := by
  have h : constTrip id 1 10 2 1000 = some 5 := by decide +kernel
  show withBounds id 9 countToTenConst (.const 0 1000) 1000 (.const 4 1) (.const 6 10) (.const 5 2) = _
  simp only [withBounds, Src.const?, h]
  rfl

example : Counts (surroundings 0) countToTenConst 1 10 2 := ⟨3, .const 5 2, .const 6 10, rfl, rfl, rfl, rfl⟩

example : 1 + countToTen.init.length ≤ countToTen.yields.length ∧
    (∀ c s u, countToTen.yields.head? = some (.less (.add c s) u) →
      c.Carried countToTen ∧ s.Carried countToTen ∧ u.Carried countToTen) := by
  refine ⟨by decide, ?_⟩
  intro c s u h
  cases h
  exact ⟨⟨by decide, by decide⟩, trivial, ⟨by decide, by decide⟩⟩

end Verif.Props
