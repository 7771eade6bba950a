import Mathlib.Data.Int.Notation
import Mathlib.Data.List.Basic

/-!
# Numpy-style broadcasting (specification)

Shapes are aligned at their last dimension; missing leading dimensions count as 1. The operands
broadcast to `out` if, in every position, each operand has extent 1 or the extent of `out`, and some
operand has the extent of `out`.
-/

namespace Verif.Shape

/-- The extent `k` positions before the last dimension; 1 beyond the rank. -/
def extent (s : List Int) (k : Nat) : Int := s.reverse.getD k 1

structure BroadcastTo (shapes : List (List Int)) (out : List Int) : Prop where
  fits : ∀ s ∈ shapes, s.length ≤ out.length
  rank : ∃ s ∈ shapes, s.length = out.length
  each : ∀ k < out.length, ∀ s ∈ shapes, extent s k = 1 ∨ extent s k = extent out k
  some : ∀ k < out.length, ∃ s ∈ shapes, extent s k = extent out k

/-- Unidirectional broadcasting: all other operands broadcast to the shape of the first. -/
structure BroadcastToFirst (first : List Int) (others : List (List Int)) : Prop where
  fits : ∀ s ∈ others, s.length ≤ first.length
  each : ∀ k < first.length, ∀ s ∈ others, extent s k = 1 ∨ extent s k = extent first k

end Verif.Shape
