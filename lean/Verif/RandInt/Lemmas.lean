import Verif.RandInt.Model
import Mathlib.Tactic
/-!
# Tensors with random integers: lemmas (C132)
-/
namespace Verif.RandInt

/-- The bounds are on the same side of half of the range. -/
def SameHalf (t : IntTy) (lb ub : Int) : Prop :=
  t.signed = false → 32 ≤ t.bits → ub < 2 ^ (t.bits - 1) ∨ 2 ^ (t.bits - 1) ≤ lb

theorem cast_bounds (t : IntTy) (ht : t ∈ intTypes) (lb ub : Int) (h : lb ≤ ub) (hl : t.Has lb)
    (hu : t.Has ub) (hs : SameHalf t lb ub) :
    cast (distTy t) lb ≤ cast (distTy t) ub ∧
      ∀ v, cast (distTy t) lb ≤ v → v ≤ cast (distTy t) ub → lb ≤ cast t v ∧ cast t v ≤ ub := by
  simp only [intTypes, List.mem_cons, List.not_mem_nil, or_false] at ht
  rcases ht with rfl | rfl | rfl | rfl | rfl | rfl | rfl | rfl | rfl <;>
    (simp [IntTy.Has, SameHalf, cast, distTy] at hl hu hs ⊢
     refine ⟨by omega, fun v h1 h2 => by omega⟩)

theorem cast_disorder (t : IntTy) (ht : t = ⟨32, false⟩ ∨ t = ⟨64, false⟩) (lb ub : Int)
    (hl : t.Has lb) (hu : t.Has ub) (h1 : lb < 2 ^ (t.bits - 1)) (h2 : 2 ^ (t.bits - 1) ≤ ub) :
    ¬ cast (distTy t) lb ≤ cast (distTy t) ub := by
  rcases ht with rfl | rfl <;>
    (simp [IntTy.Has, cast, distTy] at hl hu h1 h2 ⊢
     omega)

end Verif.RandInt
