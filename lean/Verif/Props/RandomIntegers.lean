import Verif.RandInt.Lemmas
/-!
# C132: tensors with random integers
-/
namespace Verif.Props

open Verif.RandInt

/-- C132 (partial: for unsigned types of 32 and 64 bits, the bounds are both in the lower half or both
in the upper half of the range). A tensor that is filled with random integers has only values between
the bounds. -/
theorem C132_range_partial (t : IntTy) (ht : t ∈ intTypes) (n : Nat) (lb ub : Int) (h : lb ≤ ub)
    (hl : t.Has lb) (hu : t.Has ub)
    (hs : t.signed = false → 32 ≤ t.bits → ub < 2 ^ (t.bits - 1) ∨ 2 ^ (t.bits - 1) ≤ lb)
    (gen : Nat → Int → Int → Int) (hg : Uniform gen) :
    ∃ vs, fill t n lb ub gen = .values vs ∧ vs.length = n ∧ ∀ v ∈ vs, lb ≤ v ∧ v ≤ ub := by
  unfold fill
  by_cases he : lb = ub
  · rw [if_pos he]
    refine ⟨_, rfl, by simp, ?_⟩
    intro v hv
    have := List.eq_of_mem_replicate hv
    omega
  · rw [if_neg he]
    obtain ⟨h1, h2⟩ := cast_bounds t ht lb ub h hl hu hs
    unfold generate
    rw [if_pos h1]
    refine ⟨_, rfl, by simp, ?_⟩
    intro v hv
    obtain ⟨k, -, rfl⟩ := List.mem_map.1 hv
    obtain ⟨h3, h4⟩ := hg k _ _ h1
    exact h2 _ h3 h4

/-- The hypotheses are met by small integers with both signs. -/
example : (⟨8, true⟩ : IntTy) ∈ intTypes ∧ (-10 : Int) ≤ 10 ∧ IntTy.Has ⟨8, true⟩ (-10) ∧
    IntTy.Has ⟨8, true⟩ 10 ∧ Uniform (fun _ a _ => a) := by
  refine ⟨by decide, by decide, by simp [IntTy.Has], by simp [IntTy.Has], ?_⟩
  intro k a b h
  exact ⟨le_refl _, h⟩

/-- C132 is false for unsigned types of 32 and 64 bits when the bounds are in different halves of the
range: the distribution has its bounds in the wrong order. -/
theorem C132_unsigned_false (t : IntTy) (ht : t = ⟨32, false⟩ ∨ t = ⟨64, false⟩) (n : Nat) (lb ub : Int)
    (hl : t.Has lb) (hu : t.Has ub) (h1 : lb < 2 ^ (t.bits - 1)) (h2 : 2 ^ (t.bits - 1) ≤ ub)
    (gen : Nat → Int → Int → Int) :
    fill t n lb ub gen = .undefined := by
  unfold fill
  rw [if_neg (by omega), generate, if_neg (cast_disorder t ht lb ub hl hu h1 h2)]

/-- The hypotheses are met by the bounds 0 and 3000000000. -/
example : IntTy.Has ⟨32, false⟩ 0 ∧ IntTy.Has ⟨32, false⟩ 3000000000 ∧ (0 : Int) < 2 ^ (32 - 1) ∧
    (2 : Int) ^ (32 - 1) ≤ 3000000000 := by
  refine ⟨by simp [IntTy.Has], by simp [IntTy.Has], by norm_num, by norm_num⟩

end Verif.Props
