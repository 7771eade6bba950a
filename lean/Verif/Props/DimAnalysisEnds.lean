import Verif.Props.DimAnalysisWrong
import Verif.Dims.TermLemmas

/-!
# C86: the analysis of dynamic dimensions ends

The model of the analysis has a bound on the number of steps; here: the bound is not reached if it is large enough. The first loop (equal
dimensions) ends for every function. The second one (offsets) does not: two functions for which it goes on forever.
-/

namespace Verif.Props

open Verif.Dims

/-- The loop that finds equal dimensions ends, for every function and every order of traversal of the sets. -/
theorem C86_sets_end (g : Graph) (ord : List (List Dim) → List (List Dim)) (ho : IsOrder ord) :
    ∃ N : ℕ, ∀ n ≥ N, (eqLoop g ord n (initSets g)).isSome = true := by
  obtain ⟨U, h1, h2, _⟩ := universe_exists g
  obtain ⟨N, hN⟩ := eqLoop_init g ord ho U h1 h2
  refine ⟨N, fun n hn => ?_⟩
  obtain ⟨m, hm, _⟩ := hN n hn
  rw [hm]
  rfl

/-- An order of traversal: the reverse one. -/
theorem reverse_order : IsOrder List.reverse := by
  intro m
  refine ⟨m.reverse, List.reverse_perm m, ?_⟩
  generalize m.reverse = l
  induction l with
  | nil => exact List.Forall₂.nil
  | cons a l ih => exact List.Forall₂.cons (List.Perm.refl a) ih

example : ∃ m, eqLoop addG List.reverse 3 (initSets addG) = some m ∧ m ≠ initSets addG :=
  ⟨(eqLoop addG List.reverse 3 (initSets addG)).getD [], by decide +kernel, by decide +kernel⟩

/-- The analysis ends for every function in which no Cast gives a tensor with a static dimension and no first dimension is read
(`onnx.Dim`) of a tensor with a dimension of static size 1. -/
theorem C86_ends_partial (g : Graph) (hw : WellFormed g) (hn : NoStatic g) (ord : List (List Dim) → List (List Dim))
    (ho : IsOrder ord) : ∃ N : ℕ, ∀ n ≥ N, (analyze g ord n).isSome = true := analyze_ends g hw hn ord ho

example : WellFormed DimWitness.g ∧ NoStatic DimWitness.g ∧ IsOrder List.reverse :=
  ⟨wf_spec _ (by decide +kernel), by constructor <;> simp [DimWitness.g, mkG, DimWitness.ops], reverse_order⟩

/-- The bound on the steps does not change the result. -/
theorem C86_steps (g : Graph) (ord : List (List Dim) → List (List Dim)) (k n : ℕ) (a b : List (List Dim) × List Rel)
    (ha : analyze g ord k = some a) (hb : analyze g ord n = some b) : a = b := by
  unfold analyze at ha hb
  split at ha
  · rename_i h
    rw [if_pos h] at hb
    rw [ha] at hb
    simpa using hb
  · rename_i h
    rw [if_neg h] at hb
    rw [Option.bind_eq_some_iff] at ha hb
    obtain ⟨m1, h1, h2⟩ := ha
    obtain ⟨m2, h3, h4⟩ := hb
    have := eqLoop_mono g ord k n _ _ _ h1 h3
    subst this
    exact offLoop_mono g ord k n _ _ _ _ h2 h4

example : analyze addG id 7 = analyze addG id 9 ∧ (analyze addG id 7).isSome = true := by decide +kernel

/-! ### Dim -/

/-- `x` of type `[?, 1]`, `z` of type `[?, ?]`: `Concat(z, x)` on the first axis, `y` an elementwise operation on `z`, and a tensor of
shape `Dim(x, 0)`. -/
def dimG : Graph := mkG [[none, some 1], [none, none], [some 1], [some 1], [none], [none, some 1], [none, none]] [2, 3]
  [⟨.dim 0, [some 0], [2]⟩, ⟨.concat 0, [some 2], [3]⟩, ⟨.constantOfShape, [some 3], [4]⟩, ⟨.concat 0, [some 1, some 0], [5]⟩,
    ⟨.other, [some 1], [6]⟩] [0, 1] [] [((6, 0), (1, 0)), ((6, 1), (1, 1))]


/-- The function has executions, but its analysis does not end: the second size of `y` and the value of `Dim(x, 0)` are found to be equal
over and over again, since the type of the latter is static. -/
theorem C86_dim_false : WellFormed dimG ∧ (∃ r, Executes dimG r) ∧ ∀ n : ℕ, analyze dimG id n = none := by
  refine ⟨wf_spec _ (by decide +kernel),
    ⟨mkR [[4, 1], [2, 1], [1], [1], [4], [6, 1], [2, 1]] [[], [], [4], [4], [], [], []], ?_⟩, ?_⟩
  · apply ex_spec
    · decide +kernel
    · intro o ho
      simp only [List.mem_cons, List.not_mem_nil, or_false] at ho
      rcases ho with rfl | rfl | rfl | rfl | rfl
      · exact ⟨0, 2, 4, rfl, rfl, rfl, rfl, rfl⟩
      · exact ⟨[2], 3, by simp, rfl, rfl, cc_spec _ _ _ 0 (by decide +kernel)⟩
      · exact ⟨3, 4, rfl, rfl, rfl⟩
      · exact ⟨[1, 0], 5, by simp, rfl, rfl, cc_spec _ _ _ 0 (by decide +kernel)⟩
      · trivial
  · refine analyze_stuck dimG id 5 ((eqLoop dimG id 5 (initSets dimG)).getD []) _ (by decide +kernel) (by decide +kernel)
      (by decide +kernel) rfl (by decide +kernel)

/-- `y` an elementwise operation on `x`, and a tensor of shape `Dim(x, 0)` converted to `f32` and back to `i64`. -/
def castLoopG : Graph := mkG [[none], [some 1], [some 1], [some 1], [some 1], [none], [none]] [1, 3, 4]
  [⟨.dim 0, [some 0], [1]⟩, ⟨.cast, [some 1], [2]⟩, ⟨.cast, [some 2], [3]⟩, ⟨.concat 0, [some 3], [4]⟩,
    ⟨.constantOfShape, [some 4], [5]⟩, ⟨.other, [some 0], [6]⟩] [0] [] [((6, 0), (0, 0))]

/-- The analysis of this function does not end either. -/
theorem C86_cast_false : WellFormed castLoopG ∧ (∃ r, Executes castLoopG r) ∧ ∀ n : ℕ, analyze castLoopG id n = none := by
  refine ⟨wf_spec _ (by decide +kernel), ⟨mkR [[9], [1], [1], [1], [1], [9], [9]] [[], [9], [9], [9], [9], [], []], ?_⟩, ?_⟩
  · apply ex_spec
    · decide +kernel
    · intro o ho
      simp only [List.mem_cons, List.not_mem_nil, or_false] at ho
      rcases ho with rfl | rfl | rfl | rfl | rfl | rfl
      · exact ⟨0, 1, 9, rfl, rfl, rfl, rfl, rfl⟩
      · exact ⟨1, 2, rfl, rfl, rfl⟩
      · exact ⟨2, 3, rfl, rfl, rfl⟩
      · exact ⟨[3], 4, by simp, rfl, rfl, cc_spec _ _ _ 0 (by decide +kernel)⟩
      · exact ⟨4, 5, rfl, rfl, rfl⟩
      · trivial
  · refine analyze_stuck castLoopG id 6 ((eqLoop castLoopG id 6 (initSets castLoopG)).getD []) _ (by decide +kernel)
      (by decide +kernel) (by decide +kernel) rfl (by decide +kernel)

end Verif.Props
