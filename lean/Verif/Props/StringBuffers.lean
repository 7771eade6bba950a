import Verif.StrBuf.Lemmas
/-!
# C131: tensors of strings in one buffer
-/
namespace Verif.Props

open Verif.StrBuf

/-- C131: the buffer for a tensor of strings is made without writes outside of it, has as many elements
as there are strings, and every element reads as the string with its number, for all strings without
the character 0. -/
theorem C131_strings_partial (ss : List (List Nat)) (h : ∀ s ∈ ss, 0 ∉ s) :
    ∃ b, build ss = some b ∧ b.ptrs.length = ss.length ∧ ∀ (i : Nat) s, ss[i]? = some s → b.Reads i s := by
  obtain ⟨b, h1, h2, h3⟩ := build_ok ss
  refine ⟨b, h1, h2, fun i s hs => ?_⟩
  have hz := h s (List.mem_of_getElem? hs)
  have := takeWhile_self s hz
  have := this ▸ h3 i s hs
  exact this

/-- The hypothesis is met by three strings, one of them empty. -/
example : (∀ s ∈ [[54, 51], [], [45, 49]], 0 ∉ s) ∧
    build [[54, 51], [], [45, 49]] =
      some { ptrs := [0, 3, 4], chars := [some 54, some 51, some 0, some 0, some 45, some 49, some 0] } := by
  decide

/-- C131 is false with the character 0: strings that have it are cut there. -/
theorem C131_cut_false (pre post : List (List Nat)) (s t : List Nat) (hs : 0 ∉ s) :
    ∃ b, build (pre ++ (s ++ 0 :: t) :: post) = some b ∧ b.Reads pre.length s := by
  obtain ⟨b, h1, -, h3⟩ := build_ok (pre ++ (s ++ 0 :: t) :: post)
  refine ⟨b, h1, ?_⟩
  have h4 := h3 pre.length (s ++ 0 :: t) (by simp)
  have h5 : ((s ++ 0 :: t).takeWhile fun c => c != 0) = s := by
    clear h1 h3 h4
    induction s with
    | nil => rfl
    | cons c s ih =>
      simp only [List.mem_cons, not_or] at hs
      have hc : (c != 0) = true := by simpa using fun h => hs.1 h.symm
      rw [List.cons_append, List.takeWhile_cons, if_pos hc, ih hs.2]
  rw [h5] at h4
  exact h4

/-- The hypothesis is met. -/
example : 0 ∉ [65, 66] := by decide

end Verif.Props
