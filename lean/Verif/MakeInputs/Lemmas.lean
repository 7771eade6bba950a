import Verif.MakeInputs.Model
import Mathlib.Tactic
/-!
# Memory of inputs that are made at run time: lemmas (C133)
-/
namespace Verif.MakeInputs

/-- Tensors with these numbers. -/
def tensors (k n : Nat) : List Res := (List.range' k n).map Res.tensor

theorem destroy_eq : ∀ (n k : Nat), destroyLoop n k (.array :: tensors k n) = some [.array] := by
  intro n
  induction n with
  | zero => intro k; rfl
  | succ n ih =>
    intro k
    have e : tensors k (n + 1) = .tensor k :: tensors (k + 1) n := by
      simp [tensors, List.range'_succ]
    rw [destroyLoop, release, e, if_pos (by simp)]
    simp only
    rw [List.erase_cons_tail (by simp), List.erase_cons_head]
    exact ih (k + 1)

theorem abort_eq (n : Nat) : abort n (.array :: tensors 0 n) = .null [] := by
  rw [abort, destroy_eq]
  rfl

theorem tensors_snoc (n : Nat) : tensors 0 n ++ [.tensor n] = tensors 0 (n + 1) := by
  simp [tensors, List.range'_concat]

theorem finish_eq (w : World) (n : Nat) :
    finish w (.array :: tensors 0 n) =
      if w.list = true ∧ w.listArray = true then .made (tensors 0 n ++ [.list, .listArray])
      else .null (tensors 0 n) := by
  have hl : (.list : Res) ∉ Res.array :: tensors 0 n := by simp [tensors]
  unfold finish listCreate
  cases h1 : w.list with
  | false => simp [release]
  | true =>
    cases h2 : w.listArray with
    | true => simp [release]
    | false =>
      have h3 : release .list (Res.array :: tensors 0 n ++ [.list]) = some (.array :: tensors 0 n) := by
        rw [release, if_pos (by simp), List.erase_append_right _ hl]
        simp
      simp only [if_true, Bool.false_eq_true, if_false, h3, Option.map_some, and_false]
      simp [release]

theorem loop_eq (w : World) : ∀ (left i : Nat),
    inputLoop w left i (.array :: tensors 0 i) =
      if ∀ j, i ≤ j → j < i + left → w.tensor j = true then finish w (.array :: tensors 0 (i + left))
      else .null [] := by
  intro left
  induction left with
  | zero => intro i; rw [if_pos (by intro j h1 h2; omega)]; rfl
  | succ left ih =>
    intro i
    rw [inputLoop]
    cases h : w.tensor i with
    | false =>
      rw [if_neg (by simp), abort_eq, if_neg]
      intro hc
      rw [hc i (le_refl _) (by omega)] at h
      cases h
    | true =>
      rw [if_pos rfl, List.cons_append, tensors_snoc, ih (i + 1)]
      have e : i + 1 + left = i + (left + 1) := by omega
      rw [e]
      by_cases hc : ∀ j, i + 1 ≤ j → j < i + (left + 1) → w.tensor j = true
      · rw [if_pos hc, if_pos]
        intro j h1 h2
        rcases Nat.eq_or_lt_of_le h1 with rfl | h3
        · exact h
        · exact hc j h3 h2
      · rw [if_neg hc, if_neg]
        intro hc'
        exact hc fun j h1 h2 => hc' j (by omega) h2

theorem make_eq (w : World) (n : Nat) (h : w.array = true) :
    makeInputs w n =
      if ∀ j, j < n → w.tensor j = true then finish w (.array :: tensors 0 n) else .null [] := by
  rw [makeInputs, if_pos h]
  have := loop_eq w n 0
  simp only [Nat.zero_le, true_implies, Nat.zero_add] at this
  exact this

end Verif.MakeInputs
