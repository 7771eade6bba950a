import Verif.MakeInputs.Lemmas
/-!
# C133: memory of inputs that are made at run time
-/
namespace Verif.Props

open Verif.MakeInputs

/-- C133: when all inputs can be made, and there is memory, the list is made, and what is allocated is
the list, its array and every tensor once. -/
theorem C133_made (w : World) (n : Nat) (hw : w.array = true ∧ w.list = true ∧ w.listArray = true)
    (ht : ∀ i, i < n → w.tensor i = true) :
    ∃ live, makeInputs w n = .made live ∧ live.Nodup ∧
      ∀ r, r ∈ live ↔ r = .list ∨ r = .listArray ∨ ∃ i, i < n ∧ r = .tensor i := by
  refine ⟨tensors 0 n ++ [.list, .listArray], ?_, ?_, ?_⟩
  · rw [make_eq w n hw.1, if_pos ht, finish_eq, if_pos hw.2]
  · have h1 : (tensors 0 n).Nodup := by
      unfold tensors
      refine List.Nodup.map ?_ List.nodup_range'
      intro a b h
      cases h
      rfl
    refine List.nodup_append.2 ⟨h1, by decide, ?_⟩
    intro a ha b hb hab
    subst hab
    simp [tensors] at ha
    obtain ⟨i, -, rfl⟩ := ha
    simp at hb
  · intro r
    simp only [tensors, List.mem_append, List.mem_map, List.mem_range'_1, List.mem_cons,
      List.not_mem_nil, or_false, Nat.zero_le, true_and, Nat.zero_add]
    constructor
    · rintro (⟨i, h, rfl⟩ | h | h)
      · exact Or.inr (Or.inr ⟨i, h, rfl⟩)
      · exact Or.inl h
      · exact Or.inr (Or.inl h)
    · rintro (h | h | ⟨i, h, rfl⟩)
      · exact Or.inr (Or.inl h)
      · exact Or.inr (Or.inr h)
      · exact Or.inl ⟨i, h, rfl⟩

/-- The hypotheses are met. -/
example : makeInputs ⟨fun _ => true, true, true, true⟩ 2 =
    .made [.tensor 0, .tensor 1, .list, .listArray] := by decide

/-- C133 (partial: unless all tensors are made and there is no memory for the list). When an input
cannot be made, there is no list, and nothing stays allocated; nothing is released twice. -/
theorem C133_null_partial (w : World) (n i : Nat) (hi : i < n)
    (h : w.array = false ∨ w.tensor i = false) : makeInputs w n = .null [] := by
  cases ha : w.array with
  | false => rw [makeInputs, if_neg (by simp [ha])]
  | true =>
    rw [make_eq w n ha, if_neg]
    intro hc
    have := hc i hi
    rcases h with h | h
    · rw [ha] at h; cases h
    · rw [this] at h; cases h

/-- The hypotheses are met by an input that cannot be made after two others. -/
example : makeInputs ⟨fun i => i != 2, true, true, true⟩ 4 = .null [] := by decide

/-- C133 is false when there is no memory for the list: the tensors stay allocated, and nobody has
them. -/
theorem C133_leak_false (w : World) (n : Nat) (hw : w.array = true)
    (ht : ∀ i, i < n → w.tensor i = true) (hl : w.list = false ∨ w.listArray = false) :
    ∃ live, makeInputs w n = .null live ∧ ∀ i, i < n → .tensor i ∈ live := by
  refine ⟨tensors 0 n, ?_, ?_⟩
  · rw [make_eq w n hw, if_pos ht, finish_eq, if_neg]
    rintro ⟨h1, h2⟩
    rcases hl with h | h
    · rw [h1] at h; cases h
    · rw [h2] at h; cases h
  · intro i hi
    simp [tensors, hi]

/-- The hypotheses are met. -/
example : makeInputs ⟨fun _ => true, true, true, false⟩ 2 = .null [.tensor 0, .tensor 1] := by decide

end Verif.Props
