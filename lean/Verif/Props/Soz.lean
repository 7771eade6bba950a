import Verif.Soz.Lemmas
/-!
# C130: tensors with rows of ones and zeros
-/
namespace Verif.Props

open Verif.Soz

/-- C130 (partial: the numbers of ones are given, or rows are not empty). The tensor has the number of
elements of its shape; every row along the last dimension begins with ones, as many as are asked for or
as there is place, or a random number of them between 1 and all but one, and all the rest is zero. -/
theorem C130_rows_partial (pre : List Nat) (inner type : Nat) (count : Int) (dist : Nat → Nat)
    (ht : type ∈ numeric) (hd : ∀ r, 1 ≤ dist r ∧ dist r ≤ distMax inner)
    (hc : 0 ≤ count ∨ 0 < inner) :
    ∃ data, create (pre ++ [inner]) type count dist = .made data ∧
      data.length = (pre ++ [inner]).prod ∧
      ∀ row, row < pre.prod → ∃ n, RowIs data inner row n ∧ (0 ≤ count → (n : Int) = min count inner) ∧
        (count < 0 → 1 ≤ n ∧ (n < inner ∨ (n = 1 ∧ inner = 1))) := by
  have hn : ∀ r, ones count inner dist r ≤ inner := by
    intro r
    unfold ones
    split
    · have := (hd r).2
      unfold distMax at this
      split at this <;> omega
    · exact Nat.min_le_right _ _
  obtain ⟨out, h1, h2, h3⟩ := rowLoop_ok inner (ones count inner dist) hn (pre.prod) 0
    (List.replicate (pre.prod * inner) 0) (by simp)
  refine ⟨out, ?_, by rw [h2]; simp, ?_⟩
  · simp only [create, List.getLast?_append, List.getLast?_singleton, Option.some_or,
      handled_of type ht, if_true, rows_eq, List.dropLast_concat, h1]
  · intro row hrow
    refine ⟨ones count inner dist row, ?_, ?_, ?_⟩
    · intro j hj
      rw [h3 row j hj]
      have hb : row * inner + j < pre.prod * inner := by
        have := Nat.mul_le_mul_right inner (show row + 1 ≤ pre.prod from hrow)
        rw [Nat.add_mul] at this
        omega
      by_cases hjn : j < ones count inner dist row
      · rw [if_pos (by omega), if_pos hjn]
      · rw [if_neg (by omega), if_neg hjn]
        simp [hb]
    · intro h0
      unfold ones
      rw [if_neg (by omega)]
      omega
    · intro h0
      unfold ones
      rw [if_pos h0]
      have h4 := hd row
      unfold distMax at h4
      split at h4 <;> omega

/-- The hypotheses are met, and two rows of three elements begin with two and one ones. -/
example : (7 ∈ numeric ∧ (∀ r : Nat, 1 ≤ (if r = 0 then 2 else 1) ∧ (if r = 0 then 2 else 1) ≤ distMax 3)) ∧
    create [2, 3] 7 (-1) (fun r => if r = 0 then 2 else 1) = .made [1, 1, 0, 1, 0, 0] := by
  refine ⟨⟨by decide, ?_⟩, by decide⟩
  intro r
  have : distMax 3 = 2 := by decide
  rw [this]
  split <;> omega

/-- C130 is false for empty rows with random numbers of ones: there is a write after the end of the
buffer, which has no elements. -/
theorem C130_empty_rows_false (pre : List Nat) (type : Nat) (count : Int) (dist : Nat → Nat)
    (ht : type ∈ numeric) (hd : ∀ r, 1 ≤ dist r ∧ dist r ≤ distMax 0) (hc : count < 0)
    (hpre : ∀ d ∈ pre, 0 < d) :
    create (pre ++ [0]) type count dist = .fault := by
  have hp : 0 < pre.prod := by
    clear hd hc ht
    induction pre with
    | nil => simp
    | cons d ds ih =>
      rw [List.prod_cons]
      exact Nat.mul_pos (hpre d (by simp)) (ih fun x hx => hpre x (by simp [hx]))
  obtain ⟨l, hl⟩ : ∃ l, pre.prod = l + 1 := ⟨pre.prod - 1, by omega⟩
  obtain ⟨m, hm⟩ : ∃ m, dist 0 = m + 1 := ⟨dist 0 - 1, by have := (hd 0).1; omega⟩
  have h1 : rowLoop 0 (ones count 0 dist) (rows (pre ++ [0])) 0
      (List.replicate (rows (pre ++ [0]) * 0) 0) = none := by
    rw [rows_eq, List.dropLast_concat, hl]
    simp only [rowLoop, ones, hc, if_true, hm, fillOnes, Nat.mul_zero, List.replicate_zero,
      List.length_nil, Nat.lt_irrefl, if_false]
  simp only [create, List.getLast?_append, List.getLast?_singleton, Option.some_or,
    handled_of type ht, if_true, h1]

/-- The hypotheses are met by the shape 3 x 0. -/
example : 1 ∈ numeric ∧ (∀ _ : Nat, 1 ≤ 1 ∧ 1 ≤ distMax 0) ∧ ((-1 : Int) < 0) ∧ (∀ d ∈ [3], 0 < d) := by
  refine ⟨by decide, fun _ => by decide, by decide, by simp⟩

end Verif.Props
