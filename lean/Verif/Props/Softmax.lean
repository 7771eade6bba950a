import Verif.Lower.SoftmaxLemmas

/-!
C76: Softmax.
-/

namespace Verif.Props

open Verif.Lower

/-- C76.  From opset 13 on: for all shapes (also empty ones), all axes in range and all inputs
that are real numbers or minus infinity with a real number in every line along the axis, the
loops stay in bounds, never divide by zero, never take the exponential of a positive number,
and every element of the result is the exponential of the input divided by the sum of the
exponentials along the axis. -/
theorem C76_softmax (X : Mem (WithBot ℝ)) (ex : ℝ → Option ℝ) (hex : ExpOk ex) (axis : ℤ)
    (ha : -(X.shape.length : ℤ) ≤ axis ∧ axis < X.shape.length) (junk : Idx → ℝ) (a : ℕ)
    (hax : (a : ℤ) = if axis < 0 then axis + X.shape.length else axis)
    (hfin : ∀ i, InShape i X.shape → ∃ j ∈ lineOf X.shape a i, X.data j ≠ ⊥) :
    ∃ Y, softmax13 X ex axis junk = some Y ∧ IsSoftmax (lineOf X.shape a) X Y := by
  obtain ⟨a', e, hlt, h⟩ := smAxis_eq ha
  have haa : a' = a := by split at hax <;> omega
  subst haa
  have hX : X.shape = X.shape.take a' ++ [X.shape[a']] ++ X.shape.drop (a' + 1) := by simp
  have hl : (X.shape.take a').length = a' := by simp; omega
  have := softmax13_spec hex (X := X) (da := X.shape.take a') (d := X.shape[a']) (dc := X.shape.drop (a' + 1)) hX
    (axis := axis) (by rw [hl]; exact e) junk (by
      rw [hl]
      intro i hi
      obtain ⟨j, hj, hb⟩ := hfin i hi
      unfold lineOf at hj
      rw [List.mem_filter, mem_idxs, decide_eq_true_eq] at hj
      exact ⟨j, hj.1, hj.2, hb⟩)
  rw [hl] at this
  exact this

/-- C76, up to opset 11: the same with all dimensions from the axis on taken together. -/
theorem C76_softmax11 (X : Mem (WithBot ℝ)) (ex : ℝ → Option ℝ) (hex : ExpOk ex) (axis : ℤ)
    (ha : -(X.shape.length : ℤ) ≤ axis ∧ axis < X.shape.length) (junk : Idx → ℝ) (a : ℕ)
    (hax : (a : ℤ) = if axis < 0 then axis + X.shape.length else axis)
    (hfin : ∀ i, InShape i X.shape → ∃ j ∈ blockOf X.shape a i, X.data j ≠ ⊥) :
    ∃ Y, softmax11 X ex axis junk = some Y ∧ IsSoftmax (blockOf X.shape a) X Y := by
  obtain ⟨a', e, hlt, h⟩ := smAxis_eq ha
  have haa : a' = a := by split at hax <;> omega
  subst haa
  refine softmax11_spec hex hlt e junk ?_
  intro i hi
  obtain ⟨j, hj, hb⟩ := hfin i hi
  unfold blockOf at hj
  rw [List.mem_filter, mem_idxs, decide_eq_true_eq] at hj
  exact ⟨j, hj.1, hj.2, hb⟩

/-- C76: the result is a probability distribution along the axis. -/
theorem C76_distribution (X : Mem (WithBot ℝ)) (ex : ℝ → Option ℝ) (hex : ExpOk ex) (axis : ℤ)
    (ha : -(X.shape.length : ℤ) ≤ axis ∧ axis < X.shape.length) (junk : Idx → ℝ) (a : ℕ)
    (hax : (a : ℤ) = if axis < 0 then axis + X.shape.length else axis)
    (hfin : ∀ i, InShape i X.shape → ∃ j ∈ lineOf X.shape a i, X.data j ≠ ⊥) :
    ∃ Y, softmax13 X ex axis junk = some Y ∧ ∀ i, InShape i X.shape →
      0 ≤ Y.data i ∧ ((lineOf X.shape a i).map Y.data).sum = 1 := by
  obtain ⟨Y, e, _, hv⟩ := C76_softmax X ex hex axis ha junk a hax hfin
  refine ⟨Y, e, fun i hi => ⟨?_, ?_⟩⟩
  · rw [hv i hi]
    refine div_nonneg (expE_nonneg _) (List.sum_nonneg ?_)
    intro x hx
    obtain ⟨q, _, rfl⟩ := List.mem_map.1 hx
    exact expE_nonneg _
  · obtain ⟨j0, hj0, hb⟩ := hfin i hi
    have hpos : 0 < ((lineOf X.shape a i).map fun j => expE (X.data j)).sum := by
      refine lt_of_lt_of_le (expE_pos hb) (List.single_le_sum ?_ _ (List.mem_map.2 ⟨j0, hj0, rfl⟩))
      intro x hx
      obtain ⟨q, _, rfl⟩ := List.mem_map.1 hx
      exact expE_nonneg _
    have hall : ∀ j ∈ lineOf X.shape a i, Y.data j =
        expE (X.data j) / ((lineOf X.shape a i).map fun j => expE (X.data j)).sum := by
      intro j hj
      have hj' := hj
      unfold lineOf at hj'
      rw [List.mem_filter, mem_idxs, decide_eq_true_eq] at hj'
      rw [hv j hj'.1]
      unfold lineOf
      rw [hj'.2]
    rw [List.map_congr_left hall]
    have hdiv : ∀ (L : List Idx) (s : ℝ), (L.map fun j => expE (X.data j) / s).sum = (L.map fun j => expE (X.data j)).sum / s := by
      intro L s
      induction L with
      | nil => simp
      | cons x L ih => simp only [List.map_cons, List.sum_cons, ih]; ring
    rw [hdiv]
    exact div_self hpos.ne'

/-- The hypotheses are met by a 2x3 input with a masked element and an exponential that
overflows for all positive arguments. -/
example : ∃ Y, softmax13 ⟨[2, 3], fun i => if i = [0, 1] then ⊥ else ((1000 * i.getD 1 0 : ℤ) : ℝ)⟩
      (fun x => if x ≤ 0 then some (Real.exp x) else none) (-1) (fun _ => 0) = some Y ∧
    IsSoftmax (lineOf [2, 3] 1) ⟨[2, 3], fun i => if i = [0, 1] then ⊥ else ((1000 * i.getD 1 0 : ℤ) : ℝ)⟩ Y := by
  refine C76_softmax _ _ (fun x hx => if_pos hx) (-1) (by decide) _ 1 (by decide) ?_
  intro i hi
  refine ⟨[i.getD 0 0, 0], ?_, ?_⟩
  · cases hi with
    | cons h1 h2 => cases h2 with
      | cons h2 h3 =>
        cases h3
        unfold lineOf
        rw [List.mem_filter, mem_idxs]
        refine ⟨inShape_cons.2 ⟨h1, inShape_cons.2 ⟨by decide, inShape_nil⟩⟩, by simp⟩
  · simp only
    rw [if_neg (by simp)]
    exact WithBot.coe_ne_bot

/-- C76: a line that is masked altogether has no result (the program computes minus infinity
minus itself), so the hypothesis on the input is needed. -/
theorem C76_masked_line_undefined : softmax13 ⟨[1], fun _ => ⊥⟩ (fun x => some (Real.exp x)) 0 (fun _ => 0) = none := by
  have h1 : idxs [1] = [[0]] := by decide
  simp only [softmax13, smAxis, List.length_cons, List.length_nil]
  have h2 : (List.eraseIdx [(1 : ℤ)] 0) = [] := rfl
  simp [iterate, h2, idxs, smInner, smMax, smPos, Mem.load, upto, InShape, smExpStep, subMax]

end Verif.Props
