import Verif.Shape.ReshapeLemmas
import Mathlib.Tactic.NormNum
import Mathlib.Tactic.IntervalCases

/-!
# Property C35: Reshape

`Verif/Shape/ReshapeSpec.lean` says when `out` is the shape asked for. Dimension `k` of the data is
quantity `dataQ k`, entry `i` of the request `shapeQ i`.
-/

namespace Verif.Props
open Verif.IndexExpr Verif.Shape Finset

/-- **C35**. Whatever is known of the data's shape and of the request, and whatever dimensions `found` to
be the same on both sides are left out of the computation, the inferred shape and the generated code
give the shape asked for.

Missing: requests with an extent that is 0 after copying, for which the code divides by zero
(`C35_empty_false`), dimensions left out that are 0, and more than `2^52` elements. -/
theorem C35_reshape_partial (fl : ℚ → ℚ) (hfl : IsDouble fl) (simp : Aff → Option Int)
    (hs : SimpOk simp) (ρ : Nat → Int) (κ : Nat → Option Int) (hκ : ∀ x n, κ x = some n → ρ x = n)
    (n m : Nat) (out : Nat → Int)
    (h : ReshapeTo n m (fun k => ρ (dataQ k)) (fun i => ρ (shapeQ i)) out)
    (hpos : ∀ k < n, 0 ≤ ρ (dataQ k)) (hreq : ∀ i < m, ρ (shapeQ i) ≠ -1 → out i ≠ 0)
    (found : List (Option Nat)) (hfl' : found.length ≤ m)
    (hfound : ∀ (i k : Nat), found[i]? = some (some k) →
      k < n ∧ ρ (shapeQ i) = ρ (dataQ k) ∧ ρ (dataQ k) ≠ 0)
    (hsize : ∏ k ∈ range n, ρ (dataQ k) + ∏ i ∈ range m, (if ρ (shapeQ i) = -1 then 1 else out i) ≤ 2 ^ 52) :
    (reshapeShape n m found).length = m ∧
    ∀ i < m, ∃ e, (reshapeShape n m found)[i]? = some e ∧ Computes fl simp κ ρ e (out i) := by
  refine ⟨by simp [reshapeShape], fun i hi => ?_⟩
  obtain ⟨b2, b1, b3⟩ := bijection_spec found 0 [] (by simp) (by simp) (by simp)
  set b := bijection found 0 [] with hb
  have hb3 : ∀ p ∈ b, found[p.1]? = some (some p.2) := by
    intro p hp
    rcases b3 p hp with h | ⟨-, h⟩
    · simp at h
    · simpa using h
  have hm : ∀ p ∈ b, p.1 < m := fun p hp => by
    have := (List.getElem?_eq_some_iff.1 (hb3 p hp)).1; omega
  have hn : ∀ p ∈ b, p.2 < n := fun p hp => (hfound _ _ (hb3 p hp)).1
  have heq : ∀ p ∈ b, ρ (shapeQ p.1) = ρ (dataQ p.2) ∧ 0 < ρ (dataQ p.2) := fun p hp => by
    obtain ⟨q1, q2, q3⟩ := hfound _ _ (hb3 p hp)
    have := hpos _ q1
    exact ⟨q2, by omega⟩
  have hwpos : ∀ j < m, 0 < (if ρ (shapeQ j) = -1 then 1 else out j) := by
    intro j hj
    split
    · omega
    · rename_i hne
      have h1 := h.valid j hj
      have h2 := hreq j hj hne
      by_cases h0 : ρ (shapeQ j) = 0
      · obtain ⟨h3, h4⟩ := h.copy j hj h0
        have := hpos j h3
        omega
      · have := h.keep j hj (by omega)
        omega
  obtain ⟨en1, en2⟩ := numElems_eval (ρ := ρ) (b.map Prod.snd) n
  obtain ⟨es1, es2⟩ := numFromShape_eval (b.map Prod.fst) h rfl hpos m (le_refl m)
  have hP : 1 ≤ ((b.map Prod.snd).map fun k => ρ (dataQ k)).prod := by
    have : 0 < ((b.map Prod.snd).map fun k => ρ (dataQ k)).prod := by
      apply List.prod_pos
      intro a ha
      obtain ⟨k, hk, rfl⟩ := List.mem_map.1 ha
      obtain ⟨p, hp, rfl⟩ := List.mem_map.1 hk
      exact (heq p hp).2
    omega
  have e1 := split_prod b2 (n := n) (by
    intro k hk
    obtain ⟨p, hp, rfl⟩ := List.mem_map.1 hk
    exact hn p hp) (fun k => ρ (dataQ k))
  have e2 := split_prod b1 (n := m) (by
    intro k hk
    obtain ⟨p, hp, rfl⟩ := List.mem_map.1 hk
    exact hm p hp) (fun j => if ρ (shapeQ j) = -1 then 1 else out j)
  have e3 : ((b.map Prod.fst).map (fun j => if ρ (shapeQ j) = -1 then 1 else out j)).prod =
      ((b.map Prod.snd).map fun k => ρ (dataQ k)).prod := by
    apply prod_map_congr
    intro p hp
    obtain ⟨q1, q2⟩ := heq p hp
    have : ρ (shapeQ p.1) ≠ -1 := by omega
    simp only [this, if_false]
    rw [h.keep p.1 (hm p hp) (by omega), q1]
  have hN : 0 ≤ ∏ k ∈ (range n).filter (· ∉ b.map Prod.snd), ρ (dataQ k) := by
    apply prod_nonneg
    intro k hk
    exact hpos k (mem_range.1 (mem_filter.1 hk).1)
  have hR : 0 < ∏ j ∈ (range m).filter (· ∉ b.map Prod.fst), (if ρ (shapeQ j) = -1 then 1 else out j) := by
    apply prod_pos
    intro j hj
    exact hwpos j (mem_range.1 (mem_filter.1 hj).1)
  have hquot := fun hs => quotient_spec h b1 b2 hm hn heq hi hs
  rw [e3] at e2
  generalize hNd : (∏ k ∈ (range n).filter (· ∉ b.map Prod.snd), ρ (dataQ k)) = N at *
  generalize hRd : (∏ j ∈ (range m).filter (· ∉ b.map Prod.fst),
    (if ρ (shapeQ j) = -1 then 1 else out j)) = R at *
  generalize ((b.map Prod.snd).map fun k => ρ (dataQ k)).prod = P at *
  rw [← e1, ← e2] at hsize
  have hdiv : DivOk N R := by
    left
    rw [abs_of_nonneg hN, abs_of_pos hR]
    nlinarith
  obtain ⟨ed1, ed2⟩ := reshapeDim_eval h rfl hi
  refine ⟨_, by simp only [reshapeShape]; rw [List.getElem?_map, List.getElem?_range hi]; rfl, ?_⟩
  rw [← hb]
  apply computes_of hfl hs hκ
  · exact ⟨⟨trivial, trivial⟩, ⟨en1, es1, N, R, en2, es2, by omega, hdiv⟩, ed1⟩
  · simp only [Expr.eval, PExpr.eval, en2, es2, ed2, lift2, Option.bind_some, Option.map_some, Cmp.holds,
      decide_eq_true_eq]
    by_cases hm1 : ρ (shapeQ i) = -1
    · rw [if_pos hm1, if_neg (by omega), hquot hm1, floorQ_mul _ _ (by omega)]
    · rw [if_neg hm1, if_neg hm1]

/-- Data `4x3x2` with request `[0, -1]`: the shape asked for is `4x6`. -/
example : ∃ (ρ out : Nat → Int), ReshapeTo 3 2 (fun k => ρ (dataQ k)) (fun i => ρ (shapeQ i)) out ∧
    out 0 = 4 ∧ out 1 = 6 ∧ (∀ i < 2, ρ (shapeQ i) ≠ -1 → out i ≠ 0) := by
  refine ⟨fun x => [4, 0, 3, -1, 2].getD x 0, fun i => if i = 0 then 4 else 6, ⟨?_, ?_, ?_, ?_, ?_⟩,
    rfl, rfl, ?_⟩
  · intro i hi; interval_cases i <;> simp [shapeQ]
  · intro i hi j hj; interval_cases i <;> interval_cases j <;> simp [shapeQ]
  · intro i hi; interval_cases i <;> simp [shapeQ, dataQ]
  · intro i hi; interval_cases i <;> simp [shapeQ]
  · simp [prod_range_succ, dataQ]
  · intro i hi; interval_cases i <;> simp [shapeQ]

/-- **C35 is false** for empty data: copying the two extents `0x3` with the request `[0, 3]`, not known
at compile time, the generated code divides by zero (undefined behaviour). -/
theorem C35_empty_false :
    ∃ (ρ out : Nat → Int), ReshapeTo 2 2 (fun k => ρ (dataQ k)) (fun i => ρ (shapeQ i)) out ∧
      ∃ e g, (reshapeShape 2 2 [])[0]? = some e ∧ e.gen id (fun _ => none) (fun _ => none) = some g ∧
        g.eval ρ = none := by
  refine ⟨fun x => [0, 0, 3, 3].getD x 0, fun i => if i = 0 then 0 else 3, ⟨?_, ?_, ?_, ?_, ?_⟩,
    _, _, rfl, rfl, ?_⟩
  · intro i hi; interval_cases i <;> simp [shapeQ]
  · intro i hi j hj; interval_cases i <;> interval_cases j <;> simp [shapeQ]
  · intro i hi; interval_cases i <;> simp [shapeQ, dataQ]
  · intro i hi; interval_cases i <;> simp [shapeQ]
  · simp [prod_range_succ, dataQ]
  · decide +kernel

end Verif.Props
