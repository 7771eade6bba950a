import Verif.Decompose.ReduceLemmas
import Verif.Rewrite.ArithSem

/-! # Sum as a sequence of additions -/

namespace Verif.Decompose

open Verif.Rewrite

/-! ### Specification -/

/-- The shape that the shapes of several operands are stretched to. -/
def jointShape (ts : List (Tensor ℝ)) : Option (List ℕ) :=
  ts.foldl (fun s t => s.bind fun s => bshape s t.shape) (some [])

/-- Sum of one or more operands, with broadcasting. -/
noncomputable def sumR (ts : List (Tensor ℝ)) : Option (Tensor ℝ) :=
  if ts = [] then none
  else (jointShape ts).map fun s => build s fun i => (ts.map fun t => t.get (bidx t.shape i)).sum

/-! ### Model -/

/-- `SumToAddPattern` (Decompose.cpp 1118-1140): the value of the operators it creates. The Cast at the end, which only
changes what is recorded of the shape, is left out; without operands the assertion fails. -/
noncomputable def sumToAdd : List (Tensor ℝ) → Option (Tensor ℝ)
  | [] => none
  | t :: ts => ts.foldl (fun r u => r.bind fun r => binary (biR .add) r u) (some t)

/-! ### Proof -/

theorem bidx_bidx {a b i : List ℕ} (h : Bto a b) (hi : b.length ≤ i.length) : bidx a (bidx b i) = bidx a i := by
  have hb := bidx_length hi
  have hab := h.1
  refine ext_getD (by rw [bidx_length (by omega), bidx_length (by omega)]) fun k hk => ?_
  rw [bidx_length (by omega)] at hk
  rw [bidx_getD (by omega) hk, bidx_getD (by omega) hk]
  by_cases h1 : a.getD k 0 = 1
  · rw [if_pos h1, if_pos h1]
  rw [if_neg h1, if_neg h1, hb, bidx_getD hi (by omega)]
  rcases h.2 k hk with h2 | h2
  · exact absurd h2 h1
  rw [if_neg (by rw [← h2]; exact h1)]
  congr 1
  omega

theorem bshape_nil (s : List ℕ) : bshape [] s = some s :=
  bshape_of_bto ⟨by simp, fun k hk => absurd hk (by simp)⟩

theorem jointShape_cons (t : Tensor ℝ) (ts : List (Tensor ℝ)) :
    jointShape (t :: ts) = ts.foldl (fun s t => s.bind fun s => bshape s t.shape) (some t.shape) := by
  unfold jointShape
  rw [List.foldl_cons, Option.bind_some, bshape_nil]

theorem foldl_none {α β : Type} {f : α → β → Option α} (l : List β) :
    l.foldl (fun r u => r.bind fun r => f r u) none = none := by
  induction l with
  | nil => rfl
  | cons a l ih => exact ih

theorem joint_bto {s s' : List ℕ} {ts : List (Tensor ℝ)}
    (h : ts.foldl (fun s t => s.bind fun s => bshape s t.shape) (some s) = some s') :
    Bto s s' ∧ ∀ t ∈ ts, Bto t.shape s' := by
  induction ts generalizing s with
  | nil =>
    cases h
    exact ⟨bto_of_bshape (bshape_self _), fun t ht => absurd ht (by simp)⟩
  | cons t ts ih =>
    rw [List.foldl_cons, Option.bind_some] at h
    rcases h1 : bshape s t.shape with _ | s1
    · rw [h1, foldl_none (f := fun s (t : Tensor ℝ) => bshape s t.shape)] at h
      cases h
    · rw [h1] at h
      obtain ⟨g1, g2⟩ := ih h
      refine ⟨(bto_bshape h1).trans g1, fun u hu => ?_⟩
      rcases List.mem_cons.1 hu with rfl | hu
      · exact (bto_bshape_right h1).trans g1
      · exact g2 u hu

theorem sum_fold (f : List ℕ → ℝ) (s : List ℕ) (ts : List (Tensor ℝ)) :
    ts.foldl (fun r u => r.bind fun r => binary (biR .add) r u) (some (build s f)) =
      (ts.foldl (fun s t => s.bind fun s => bshape s t.shape) (some s)).map fun s' =>
        build s' fun i => f (bidx s i) + (ts.map fun t => t.get (bidx t.shape i)).sum := by
  induction ts generalizing f s with
  | nil =>
    simp only [List.foldl_nil, Option.map_some, List.map_nil, List.sum_nil, add_zero]
    exact congrArg some (build_congr fun i hi => by rw [bidx_self hi])
  | cons t ts ih =>
    rw [List.foldl_cons, List.foldl_cons, Option.bind_some, Option.bind_some]
    rcases h1 : bshape s t.shape with _ | s1
    · rw [foldl_none (f := fun s (t : Tensor ℝ) => bshape s t.shape), Option.map_none]
      have : binary (biR .add) (build s f) t = none := by unfold binary; rw [build_shape, h1]; rfl
      rw [this, foldl_none (f := fun r u => binary (biR .add) r u)]
    · have : binary (biR .add) (build s f) t = some (build s1 fun i => f (bidx s i) + t.get (bidx t.shape i)) := by
        unfold binary
        rw [build_shape, h1, Option.map_some]
        refine congrArg some (build_congr fun i hi => ?_)
        rw [get_build _ (bidx_inBounds h1 hi)]
        rfl
      rw [this, ih]
      rcases h2 : ts.foldl (fun s t => s.bind fun s => bshape s t.shape) (some s1) with _ | s'
      · rw [h2]; rfl
      rw [h2, Option.map_some, Option.map_some]
      refine congrArg some (build_congr fun i hi => ?_)
      have hlen : i.length = s'.length := hi.length
      have hb := (joint_bto h2).1.1
      have hl : s1.length ≤ i.length := by omega
      rw [bidx_bidx (bto_bshape h1) hl, bidx_bidx (bto_bshape_right h1) hl, List.map_cons, List.sum_cons, add_assoc]

theorem sumToAdd_eq (ts : List (Tensor ℝ)) : sumToAdd ts = sumR ts := by
  cases ts with
  | nil => rfl
  | cons t ts =>
    unfold sumR
    rw [if_neg (by simp), jointShape_cons]
    have := sum_fold t.get t.shape ts
    rw [build_get] at this
    rw [sumToAdd, this]
    rfl

end Verif.Decompose
