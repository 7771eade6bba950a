import Verif.Lower.ReduceModel
import Verif.Lower.ReduceSpec
import Mathlib.Data.List.GetD
import Mathlib.Tactic.Linarith

namespace Verif.Lower

open Verif.Krnl (Buf IE forLoop starts isTileFull multiReduction)

section
variable {R : Type*}

/-! ### Scalar code -/

theorem accumulate_list (f : R → R → R) (X : Mem R) (acc : Idx → Idx) :
    ∀ (L : List Idx) (o : Mem R), (∀ i ∈ L, InShape i X.shape ∧ InShape (acc i) o.shape) →
      L.foldlM (fun o i => (X.load i).bind fun next => (o.load (acc i)).bind fun a =>
          o.store (acc i) (f a next)) o =
        some ⟨o.shape, fun j => ((L.filter fun i => acc i = j).map X.data).foldl f (o.data j)⟩
  | [], o, _ => by simp
  | i :: L, o, h => by
    obtain ⟨h1, h2⟩ := h i (by simp)
    rw [List.foldlM_cons]
    have e : ((X.load i).bind fun next => (o.load (acc i)).bind fun a =>
        o.store (acc i) (f a next)) = some ⟨o.shape, fun j =>
          if j = acc i then f (o.data (acc i)) (X.data i) else o.data j⟩ := by
      unfold Mem.load Mem.store
      rw [if_pos h1, Option.bind_some, if_pos h2, Option.bind_some, if_pos h2]
    rw [e]
    simp only [Option.bind_eq_bind, Option.bind_some]
    rw [accumulate_list f X acc L ⟨o.shape, fun j =>
          if j = acc i then f (o.data (acc i)) (X.data i) else o.data j⟩ (fun i hi => h i (by simp [hi]))]
    congr 2
    funext j
    by_cases hj : acc i = j
    · subst hj; simp
    · rw [List.filter_cons_of_neg (by simpa using hj)]
      simp only
      rw [if_neg (fun e => hj e.symm)]

theorem accumulate_spec (f : R → R → R) (X : Mem R) (acc : Idx → Idx) (o : Mem R)
    (h : ∀ i, InShape i X.shape → InShape (acc i) o.shape) :
    accumulate f X acc o = some ⟨o.shape, fun j =>
      (((idxs X.shape).filter fun i => acc i = j).map X.data).foldl f (o.data j)⟩ :=
  accumulate_list f X acc _ o fun i hi => ⟨mem_idxs.1 hi, h i (mem_idxs.1 hi)⟩

theorem divideAll_list (div : R → R → R) (d : R) :
    ∀ (L : List Idx) (o : Mem R), L.Nodup → (∀ i ∈ L, InShape i o.shape) →
      L.foldlM (fun o i => (o.load i).bind fun a => o.store i (div a d)) o =
        some ⟨o.shape, fun j => if j ∈ L then div (o.data j) d else o.data j⟩
  | [], o, _, _ => by simp
  | i :: L, o, hn, h => by
    rw [List.nodup_cons] at hn
    have h1 := h i (by simp)
    rw [List.foldlM_cons]
    have e : ((o.load i).bind fun a => o.store i (div a d)) = some ⟨o.shape, fun j =>
          if j = i then div (o.data i) d else o.data j⟩ := by
      unfold Mem.load Mem.store
      rw [if_pos h1, Option.bind_some, if_pos h1]
    rw [e]
    simp only [Option.bind_eq_bind, Option.bind_some]
    rw [divideAll_list div d L ⟨o.shape, fun j =>
          if j = i then div (o.data i) d else o.data j⟩ hn.2 (fun i hi => h i (by simp [hi]))]
    congr 2
    funext j
    by_cases hj : j = i
    · subst hj; simp [hn.1]
    · simp [hj]

theorem divideAll_spec (div : R → R → R) (d : R) (o : Mem R) :
    ∃ o', divideAll div d o = some o' ∧ o'.shape = o.shape ∧
      ∀ i, InShape i o.shape → o'.data i = div (o.data i) d := by
  refine ⟨_, divideAll_list div d _ o (nodup_idxs _) (fun i hi => mem_idxs.1 hi), rfl, ?_⟩
  intro i hi
  simp only
  rw [if_pos (mem_idxs.2 hi)]

end

/-! ### Axes -/

theorem lookup_mapping_lt (keep : Bool) : ∀ (red : List Bool) (a b i : ℕ), i < b →
    (mappingLoop keep red a b).lookup i = none
  | [], _, _, _, _ => rfl
  | true :: red, a, b, i, h => by
    rw [mappingLoop]
    exact lookup_mapping_lt keep red _ _ _ (by split <;> omega)
  | false :: red, a, b, i, h => by
    rw [mappingLoop, List.lookup_cons]
    have : (i == b) = false := by simp; omega
    rw [this]
    exact lookup_mapping_lt keep red _ _ _ (by omega)

theorem range_succ_map {α : Type*} (n : ℕ) (g : ℕ → α) :
    (List.range (n + 1)).map g = g 0 :: (List.range n).map fun i => g (i + 1) := by
  rw [List.range_succ_eq_map, List.map_cons, List.map_map]; rfl

theorem accStatic_loop (keep : Bool) : ∀ (red : List Bool) (p xs : Idx) (b : ℕ),
    red.length = xs.length →
    ((List.range (project keep red xs).length).map fun i =>
      match (mappingLoop keep red p.length b).lookup (b + i) with
      | some j => (p ++ xs).getD j 0
      | none => 0) = project keep red xs
  | [], p, [], b, _ => rfl
  | [], p, x :: xs, b, h => by simp at h
  | r :: red, p, [], b, h => by simp at h
  | true :: red, p, x :: xs, b, h => by
    have hl : red.length = xs.length := by simpa using h
    have e : p ++ x :: xs = (p ++ [x]) ++ xs := by simp
    have el : p.length + 1 = (p ++ [x]).length := by simp
    cases keep with
    | false =>
      simp only [project, mappingLoop, Bool.false_eq_true, if_false]
      rw [el, e]
      exact accStatic_loop false red (p ++ [x]) xs b hl
    | true =>
      simp only [project, mappingLoop, if_true, List.length_cons]
      rw [range_succ_map]
      congr 1
      · rw [lookup_mapping_lt _ _ _ _ _ (by omega)]
      · rw [el, e]
        have := accStatic_loop true red (p ++ [x]) xs (b + 1) hl
        simpa only [Nat.add_assoc, Nat.add_comm 1] using this
  | false :: red, p, x :: xs, b, h => by
    have hl : red.length = xs.length := by simpa using h
    have e : p ++ x :: xs = (p ++ [x]) ++ xs := by simp
    have el : p.length + 1 = (p ++ [x]).length := by simp
    simp only [project, mappingLoop, List.length_cons]
    rw [range_succ_map]
    congr 1
    · rw [List.lookup_cons, Nat.add_zero, beq_self_eq_true]
      simp
    · rw [el, e]
      have := accStatic_loop keep red (p ++ [x]) xs (b + 1) hl
      refine Eq.trans (List.map_congr_left fun i _ => ?_) this
      rw [List.lookup_cons]
      have : (b + (i + 1) == b) = false := by simp
      rw [this]
      rw [show b + (i + 1) = b + 1 + i by omega]

theorem outDims_length (keep : Bool) : ∀ (red : List Bool) (xs ys : List ℤ), xs.length = ys.length →
    (outDims keep red xs).length = (project keep red ys).length
  | [], _, _, _ => by simp [outDims, project]
  | _ :: _, [], [], _ => by simp [outDims, project]
  | _ :: _, [], _ :: _, h => by simp at h
  | _ :: _, _ :: _, [], h => by simp at h
  | true :: red, x :: xs, y :: ys, h => by
    have := outDims_length keep red xs ys (by simpa using h)
    cases keep <;> simpa [outDims, project] using this
  | false :: red, x :: xs, y :: ys, h => by
    have := outDims_length keep red xs ys (by simpa using h)
    simpa [outDims, project] using this

/-- The accumulator access function is the projection. -/
theorem accStatic_eq (keep : Bool) (red : List Bool) (dims : List ℤ) (idx : Idx)
    (hr : red.length = dims.length) (hi : idx.length = dims.length) :
    accStatic (outDims keep red dims).length (reductionMapping keep red) idx =
      project keep red idx := by
  unfold accStatic reductionMapping
  rw [outDims_length keep red dims idx hi.symm]
  have := accStatic_loop keep red [] idx 0 (by omega)
  simp only [Nat.zero_add, List.nil_append, List.length_nil] at this
  exact this

theorem project_inShape (keep : Bool) : ∀ (red : List Bool) (dims : List ℤ) (idx : Idx),
    red.length = dims.length → InShape idx dims → InShape (project keep red idx) (outDims keep red dims)
  | [], [], _, _, h => by cases h; exact inShape_nil
  | [], _ :: _, _, h, _ => by simp at h
  | _ :: _, [], _, h, _ => by simp at h
  | true :: red, d :: ds, [], _, h => by cases h
  | false :: red, d :: ds, [], _, h => by cases h
  | true :: red, d :: ds, x :: xs, hl, h => by
    have h2 := project_inShape keep red ds xs (by simpa using hl) (inShape_cons.1 h).2
    cases keep
    · simpa [project, outDims] using h2
    · simp only [project, outDims, if_true]
      exact inShape_cons.2 ⟨by omega, h2⟩
  | false :: red, d :: ds, x :: xs, hl, h => by
    have h2 := project_inShape keep red ds xs (by simpa using hl) (inShape_cons.1 h).2
    simp only [project, outDims]
    exact inShape_cons.2 ⟨(inShape_cons.1 h).1, h2⟩

theorem dynOutDims_eq : ∀ (mask : List Bool) (dims : List ℤ),
    dynOutDims mask dims = outDims true mask dims
  | [], _ => by simp [dynOutDims, outDims]
  | _ :: _, [] => by simp [dynOutDims, outDims]
  | m :: mask, d :: ds => by
    have := dynOutDims_eq mask ds
    cases m <;> simpa [dynOutDims, outDims] using this

theorem accDynamic_eq : ∀ (mask : List Bool) (idx : Idx), mask.length = idx.length →
    accDynamic mask.length mask idx = project true mask idx
  | [], [], _ => rfl
  | [], _ :: _, h => by simp at h
  | _ :: _, [], h => by simp at h
  | m :: mask, x :: xs, h => by
    have := accDynamic_eq mask xs (by simpa using h)
    unfold accDynamic at this ⊢
    rw [List.length_cons, range_succ_map]
    cases m <;> simpa [project] using this

/-! ### Sizes -/

theorem numel_cons (d : ℤ) (ds : List ℤ) : numel (d :: ds) = d * numel ds := rfl

theorem numel_append (a b : List ℤ) : numel (a ++ b) = numel a * numel b := by
  induction a with
  | nil => simp [numel]
  | cons d ds ih => rw [List.cons_append, numel_cons, numel_cons, ih]; ring

theorem numel_nonneg {ds : List ℤ} (h : ∀ d ∈ ds, 0 ≤ d) : 0 ≤ numel ds := by
  induction ds with
  | nil => simp [numel]
  | cons d ds ih =>
    rw [numel_cons]
    exact mul_nonneg (h d (by simp)) (ih fun x hx => h x (by simp [hx]))

theorem length_idxs : ∀ {ds : List ℤ}, (∀ d ∈ ds, 0 ≤ d) → ((idxs ds).length : ℤ) = numel ds
  | [], _ => rfl
  | d :: ds, h => by
    have ih := length_idxs (ds := ds) fun x hx => h x (by simp [hx])
    have hd := h d (by simp)
    rw [idxs, numel_cons, ← ih]
    simp only [List.length_flatMap, List.length_map]
    simp only [List.map_const', List.sum_replicate, upto, List.length_map, List.length_range]
    simp
    left; omega

end Verif.Lower
