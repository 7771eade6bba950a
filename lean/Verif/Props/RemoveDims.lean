import Verif.Dims.RemoveLemmas
import Verif.Dims.Examples

/-!
# C117: removing duplicate Dim operations keeps results

`Removes`, `Ordered` and `AlwaysEqual` are in `Verif/Dims/RemoveSpec.lean`; executions (`Executes`, `Plain`) in
`Verif/Dims/Spec.lean`.
-/

namespace Verif.Props

open Verif.Dims

theorem remove_dims_core (g : Graph) (hw : WellFormed g) (ord : List (List Dim) → List (List Dim)) (ho : IsOrder ord) (n : ℕ)
    (m : List (List Dim)) (rels : List Rel) (h : analyze g ord n = some (m, rels)) (ms : List (List Dim))
    (hm : ∀ S' ∈ ms, ∃ S ∈ m, S'.Perm S) (pick : Val → ℕ → Option Val) (hp : IsPick g pick) :
    ∃ ρ, ms.foldl (removeInSet g pick) g = rename ρ g ∧ Fine g ρ ∧
      (Disjoint g pick ms → ∀ S ∈ ms, ∀ c ∈ S.filterMap (candidate g pick),
        firstDim g (S.filterMap (candidate g pick)) ≠ some c → ∀ x, ρ x ≠ c) := by
  have hs : ∀ r, Executes g r → Plain g r → Sound g r ms := by
    intro r hx hpl S' hS' d hd e he
    obtain ⟨S, hS, hperm⟩ := hm S' hS'
    exact (analyze_ok hw hx hpl ord ho n m rels h).1.sound S hS d (hperm.subset hd) e (hperm.subset he)
  obtain ⟨ρ, h1, h2, _, h4⟩ := sets_rename hw hp ms id (fun _ => .inl rfl) hs
  rw [rename_id] at h1
  exact ⟨ρ, h1, h2, h4⟩

/-- The pass changes operands only from the result of a Dim operation to that of an earlier one, with the same value in every
execution; it leaves out only Dim operations whose result is not used; the results of the program are the same. For all orders in
which the sets of the analysis, their members, the users of values and the operations to remove are visited. Missing, as in C85:
executions that are not `Plain`, and code in regions. -/
theorem C117_program_partial (g : Graph) (hw : WellFormed g) (ord : List (List Dim) → List (List Dim)) (ho : IsOrder ord) (n : ℕ)
    (m : List (List Dim)) (rels : List Rel) (h : analyze g ord n = some (m, rels)) (ms : List (List Dim))
    (hm : ∀ S' ∈ ms, ∃ S ∈ m, S'.Perm S) (pick : Val → ℕ → Option Val) (hp : IsPick g pick) (es : List Val)
    (he : ∀ v ∈ es, ∃ S ∈ ms, v ∈ replaced g pick S) : ∃ ρ, Removes g (removeDims g pick ms es) ρ := by
  obtain ⟨ρ, h1, h2, _⟩ := remove_dims_core g hw ord ho n m rels h ms hm pick hp
  obtain ⟨e1, e2, e3, e4, e5⟩ := erase_ops (ms.foldl (removeInSet g pick) g) es
  refine ⟨ρ, ?_⟩
  unfold removeDims
  rw [h1] at e1 e2 e3 e4 e5 ⊢
  refine ⟨e1, e2, ⟨e3, e4⟩, h2, ?_⟩
  intro o ho2 hno
  obtain ⟨y, a, b, c⟩ := e5 _ (List.mem_map_of_mem ho2) hno
  refine ⟨y, a, ?_, c⟩
  obtain ⟨S, _, hS⟩ := he y b
  obtain ⟨d, _, hd⟩ := List.mem_filterMap.1 (List.mem_filter.1 hS).1
  exact candidate_isDim hp hd

/-- Values are still computed before they are used. -/
theorem C117_order (g : Graph) (hw : WellFormed g) (hs : Ssa g) (hg : Ordered g) (ord : List (List Dim) → List (List Dim))
    (ho : IsOrder ord) (n : ℕ) (m : List (List Dim)) (rels : List Rel) (h : analyze g ord n = some (m, rels))
    (ms : List (List Dim)) (hm : ∀ S' ∈ ms, ∃ S ∈ m, S'.Perm S) (pick : Val → ℕ → Option Val) (hp : IsPick g pick)
    (es : List Val) (he : ∀ v ∈ es, ∃ S ∈ ms, v ∈ replaced g pick S) : Ordered (removeDims g pick ms es) := by
  obtain ⟨ρ, hr⟩ := C117_program_partial g hw ord ho n m rels h ms hm pick hp es he
  exact ordered_of_removes hs hg hr

/-- Of the Dim operations that stand for the members of a set, only the first is used afterwards. -/
theorem C117_merged (g : Graph) (hw : WellFormed g) (ord : List (List Dim) → List (List Dim)) (ho : IsOrder ord) (n : ℕ)
    (m : List (List Dim)) (rels : List Rel) (h : analyze g ord n = some (m, rels)) (ms : List (List Dim))
    (hm : ∀ S' ∈ ms, ∃ S ∈ m, S'.Perm S) (pick : Val → ℕ → Option Val) (hp : IsPick g pick) (hd : Disjoint g pick ms)
    (es : List Val) (S : List Dim) (hS : S ∈ ms) : ∃ f, ∀ d ∈ S, ∀ c, candidate g pick d = some c → c ≠ f →
      pos g f ≤ pos g c ∧ used (removeDims g pick ms es) c = false := by
  obtain ⟨ρ, h1, _, h3⟩ := remove_dims_core g hw ord ho n m rels h ms hm pick hp
  obtain ⟨e1, e2, _⟩ := erase_ops (ms.foldl (removeInSet g pick) g) es
  cases hf : firstDim g (S.filterMap (candidate g pick)) with
  | none =>
    refine ⟨0, fun d hdS c hc _ => ?_⟩
    have := firstDim_none hf
    have hmem : c ∈ S.filterMap (candidate g pick) := List.mem_filterMap.2 ⟨d, hdS, hc⟩
    rw [this] at hmem
    simp at hmem
  | some f =>
    refine ⟨f, fun d hdS c hc hne => ?_⟩
    have hmem : c ∈ S.filterMap (candidate g pick) := List.mem_filterMap.2 ⟨d, hdS, hc⟩
    refine ⟨(firstDim_some hf).2 c hmem, ?_⟩
    have hx := h3 hd S hS c hmem (by rw [hf]; simpa using fun e => hne e.symm)
    unfold removeDims used
    rw [h1] at e1 e2 ⊢
    simp only [Bool.or_eq_false_iff, List.any_eq_false, decide_eq_true_eq, decide_eq_false_iff_not]
    constructor
    · intro o ho2 hc2
      obtain ⟨q, hq, rfl⟩ := List.mem_map.1 (e1.subset ho2)
      simp only [Op.rename, List.mem_map] at hc2
      obtain ⟨z, _, e⟩ := hc2
      rw [Option.map_eq_some_iff] at e
      obtain ⟨z, _, e⟩ := e
      exact hx z e
    · rw [e2]
      intro hc2
      simp only [rename, List.mem_map] at hc2
      obtain ⟨z, _, e⟩ := hc2
      exact hx z e

/-! ### An instance: the Dim operations of two tensors that are as long as each other by the names of arguments -/

namespace RemoveWitness

def tys : List Ty := [[none], [none], [some 3], [none], [none], [some 1], [some 1], [some 2]]
def ops : List Op := [⟨.constant 0, [], [2]⟩, ⟨.concat 0, [some 0, some 2], [3]⟩, ⟨.concat 0, [some 1, some 2], [4]⟩,
  ⟨.dim 0, [some 4], [5]⟩, ⟨.dim 0, [some 3], [6]⟩, ⟨.other, [some 5, some 6], [7]⟩]
def names : List (ℕ × ℕ × String) := [(0, 0, "n"), (1, 0, "n")]
def g : Graph := mkG tys [] ops [0, 1] names []
def r : Run := mkR [[5], [5], [3], [8], [8], [1], [1], [2]] [[], [], [], [], [], [8], [8], []]

def pick (v : Val) (a : ℕ) : Option Val := if a ≠ 0 then none else if v = 4 then some 5 else if v = 3 then some 6 else none

theorem executes : Executes g r := by
  apply ex_spec
  · decide +kernel
  · intro o ho
    simp only [ops, List.mem_cons, List.not_mem_nil, or_false] at ho
    rcases ho with rfl | rfl | rfl | rfl | rfl | rfl
    · simp [OpRuns, mkR]
    · exact ⟨[0, 2], 3, by simp, rfl, rfl, cc_spec _ _ _ 0 (by decide +kernel)⟩
    · exact ⟨[1, 2], 4, by simp, rfl, rfl, cc_spec _ _ _ 0 (by decide +kernel)⟩
    · exact ⟨4, 5, 8, rfl, rfl, rfl, rfl, rfl⟩
    · exact ⟨3, 6, 8, rfl, rfl, rfl, rfl, rfl⟩
    · trivial

theorem plain : Plain g r := by
  constructor <;> simp [g, mkG, ops, Op.opd, tys]

theorem isPick : IsPick g pick := by
  constructor
  · intro v a y h
    unfold pick at h
    split_ifs at h with h1 h2 h3 <;> simp only [ne_eq, not_not] at h1
    · subst h1 h2; simp at h; subst h; exact ⟨⟨.dim 0, [some 4], [5]⟩, by simp [g, mkG, ops], rfl, rfl, rfl⟩
    · subst h1 h3; simp at h; subst h; exact ⟨⟨.dim 0, [some 3], [6]⟩, by simp [g, mkG, ops], rfl, rfl, rfl⟩
  · rintro v a h ⟨o, ho, hk, hopd⟩
    simp only [g, mkG, ops, List.mem_cons, List.not_mem_nil, or_false] at ho
    unfold pick at h
    rcases ho with rfl | rfl | rfl | rfl | rfl | rfl <;> simp at hk hopd <;> subst hk hopd <;> simp at h

end RemoveWitness

example : ∃ m rels, analyze RemoveWitness.g id 5 = some (m, rels) ∧ WellFormed RemoveWitness.g ∧
    IsPick RemoveWitness.g RemoveWitness.pick ∧ Executes RemoveWitness.g RemoveWitness.r ∧
    Plain RemoveWitness.g RemoveWitness.r ∧ (∀ v ∈ [6], ∃ S ∈ m, v ∈ replaced RemoveWitness.g RemoveWitness.pick S) ∧
    (removeDims RemoveWitness.g RemoveWitness.pick m [6]).ops =
      [⟨.constant 0, [], [2]⟩, ⟨.concat 0, [some 0, some 2], [3]⟩, ⟨.concat 0, [some 1, some 2], [4]⟩,
        ⟨.dim 0, [some 4], [5]⟩, ⟨.other, [some 5, some 5], [7]⟩] := by
  refine ⟨((analyze RemoveWitness.g id 5).getD ([], [])).1, ((analyze RemoveWitness.g id 5).getD ([], [])).2, by decide +kernel,
    wf_spec _ (by decide +kernel), RemoveWitness.isPick, RemoveWitness.executes, RemoveWitness.plain, by decide +kernel,
    by decide +kernel⟩

example : Ssa RemoveWitness.g ∧ Ordered RemoveWitness.g ∧
    Disjoint RemoveWitness.g RemoveWitness.pick ((analyze RemoveWitness.g id 5).getD ([], [])).1 := by
  refine ⟨⟨?_, ?_⟩, ⟨?_, ?_, ?_, ?_⟩, ?_⟩
  · simp [RemoveWitness.g, RemoveWitness.ops, mkG]
  · simp [RemoveWitness.g, RemoveWitness.ops, mkG]
  · simp [RemoveWitness.g, RemoveWitness.ops, mkG]
  · simp [RemoveWitness.g, RemoveWitness.ops, mkG]
  · simp [RemoveWitness.g, RemoveWitness.ops, mkG]
  · simp [RemoveWitness.g, RemoveWitness.ops, mkG]
  · have : (((analyze RemoveWitness.g id 5).getD ([], [])).1.map
        (fun S => S.filterMap (candidate RemoveWitness.g RemoveWitness.pick))).Pairwise
        (fun a b => ∀ c ∈ a, c ∉ b) := by decide +kernel
    exact List.pairwise_map.1 this

end Verif.Props
