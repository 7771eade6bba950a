import Verif.Builder.SortTop

/-!
C80: the order in which the importer visits the nodes of the main graph.
-/

namespace Verif.Props

open Verif.Builder

variable {α : Type*}

/-- A successful sort only rearranges the nodes, and the result is a topological order. -/
theorem C80_sorted (g : Graph α) (r : List (GNode α)) (h : sortGraph g = some r) : r.Perm g.nodes ∧ TopoSorted g r := by
  obtain ⟨order, e, hc, ho, _⟩ := (sortGraph_spec g).1 r h
  subst e
  exact ⟨inOrder_perm g ho.1, topo_of_dorder g hc order ho⟩

/-- If some rearrangement of the nodes is a topological order, then the sort succeeds. -/
theorem C80_complete (g : Graph α) (hs : SingleAssignment g) (other : List ℕ) (hp : other.Perm (List.range g.nodes.length))
    (ht : TopoSorted g (inOrder g other)) : ∃ r, sortGraph g = some r :=
  (sortGraph_spec g).2 (closed_of_topo g other hp ht) ⟨other, dorder_of_topo g hs other hp ht⟩

/-- The sort returns the lexicographically smallest topological order. -/
theorem C80_smallest (g : Graph α) (hs : SingleAssignment g) (r : List (GNode α)) (h : sortGraph g = some r) :
    ∃ order, order.Perm (List.range g.nodes.length) ∧ r = inOrder g order ∧
      ∀ other, other.Perm (List.range g.nodes.length) → TopoSorted g (inOrder g other) → LexLe order other := by
  obtain ⟨order, e, _, ho, hl⟩ := (sortGraph_spec g).1 r h
  exact ⟨order, ho.1, e, fun other hp ht => hl other (dorder_of_topo g hs other hp ht)⟩

/-- A graph that is already sorted is imported in its own order. -/
theorem C80_identity (g : Graph α) (hs : SingleAssignment g) (ht : TopoSorted g g.nodes) (allow : Bool) :
    importOrder allow g = some g.nodes := by
  unfold importOrder
  split
  · have ht' : TopoSorted g (inOrder g (List.range g.nodes.length)) := by rw [inOrder_range]; exact ht
    obtain ⟨r, hr⟩ := C80_complete g hs _ (List.Perm.refl _) ht'
    obtain ⟨order, hp, e, hl⟩ := C80_smallest g hs r hr
    rw [hr, e, lexLe_range _ order hp (hl _ (List.Perm.refl _) ht'), inOrder_range]
  · rfl

/-- The check accepts only sorted graphs. -/
theorem C80_check_sound (g : Graph α) (h : isTopologicallySorted g = true) : TopoSorted g g.nodes := by
  unfold isTopologicallySorted at h
  obtain ⟨vis, hv⟩ := Option.isSome_iff_exists.1 h
  exact (check_fold g g.nodes vis hv).2

/-- The check accepts every sorted graph in which no input is left out. -/
theorem C80_check_complete (g : Graph α) (hne : ∀ nd ∈ g.nodes, "" ∉ nd.ins) (ht : TopoSorted g g.nodes) :
    isTopologicallySorted g = true := by
  obtain ⟨vis, hv⟩ := check_complete g g.nodes hne ht
  unfold isTopologicallySorted
  rw [hv]
  rfl

/-- With sorting allowed, import either fails or visits all the nodes in a topological order. -/
theorem C80_import (g : Graph α) (r : List (GNode α)) (h : importOrder true g = some r) : r.Perm g.nodes ∧ TopoSorted g r := by
  unfold importOrder at h
  cases hc : isTopologicallySorted g with
  | true =>
    rw [hc] at h
    simp only [Bool.not_true, Bool.and_false, Bool.false_eq_true, if_false, Option.some.injEq] at h
    subst h
    exact ⟨List.Perm.refl _, C80_check_sound g hc⟩
  | false =>
    rw [hc] at h
    exact C80_sorted g r h

/-- With sorting allowed, import visits the nodes of every graph that has a topological order. -/
theorem C80_import_complete (g : Graph α) (hs : SingleAssignment g) (other : List ℕ) (hp : other.Perm (List.range g.nodes.length))
    (ht : TopoSorted g (inOrder g other)) : ∃ r, importOrder true g = some r := by
  unfold importOrder
  split
  · exact C80_complete g hs other hp ht
  · exact ⟨_, rfl⟩

/-! ### Cases -/

/-- `y = Add(b, b)`, `b = Relu(x)`, `z = Clip(b, _, w)`. -/
def sortDemo : Graph String :=
  ⟨[⟨"Add", [], ["b", "b"], ["y"]⟩, ⟨"Relu", [], ["x"], ["b"]⟩, ⟨"Clip", [], ["b", "", "w"], ["z"]⟩], ["w"], ["x"]⟩

example : (sortGraph sortDemo).map (·.map GNode.body) = some ["Relu", "Add", "Clip"] := by decide +kernel

example : isTopologicallySorted sortDemo = false := by decide +kernel

theorem sortDemo_single : SingleAssignment sortDemo := by
  intro i j a b x hi hj ha hb _
  have hi' := (List.getElem?_eq_some_iff.1 hi).1
  have hj' := (List.getElem?_eq_some_iff.1 hj).1
  simp only [sortDemo, List.length_cons, List.length_nil] at hi' hj'
  have : i = 0 ∨ i = 1 ∨ i = 2 := by omega
  have : j = 0 ∨ j = 1 ∨ j = 2 := by omega
  rcases ‹i = 0 ∨ i = 1 ∨ i = 2› with rfl | rfl | rfl <;> rcases ‹j = 0 ∨ j = 1 ∨ j = 2› with rfl | rfl | rfl <;>
    simp only [sortDemo, List.getElem?_cons_zero, List.getElem?_cons_succ, Option.some.injEq] at hi hj <;> subst hi hj <;>
    simp_all

/-- The hypotheses of the theorems hold of this graph. -/
example : ∃ r, importOrder true sortDemo = some r ∧ r.Perm sortDemo.nodes ∧ TopoSorted sortDemo r := by
  have h : (sortGraph sortDemo).isSome = true := by decide +kernel
  obtain ⟨r, hr⟩ := Option.isSome_iff_exists.1 h
  have e : isTopologicallySorted sortDemo = false := by decide +kernel
  have hi : importOrder true sortDemo = some r := by
    unfold importOrder
    rw [e]
    exact hr
  exact ⟨r, hi, C80_import sortDemo r hi⟩

/-- A cycle is refused. -/
example : sortGraph (α := Unit) ⟨[⟨(), [], ["b"], ["a"]⟩, ⟨(), [], ["a"], ["b"]⟩], [], []⟩ = none := by decide +kernel

/-- The check refuses sorted graphs in which an optional input is left out; by `C80_identity` their order does not change. -/
theorem C80_check_false : ∃ g : Graph Unit, TopoSorted g g.nodes ∧ SingleAssignment g ∧ isTopologicallySorted g = false := by
  refine ⟨⟨[⟨(), [], ["x", ""], ["y"]⟩], [], ["x"]⟩, ?_, ?_, by decide +kernel⟩
  · intro k nd hk x hx
    have : k = 0 := by
      have := (List.getElem?_eq_some_iff.1 hk).1
      simp only [List.length_cons, List.length_nil] at this
      omega
    subst this
    simp only [List.getElem?_cons_zero, Option.some.injEq] at hk
    subst hk
    simp only [List.mem_cons, List.not_mem_nil, or_false] at hx
    rcases hx with rfl | rfl
    · right; right; left; simp
    · left; rfl
  · intro i j a b x hi hj _ _ _
    have h1 := (List.getElem?_eq_some_iff.1 hi).1
    have h2 := (List.getElem?_eq_some_iff.1 hj).1
    simp only [List.length_cons, List.length_nil] at h1 h2
    omega

/-- `b = Relu(z)`, `y = If(c) { … b … }`, `z = Neg(x)`: an order for it exists in which every value, also inside the branches of
`If`, comes before its uses. -/
def captureDemo : Graph String :=
  ⟨[⟨"Relu", [], ["z"], ["b"]⟩, ⟨"If", ["b"], ["c"], ["y"]⟩, ⟨"Neg", [], ["x"], ["z"]⟩], [], ["x", "c"]⟩

/-- The sort does not see the names used in subgraphs: a graph that has an order good for them too is put in another one, with `If`
before the node that produces the value its branches use. -/
theorem C80_captures_false : ∃ (g : Graph String) (r : List (GNode String)) (other : List ℕ),
    other.Perm (List.range g.nodes.length) ∧ TopoSorted g (inOrder g other) ∧ CapturesSorted g (inOrder g other) ∧
    importOrder true g = some r ∧ ¬ CapturesSorted g r := by
  refine ⟨captureDemo, [⟨"If", ["b"], ["c"], ["y"]⟩, ⟨"Neg", [], ["x"], ["z"]⟩, ⟨"Relu", [], ["z"], ["b"]⟩], [2, 0, 1],
    by decide, ?_, ?_, by rfl, ?_⟩
  · have e : inOrder captureDemo [2, 0, 1] = [⟨"Neg", [], ["x"], ["z"]⟩, ⟨"Relu", [], ["z"], ["b"]⟩, ⟨"If", ["b"], ["c"], ["y"]⟩] := rfl
    rw [e]
    intro k nd hk x hx
    have hk3 := (List.getElem?_eq_some_iff.1 hk).1
    simp only [List.length_cons, List.length_nil] at hk3
    have : k = 0 ∨ k = 1 ∨ k = 2 := by omega
    rcases this with rfl | rfl | rfl <;> simp only [List.getElem?_cons_zero, List.getElem?_cons_succ, Option.some.injEq] at hk <;>
      subst hk <;> simp only [List.mem_cons, List.not_mem_nil, or_false] at hx <;> subst hx
    · right; right; left; simp [captureDemo]
    · right; right; right; exact ⟨0, by omega, _, rfl, by simp⟩
    · right; right; left; simp [captureDemo]
  · have e : inOrder captureDemo [2, 0, 1] = [⟨"Neg", [], ["x"], ["z"]⟩, ⟨"Relu", [], ["z"], ["b"]⟩, ⟨"If", ["b"], ["c"], ["y"]⟩] := rfl
    rw [e]
    intro k nd hk x hx
    have hk3 := (List.getElem?_eq_some_iff.1 hk).1
    simp only [List.length_cons, List.length_nil] at hk3
    have : k = 0 ∨ k = 1 ∨ k = 2 := by omega
    rcases this with rfl | rfl | rfl <;> simp only [List.getElem?_cons_zero, List.getElem?_cons_succ, Option.some.injEq] at hk <;>
      subst hk <;> simp only [List.mem_cons, List.not_mem_nil, or_false] at hx
    subst hx
    right; right; exact ⟨1, by omega, _, rfl, by simp⟩
  · intro h
    rcases h 0 _ rfl "b" (by simp) with h | h | ⟨j, hj, _⟩
    · simp [captureDemo] at h
    · simp [captureDemo] at h
    · omega

end Verif.Props
