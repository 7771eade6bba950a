import Verif.Runtime.UniqueLemmas

/-!
# C09: Unique
-/

namespace Verif.Props

open Verif Verif.Runtime.Unique

/-- Specification of the four outputs of Unique on the sequence `xs`. `before` is the order
used in sorted mode. -/
structure UniqueSpec {σ : Type} [DecidableEq σ] (before : σ → σ → Prop) (sorted : Bool)
    (xs values : List σ) (indices inverse counts : List Nat) : Prop where
  /-- values are pairwise different and are exactly the values of the input -/
  nodup : values.Nodup
  cover : ∀ x, x ∈ values ↔ x ∈ xs
  /-- one index and one count per value, one inverse index per input position -/
  lengths : indices.length = values.length ∧ counts.length = values.length ∧
    inverse.length = xs.length
  /-- `indices[j]` is the first position of `values[j]` -/
  first : ∀ (j : Nat) s (i : Nat), values[j]? = some s → indices[j]? = some i →
    xs[i]? = some s ∧ ∀ i' < i, xs[i']? ≠ some s
  /-- the inverse rebuilds the input -/
  rebuild : ∀ (i : Nat) x, xs[i]? = some x → ∃ j, inverse[i]? = some j ∧ values[j]? = some x
  /-- `counts[j]` is the multiplicity of `values[j]` -/
  counts : ∀ (j : Nat) s c, values[j]? = some s → counts[j]? = some c → c = xs.count s
  /-- ascending in sorted mode, else in order of first occurrence -/
  order : if sorted then values.Pairwise before else indices.Pairwise (· < ·)

theorem Good.toSpec {σ : Type} [DecidableEq σ] {before : σ → σ → Prop} {less : σ → σ → Bool}
    (hb : ∀ a b, less a b = true → before a b) {sorted : Bool} {xs : List σ} {t : Table σ}
    (g : Good sorted less xs t) :
    UniqueSpec before sorted xs t.slices t.indices t.inverse t.counts := by
  refine ⟨g.nodup, g.mem_iff, ⟨g.lenI, g.lenC, g.lenV⟩, g.first, g.inv, g.cnt, ?_⟩
  have := g.order
  cases sorted with
  | true => exact List.Pairwise.imp (fun h => hb _ _ h) this
  | false => exact this

/-- C09 without axis: for every input sequence, the outputs satisfy the specification, with
values in ascending order in sorted mode. -/
theorem C09_unique_flat {α : Type} [LinearOrder α] (sorted : Bool) (xs : List α) :
    UniqueSpec (· < ·) sorted xs (uniqueFlat sorted xs).slices (uniqueFlat sorted xs).indices
      (uniqueFlat sorted xs).inverse (uniqueFlat sorted xs).counts := by
  have hl : StrictOn (fun _ : α => True) (fun a b => isLessSlice [a] [b]) := by
    have h := isLessSlice_strict (α := α) 1
    refine ⟨fun x _ => h.irrefl [x] rfl, fun x y z _ _ _ => h.trans [x] [y] [z] rfl rfl rfl, ?_⟩
    intro x y _ _ hne
    exact h.total [x] [y] rfl rfl (by simpa using hne)
  apply Good.toSpec ?_ (good_registerAll hl xs (fun _ _ => trivial))
  intro a b h
  simp only [isLessSlice] at h
  split at h
  · exact of_decide_eq_true h
  · cases h

example : let t := uniqueFlat true [2, 1, 1, 3, 4, 3]
    (t.slices, t.indices, t.inverse, t.counts) =
      ([1, 2, 3, 4], [1, 0, 3, 4], [1, 0, 0, 2, 3, 2], [2, 1, 2, 1]) := by decide

example : let t := uniqueFlat false [2, 1, 1, 3, 4, 3]
    (t.slices, t.indices, t.inverse, t.counts) =
      ([2, 1, 3, 4], [0, 1, 3, 4], [0, 1, 1, 2, 3, 2], [1, 2, 2, 1]) := by decide

/-- The sub-tensor at position `i` of the axis. -/
def SameSlice {α : Type} (shape : List Nat) (data : List Nat → α) (axis i j : Nat) : Prop :=
  ∀ dim, InBounds (shape.set axis 1) dim → data (dim.set axis i) = data (dim.set axis j)

theorem getSliceData_eq_iff {α : Type} (shape : List Nat) (data : List Nat → α)
    (axis i j : Nat) :
    getSliceData shape data axis i = getSliceData shape data axis j ↔
      SameSlice shape data axis i j := by
  unfold getSliceData SameSlice
  rw [List.map_inj_left]
  constructor
  · intro h dim hd; exact h dim ((mem_colMajor _ _).2 hd)
  · intro h dim hd; exact h dim ((mem_colMajor _ _).1 hd)

theorem inBounds_set {shape dim : List Nat} {axis k n : Nat} (h : InBounds shape dim)
    (hk : k < n) : InBounds (shape.set axis n) (dim.set axis k) := by
  rw [inBounds_iff_get] at h ⊢
  obtain ⟨hl, hg⟩ := h
  refine ⟨by simp [hl], ?_⟩
  intro i hi
  simp only [List.length_set] at hi
  by_cases hia : axis = i
  · subst hia; simp; exact hk
  · simp only [List.getElem_set, hia, if_false]; exact hg i hi

/-- C09 with an axis: slices along the axis are grouped exactly by equality, `indices` are first
occurrences, and gathering `Y` with `inverse` rebuilds the input tensor. -/
theorem C09_unique_axis {α : Type} [LinearOrder α] (sorted : Bool) (shape : List Nat)
    (data : List Nat → α) (axis : Nat) (hax : axis < shape.length) (buf : Nat → α) :
    let n := shape[axis]
    let r := uniqueAxis sorted shape data axis buf
    let outShape := shape.set axis r.1.indices.length
    r.1.inverse.length = n ∧
    (∀ i j, i < n → j < n →
      (r.1.inverse[i]? = r.1.inverse[j]? ↔ SameSlice shape data axis i j)) ∧
    (∀ (u i : Nat), r.1.indices[u]? = some i → i < n ∧ ∀ i' < i, ¬ SameSlice shape data axis i' i) ∧
    (∀ dim, InBounds shape dim → ∃ u, r.1.inverse[dim.getD axis 0]? = some u ∧
      InBounds outShape (dim.set axis u) ∧
      r.2 (rowMajor outShape (dim.set axis u)) = data dim) := by
  intro n r outShape
  have hshape : shape.getD axis 0 = n := by
    simp [n, List.getD_eq_getElem?_getD, hax]
  set xs := (List.range n).map (getSliceData shape data axis) with hxs
  have hlen : ∀ s ∈ xs, s.length = (colMajorIndices (shape.set axis 1)).length := by
    intro s hs
    simp only [hxs, List.mem_map] at hs
    obtain ⟨i, _, rfl⟩ := hs
    simp [getSliceData]
  have g : Good sorted isLessSlice xs (registerAll sorted isLessSlice xs) :=
    good_registerAll (isLessSlice_strict _) xs hlen
  have hr1 : r.1 = registerAll sorted isLessSlice xs := by
    simp only [r, uniqueAxis, hshape, hxs]
  rw [← hr1] at g
  have hxi : ∀ i < n, xs[i]? = some (getSliceData shape data axis i) := by
    intro i hi; simp [hxs, hi]
  have hxi' : ∀ i s, xs[i]? = some s → i < n ∧ s = getSliceData shape data axis i := by
    intro i s h
    simp only [hxs, List.getElem?_map, Option.map_eq_some_iff] at h
    obtain ⟨a, ha, rfl⟩ := h
    obtain ⟨h1, h2⟩ := List.getElem?_eq_some_iff.1 ha
    simp at h1 h2
    exact ⟨h1, by rw [h2]⟩
  refine ⟨by rw [g.lenV]; simp [hxs], ?_, ?_, ?_⟩
  · intro i j hi hj
    obtain ⟨a, ha, ha'⟩ := g.inv i _ (hxi i hi)
    obtain ⟨b, hb, hb'⟩ := g.inv j _ (hxi j hj)
    rw [ha, hb, ← getSliceData_eq_iff]
    constructor
    · intro h
      rw [Option.some.injEq] at h
      rw [h, hb'] at ha'
      exact (Option.some.inj ha').symm
    · intro h
      rw [h] at ha'
      obtain ⟨q1, q1'⟩ := List.getElem?_eq_some_iff.1 ha'
      obtain ⟨q2, q2'⟩ := List.getElem?_eq_some_iff.1 hb'
      rw [(List.Nodup.getElem_inj_iff g.nodup).1 (q1'.trans q2'.symm)]
  · intro u i hu
    have hlt : u < r.1.slices.length := by
      rw [← g.lenI]; exact (List.getElem?_eq_some_iff.1 hu).1
    obtain ⟨h1, h2⟩ := g.first u _ i (List.getElem?_eq_getElem hlt) hu
    obtain ⟨h3, h4⟩ := hxi' i _ h1
    refine ⟨h3, ?_⟩
    intro i' hi' hs
    rw [← getSliceData_eq_iff] at hs
    exact h2 i' hi' (by rw [hxi i' (by omega), hs, h4])
  · intro dim hd
    have hdl := hd.length
    have hda : dim.getD axis 0 = dim[axis]'(by omega) := by
      simp [List.getD_eq_getElem?_getD, hdl, hax]
    have hdn : dim.getD axis 0 < n := by rw [hda]; exact hd.get_lt axis hax
    obtain ⟨u, hu, hu'⟩ := g.inv _ _ (hxi _ hdn)
    have hul : u < r.1.slices.length := (List.getElem?_eq_some_iff.1 hu').1
    have hui : u < r.1.indices.length := by rw [g.lenI]; exact hul
    have hb : InBounds outShape (dim.set axis u) := inBounds_set hd hui
    refine ⟨u, hu, hb, ?_⟩
    have hpos : r.1.slices.length > 0 := by omega
    have hr2 : r.2 = produceY shape data axis r.1.indices buf := by
      have : r.2 = if r.1.slices.length > 0 then produceY shape data axis r.1.indices buf
        else buf := rfl
      rw [this, if_pos hpos]
    rw [hr2, produceY_spec shape data axis _ buf _ hb]
    have e1 : (dim.set axis u).getD axis 0 = u := by
      simp [List.getD_eq_getElem?_getD, hdl, hax]
    rw [e1, List.set_set]
    have e2 : r.1.indices.getD u 0 = r.1.indices[u] := by
      simp [List.getD_eq_getElem?_getD, hui]
    rw [e2]
    obtain ⟨h1, _⟩ := g.first u _ _ hu' (List.getElem?_eq_getElem hui)
    obtain ⟨_, h4⟩ := hxi' _ _ h1
    have hsame := (getSliceData_eq_iff shape data axis _ _).1 h4
    have hd1 : InBounds (shape.set axis 1) (dim.set axis 0) := inBounds_set hd (by omega)
    have := hsame _ hd1
    rw [List.set_set, List.set_set, hda] at this
    rw [← this]
    congr 1
    simp

/-- The slice of the input at position `i` of the axis, read with the *first* dimension
fastest. -/
def sliceColMajor {α : Type} (shape : List Nat) (data : List Nat → α) (axis i : Nat) : List α :=
  ((allIndices (shape.set axis 1).reverse).map fun dim => data (dim.reverse.set axis i))

theorem lex_of_isLessSlice {α : Type} [LinearOrder α] : ∀ (a b : List α),
    isLessSlice a b = true → List.Lex (· < ·) a b
  | [], _, h => by simp [isLessSlice] at h
  | _ :: _, [], h => by simp [isLessSlice] at h
  | x :: xs, y :: ys, h => by
    simp only [isLessSlice] at h
    by_cases hxy : x = y
    · subst hxy
      simp only [ne_eq, not_true_eq_false, if_false] at h
      exact List.Lex.cons (lex_of_isLessSlice xs ys h)
    · simp only [ne_eq, hxy, not_false_eq_true, if_true, decide_eq_true_eq] at h
      exact List.Lex.rel h

/-- C09 with an axis: the four outputs, as a statement about the sequence of slices. Sorted mode
is ascending lexicographic order of slices read with the first dimension fastest. -/
theorem C09_unique_axis_slices {α : Type} [LinearOrder α] (sorted : Bool) (shape : List Nat)
    (data : List Nat → α) (axis : Nat) (hax : axis < shape.length) (buf : Nat → α) :
    let t := (uniqueAxis sorted shape data axis buf).1
    UniqueSpec (List.Lex (· < ·)) sorted
      ((List.range shape[axis]).map (sliceColMajor shape data axis))
      t.slices t.indices t.inverse t.counts := by
  intro t
  have hshape : shape.getD axis 0 = shape[axis] := by
    simp [List.getD_eq_getElem?_getD, hax]
  have hsl : sliceColMajor shape data axis = getSliceData shape data axis := by
    funext i; simp [sliceColMajor, getSliceData, colMajorIndices, Function.comp_def]
  have ht : t = registerAll sorted isLessSlice
      ((List.range shape[axis]).map (getSliceData shape data axis)) := by
    simp only [t, uniqueAxis, hshape]
  rw [ht, hsl]
  refine Good.toSpec (fun a b h => lex_of_isLessSlice a b h)
    (good_registerAll (isLessSlice_strict (colMajorIndices (shape.set axis 1)).length) _ ?_)
  intro s hs
  simp only [List.mem_map] at hs
  obtain ⟨i, _, rfl⟩ := hs
  simp [getSliceData]

/-- The order of sorted mode is not the row-major lexicographic order that the ONNX reference
(numpy) uses: slices `[[0,1],[0,0]]` and `[[0,0],[1,0]]` of a 2x2x2 input come out with the
row-major larger one first. -/
theorem C09_axis_row_major_order_false :
    ∃ (data : List Nat → Nat),
      let t := (uniqueAxis true [2, 2, 2] data 0 (fun _ => 0)).1
      t.indices = [0, 1] ∧
      ¬ List.Lex (· < ·) ((allIndices [1, 2, 2]).map fun d => data (d.set 0 0))
        ((allIndices [1, 2, 2]).map fun d => data (d.set 0 1)) := by
  refine ⟨fun d => if d = [0, 0, 1] ∨ d = [1, 1, 0] then 1 else 0, ?_⟩
  decide

/-- Two equal columns of a 2x3 tensor are merged. -/
example : (uniqueAxis true [2, 3] (fun i => match i with
    | [0, 0] => 5 | [0, 1] => 1 | [0, 2] => 5 | [1, 0] => 7 | [1, 1] => 2 | _ => 7) 1
    (fun _ => 0)).1.inverse = [1, 0, 1] := by decide

end Verif.Props
