import Verif.Elems.Built

/-! # Properties of strided constants (C19–C23, C44) -/

namespace Verif.Props

open Verif Verif.Elems

/-- Dot product of an index and a stride vector. -/
def dot (idx : List Nat) (strides : List Int) : Int :=
  (List.zipWith (fun (i : Nat) (s : Int) => (i : Int) * s) idx strides).sum

theorem pos_eq_dot (idx : List Nat) (strides : List Int) : pos idx strides = dot idx strides := by
  induction idx generalizing strides with
  | nil => simp [pos, dot]
  | cons i is ih =>
    cases strides with
    | nil => simp [pos, dot]
    | cons s ss =>
      simp only [pos, ih]
      simp [dot]

/-- C19: iterating over a shape visits as many positions as there are elements; the `k`-th position
is the `k`-th index in row-major order, and its running offset for each operand `j` is the dot product
of the index with that operand's strides. -/
theorem C19_strided_iteration {ι : Type} (shape : List Nat) (strides : List (ι → Int))
    (hlen : strides.length = shape.length) :
    (stridesRange shape strides).length = shape.prod ∧
    ∀ k, k < shape.prod → ∃ v, (stridesRange shape strides)[k]? = some v ∧ v.flat = k ∧
      InBounds shape v.index ∧ rowMajor shape v.index = k ∧
      ∀ j, v.offs j = dot v.index (strides.map (· j)) := by
  rw [stridesRange_spec shape strides hlen]
  refine ⟨by simp [length_allIndices], fun k hk => ?_⟩
  have hk' : k < (allIndices shape).length := by rw [length_allIndices]; exact hk
  refine ⟨_, by rw [List.getElem?_map, List.getElem?_eq_getElem hk', getElem_allIndices hk']; rfl, ?_⟩
  exact ⟨rowMajor_unrank hk, unrank_inBounds hk, rowMajor_unrank hk, fun j => pos_eq_dot _ _⟩

/-- Witness: three operands over shape [2,3]. -/
example : ([fun j => (j : Int) * 5, fun _ => -1] : List (Fin 3 → Int)).length = [2, 3].length ∧
    0 < ([2, 3] : List Nat).prod := by decide

/-- C19, copying: restriding a buffer gives the elements at the dot products in row-major order. -/
theorem C19_restride {W : Type} (shape strides : List Nat) (src : List W)
    (hlen : strides.length = shape.length)
    (hb : ∀ idx, InBounds shape idx → dot idx (strides.map Int.ofNat) < src.length) :
    ∃ dst, restride shape strides src = some dst ∧ dst.length = shape.prod ∧
      ∀ idx, InBounds shape idx →
        dst[rowMajor shape idx]? = src[(dot idx (strides.map Int.ofNat)).toNat]? := by
  have hd : ∀ idx, dot idx (strides.map Int.ofNat) = (posN idx strides : Int) := fun idx => by
    rw [← pos_eq_dot, pos_map_nat]
  simp only [hd] at hb ⊢
  unfold restride
  rw [stridesRange_spec _ _ (by simp [pack1, hlen]), mapM_map]
  have key : ∀ idx, ((fun v : IdxOffs Unit => getZ src (v.offs ())) ∘ fun idx =>
      (⟨rowMajor shape idx, idx, fun k => pos idx ((pack1 strides).map (· k))⟩ : IdxOffs Unit)) idx =
      src[posN idx strides]? := by
    intro idx
    simp only [Function.comp_apply, pack1_map, pos_map_nat, getZ_nat]
  obtain ⟨r, h1, h2, h3⟩ := mapM_total (l := allIndices shape)
    (f := (fun v : IdxOffs Unit => getZ src (v.offs ())) ∘ fun idx =>
      (⟨rowMajor shape idx, idx, fun k => pos idx ((pack1 strides).map (· k))⟩ : IdxOffs Unit))
    (fun idx hx => by
      rw [key idx]
      have := hb idx (mem_allIndices.1 hx)
      exact ⟨_, List.getElem?_eq_getElem (by omega)⟩)
  refine ⟨r, h1, by rw [h2, length_allIndices], fun idx hi => ?_⟩
  have hlt : rowMajor shape idx < (allIndices shape).length := by
    rw [length_allIndices]; exact rowMajor_lt hi
  obtain ⟨y, hy1, hy2⟩ := h3 (rowMajor shape idx) idx (by
    rw [List.getElem?_eq_getElem hlt, getElem_allIndices hlt, unrank_rowMajor hi])
  rw [hy2, ← hy1, key idx]
  simp

example : ∀ idx, InBounds [2, 3] idx → dot idx ([1, 2].map Int.ofNat) < ([7, 8, 9, 4, 5, 6] : List Nat).length := by
  intro idx h
  rw [← mem_allIndices] at h
  revert idx
  decide

/-- C20: the element of the transpose at the permuted index is the element of the input at the index,
for every index of the input; every index of the transpose arises so; and the transposed constant is
again one a program can hold. -/
theorem C20_transpose {W : Type} {e : Elms W} (h : Built e) {perm : List Nat}
    (hp : perm.Perm (List.range e.shape.length)) :
    Built (transpose e perm) ∧
    (transpose e perm).shape = perm.map (fun p => e.shape.getD p 0) ∧
    (∀ idx, InBounds e.shape idx →
      value (transpose e perm) (perm.map fun p => idx.getD p 0) = value e idx ∧
        (value e idx).isSome) ∧
    ∀ j, InBounds (transpose e perm).shape j →
      ∃ idx, InBounds e.shape idx ∧ j = perm.map fun p => idx.getD p 0 := by
  obtain ⟨h1, h2, h3⟩ := transpose_spec h.wf hp
  refine ⟨h.transpose perm hp, h2, fun idx hi => ⟨h3 idx hi, ?_⟩, fun j hj => ?_⟩
  · obtain ⟨v, hv⟩ := h.wf.value_some hi
    simp [hv]
  · rw [h2] at hj
    exact transpose_onto hp hj

example : Built (fromWideNums [2, 3] [1, 2, 3, 4, 5, 6]) ∧
    ([1, 0] : List Nat).Perm (List.range (fromWideNums [2, 3] [1, 2, 3, 4, 5, 6]).shape.length) :=
  ⟨Built.ofBuffer _ _ (by decide), by decide⟩

/-- C20: transposing by a permutation and then by its inverse gives back the shape and every
element. -/
theorem C20_transpose_inverse {W : Type} {e : Elms W} (h : Built e) {p q : List Nat}
    (hp : p.Perm (List.range e.shape.length)) (hq : q.Perm (List.range e.shape.length))
    (hinv : ∀ k, k < e.shape.length → p.getD (q.getD k 0) 0 = k) :
    (transpose (transpose e p) q).shape = e.shape ∧
    ∀ idx, InBounds e.shape idx → value (transpose (transpose e p) q) idx = value e idx := by
  have hpl : p.length = e.shape.length := by rw [hp.length_eq]; simp
  have hql : q.length = e.shape.length := by rw [hq.length_eq]; simp
  have hqk : ∀ k, k < e.shape.length → q.getD k 0 < e.shape.length := fun k hk => by
    rw [getD_of_lt _ (by omega)]
    simpa using hq.mem_iff.1 (List.getElem_mem (by omega : k < q.length))
  have hpm : ∀ x ∈ p, x < e.shape.length := fun x hx => by simpa using hp.mem_iff.1 hx
  obtain ⟨h1, h2, h3⟩ := transpose_spec h.wf hp
  have hq' : q.Perm (List.range (transpose e p).shape.length) := by
    rw [h2]; simpa [transposeDims, hpl] using hq
  obtain ⟨h4, h5, h6⟩ := transpose_spec h1 hq'
  have hinv' : ∀ l : List Nat, l.length = e.shape.length →
      transposeDims (transposeDims l p) q = l := fun l hl =>
    transposeDims_inverse (by omega) (by omega) (by rw [hl]; exact hpm)
      (by rw [hl]; exact fun k hk => ⟨hinv k hk, hqk k hk⟩)
  refine ⟨by rw [h5, h2, hinv' _ rfl], fun idx hi => ?_⟩
  have := h6 (transposeDims idx p) (by rw [h2]; exact transpose_inBounds hp hi)
  rw [hinv' idx hi.length, h3 idx hi] at this
  exact this

example : ([1, 2, 0] : List Nat).Perm (List.range 3) ∧ ([2, 0, 1] : List Nat).Perm (List.range 3) ∧
    ∀ k, k < 3 → ([1, 2, 0] : List Nat).getD (([2, 0, 1] : List Nat).getD k 0) 0 = k := by decide

/-- C20: undoing the permutation of a dimension vector recovers it. -/
theorem C20_untranspose {perm dims : List Nat} (hp : perm.Perm (List.range dims.length)) :
    untransposeDims (perm.map fun p => dims.getD p 0) perm = dims :=
  untranspose_transpose hp

/-- C21 for constants that have elements: reshaping never changes the flat sequence of elements,
whether or not a view without copying exists. The full claim covers constants without elements too:
see `C21_reshape_empty_false`. -/
theorem C21_reshape_partial {W : Type} {e : Elms W} (h : Built e) {S : List Nat}
    (hprod : e.shape.prod = S.prod) (hpos : 0 < S.prod) :
    ∃ r, reshape e S = some r ∧ Built r ∧ r.shape = S ∧
      ∀ k, k < S.prod → value r (unrank S k) = value e (unrank e.shape k) := by
  obtain ⟨r, h1, h2, h3, h4⟩ := reshape_spec h.wf hprod (Or.inl hpos)
  refine ⟨r, h1, h.reshape S hprod h1, h3, fun k hk => ?_⟩
  have hk' : k < e.shape.prod := by omega
  exact h4 _ _ (unrank_inBounds hk) (unrank_inBounds hk') (by
    rw [rowMajor_unrank hk, rowMajor_unrank hk'])

/-- Witnesses: a transposed constant for which a view exists, and one that must be copied. -/
example : (reshapeStrides [3, 2, 1, 2] [1, 6, 0, 3] [3, 4]) = some (some [1, 3]) ∧
    reshapeStrides [3, 2] [1, 3] [6] = some none := by decide +kernel

/-- C21, constants without elements: reshaping a constant that is stored contiguously works. -/
theorem C21_reshape_contiguous {W : Type} {e : Elms W} (h : Built e) {S : List Nat}
    (hprod : e.shape.prod = S.prod) (hc : e.isContiguous = true) :
    ∃ r, reshape e S = some r ∧ Built r ∧ r.shape = S ∧
      ∀ k, k < S.prod → value r (unrank S k) = value e (unrank e.shape k) := by
  obtain ⟨r, h1, h2, h3, h4⟩ := reshape_spec h.wf hprod (Or.inr hc)
  refine ⟨r, h1, h.reshape S hprod h1, h3, fun k hk => ?_⟩
  have hk' : k < e.shape.prod := by omega
  exact h4 _ _ (unrank_inBounds hk) (unrank_inBounds hk') (by
    rw [rowMajor_unrank hk, rowMajor_unrank hk'])

example : (fromWideNums [0, 2] ([] : List Nat)).isContiguous = true ∧
    (fromWideNums [0, 2] ([] : List Nat)).shape.prod = ([0] : List Nat).prod := by decide

/-- C21 fails for constants without elements: transposing an empty constant of shape [0,2] and
reshaping it to [0] runs into the assertion that sizes below two are always contiguous. -/
theorem C21_reshape_empty_false :
    ∃ (e : Elms Nat) (S : List Nat), Built e ∧ e.shape.prod = S.prod ∧ reshape e S = none := by
  refine ⟨transpose (fromWideNums [0, 2] []) [1, 0], [0], ?_, ?_, ?_⟩
  · exact (Built.ofBuffer [0, 2] [] (by decide)).transpose [1, 0] (by decide)
  · decide
  · decide

/-- C22: expanding a constant shows at each index the element numpy broadcasting selects. -/
theorem C22_expand {W : Type} {e : Elms W} (h : Built e) {S : List Nat}
    (hb : BroadcastTo e.shape S) :
    Built (expand e S) ∧ (expand e S).shape = S ∧
      ∀ idx, InBounds S idx →
        InBounds e.shape (bIdx e.shape idx) ∧ value (expand e S) idx = value e (bIdx e.shape idx) ∧
        (value (expand e S) idx).isSome := by
  obtain ⟨h1, h2, h3⟩ := expand_spec h.wf hb
  refine ⟨h.expand S hb, h2, fun idx hi => ⟨hb.inBounds hi, h3 idx hi, ?_⟩⟩
  rw [h3 idx hi]
  obtain ⟨v, hv⟩ := h.wf.value_some (hb.inBounds hi)
  simp [hv]

example : BroadcastTo [3, 1] [2, 3, 4] := by
  refine ⟨by decide, ?_⟩
  show List.Forall₂ _ [3, 1] [3, 4]
  exact .cons (Or.inl rfl) (.cons (Or.inr rfl) .nil)

/-- C23: combining two constants gives at each index the function of the two broadcast operands, on
every path (either operand a splat, or the general loop). -/
theorem C23_combine {W : Type} {l r : Elms W} (hl : Built l) (hr : Built r) {S : List Nat}
    (bl : BroadcastTo l.shape S) (br : BroadcastTo r.shape S) (f : W → W → W) :
    ∃ o, combine l r S f = some o ∧ Built o ∧ o.shape = S ∧ ∀ idx, InBounds S idx →
      ∃ x y, value l (bIdx l.shape idx) = some x ∧ value r (bIdx r.shape idx) = some y ∧
        value o idx = some (f x y) := by
  obtain ⟨o, h1, h2, h3, h4⟩ := combine_spec hl.wf hr.wf bl br f
  refine ⟨o, h1, ?_, h3, h4⟩
  unfold combine at h1
  split at h1
  · obtain ⟨v, -, rfl⟩ := Option.map_eq_some_iff.1 h1
    exact hr.expandAndTransform S _ br
  · split at h1
    · obtain ⟨v, -, rfl⟩ := Option.map_eq_some_iff.1 h1
      exact hl.expandAndTransform S _ bl
    · obtain ⟨v, -, rfl⟩ := Option.map_eq_some_iff.1 h1
      refine Built.ofBuffer S v ?_
      have := h2.size
      simp only [fromWideNums, nzProd_default] at this
      exact this.symm

/-- C23 for selection by a condition: each element comes from the operand the condition names. -/
theorem C23_where {W : Type} (truth : W → Bool) {c l r : Elms W} (hc : Built c) (hl : Built l)
    (hr : Built r) {S : List Nat} (bc : BroadcastTo c.shape S) (bl : BroadcastTo l.shape S)
    (br : BroadcastTo r.shape S) :
    ∃ o, select truth c l r S = some o ∧ o.shape = S ∧ ∀ idx, InBounds S idx →
      ∃ b, value c (bIdx c.shape idx) = some b ∧
        value o idx = (if truth b then value l (bIdx l.shape idx)
          else value r (bIdx r.shape idx)) ∧ (value o idx).isSome := by
  obtain ⟨o, h1, h2, h3, h4⟩ := select_spec truth hc.wf hl.wf hr.wf bc bl br
  refine ⟨o, h1, h3, fun idx hi => ?_⟩
  obtain ⟨b, hb1, hb2⟩ := h4 idx hi
  refine ⟨b, hb1, hb2, ?_⟩
  obtain ⟨v, hv⟩ := h2.value_some (by rw [h3]; exact hi)
  simp [hv]

/-- Witness: a row and a column combine to a matrix. -/
example : Built (fromWideNums [2, 1] [10, 20]) ∧ Built (fromWideNums [3] [1, 2, 3]) ∧
    BroadcastTo [2, 1] [2, 3] ∧ BroadcastTo [3] [2, 3] := by
  refine ⟨Built.ofBuffer _ _ (by decide), Built.ofBuffer _ _ (by decide), ⟨by decide, ?_⟩,
    ⟨by decide, ?_⟩⟩
  · show List.Forall₂ _ [2, 1] [2, 3]
    exact .cons (Or.inl rfl) (.cons (Or.inr rfl) .nil)
  · show List.Forall₂ _ [3] [3]
    exact .cons (Or.inl rfl) .nil

/-- C44: random access by flat position agrees with the bulk read of the elements, for every constant
a program can hold, and never leaves the buffer. -/
theorem C44_random_access {W : Type} {e : Elms W} (h : Built e) :
    ∃ l, e.wideNums = some l ∧ l.length = e.shape.prod ∧
      ∀ k, k < e.shape.prod → e.atFlat k = l[k]? := by
  obtain ⟨l, h1, h2, -⟩ := h.wf.wideNums_eq
  refine ⟨l, h1, h2, fun k hk => ?_⟩
  rw [h.wf.atFlat_eq hk, value, h1, rowMajor_unrank hk]
  rfl

example : Built (transpose (fromWideNums [2, 3] [1, 2, 3, 4, 5, 6]) [1, 0]) :=
  (Built.ofBuffer _ _ (by decide)).transpose _ (by decide)

/-- C44: a constant that reports itself as a splat has the reported value at every index. -/
theorem C44_splat {W : Type} {e : Elms W} (h : Built e) (hs : e.isSplat = true) :
    ∃ v, e.splatValue = some v ∧ ∀ idx, InBounds e.shape idx → value e idx = some v :=
  h.wf.splat_value hs

example : (expand (fromWideNums [1] [7]) [2, 3]).isSplat = true := by decide

/-- C44: an element-wise transformation applies to every element. -/
theorem C44_transform {W : Type} {e : Elms W} (h : Built e) (f : W → W) {idx : List Nat}
    (hi : InBounds e.shape idx) : value (transform f e) idx = (value e idx).map f :=
  value_transform f h.wf hi

end Verif.Props
