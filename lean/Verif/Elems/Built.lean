import Verif.Elems.ReshapeLemmas

/-!
# Constants a program can hold

`Built` lists the ways a strided constant comes about: from a buffer with one entry per element, from
a single value (splat), and by the builder operations that keep a buffer and change its view.
Everything else the builder makes is a new buffer with one entry per element.
-/

namespace Verif.Elems

variable {W : Type}

/-- A splat constant: one buffer entry, all strides zero (`getSplatStrides`, Strides.cpp 57-59, used
through `getElementsProperties`, ElementsAttrBuilder.cpp 1126-1150). -/
def splat (shape : List Nat) (v : W) : Elms W :=
  { shape, strides := List.replicate shape.length 0, buf := [v], tr := id }

/-- Constants a program can hold. -/
inductive Built : Elms W → Prop
  | ofBuffer (shape : List Nat) (data : List W) (h : data.length = shape.prod) :
      Built (fromWideNums shape data)
  | ofSplat (shape : List Nat) (v : W) : Built (splat shape v)
  | transform (f : W → W) {e : Elms W} (h : Built e) : Built (transform f e)
  | expand {e : Elms W} (h : Built e) (S : List Nat) (hb : BroadcastTo e.shape S) :
      Built (expand e S)
  | expandAndTransform {e : Elms W} (h : Built e) (S : List Nat) (f : W → W)
      (hb : BroadcastTo e.shape S) : Built (expandAndTransform e S f)
  | transpose {e : Elms W} (h : Built e) (perm : List Nat)
      (hp : perm.Perm (List.range e.shape.length)) : Built (transpose e perm)
  | reshape {e r : Elms W} (h : Built e) (S : List Nat) (hp : e.shape.prod = S.prod)
      (hr : reshape e S = some r) : Built r

theorem wf_splat (shape : List Nat) (v : W) : WF (splat shape v) where
  len := by simp [splat]
  one := by
    intro k hk
    have : k < shape.length := by
      rcases Nat.lt_or_ge k shape.length with h1 | h1
      · exact h1
      · have h2 : shape[k]? = some 1 := hk
        rw [List.getElem?_eq_none h1] at h2; simp at h2
    simp [splat, this]
  bnd := by
    intro idx _
    show posN idx (List.replicate shape.length 0) < 1
    rw [allZero_posN (by simp [allZero])]; omega
  size := by
    show nzProd shape (List.replicate shape.length 0) = 1
    induction shape with
    | nil => rfl
    | cons d ds ih => simp [List.replicate_succ, nzProd, ih]
  onto := by
    intro hp k hk
    have hk0 : k = 0 := by simpa [splat] using hk
    exact ⟨unrank shape 0, unrank_inBounds hp, by
      rw [hk0]; exact allZero_posN (by simp [allZero, splat]) _⟩

theorem value_splat {shape idx : List Nat} (v : W) (hi : InBounds shape idx) :
    value (splat shape v) idx = some v := by
  rw [(wf_splat shape v).value_eq' hi]
  show ([v].map id)[posN idx (List.replicate shape.length 0)]? = some v
  rw [allZero_posN (by simp [allZero])]; rfl

theorem Built.wf {e : Elms W} (h : Built e) : WF e := by
  induction h with
  | ofBuffer shape data h => exact wf_fromWideNums shape data h
  | ofSplat shape v => exact wf_splat shape v
  | transform f h ih => exact ⟨ih.len, ih.one, ih.bnd, ih.size, ih.onto⟩
  | expand h S hb ih => exact (expand_spec ih hb).1
  | expandAndTransform h S f hb ih => exact wf_expandAndTransform ih hb f
  | transpose h perm hp ih => exact (transpose_spec ih hp).1
  | @reshape e r h S hp hr ih =>
    by_cases hS : S = e.shape
    · unfold Verif.Elems.reshape at hr
      rw [if_pos hS] at hr
      simp only [Option.some.injEq] at hr
      exact hr ▸ ih
    · have hne : 0 < S.prod ∨ e.isContiguous = true := by
        by_contra hc
        rw [not_or] at hc
        unfold Verif.Elems.reshape reshapeStrides at hr
        have h1 : contiguous e.shape e.strides = false := by
          simpa [Elms.isContiguous] using hc.2
        rw [if_neg hS, h1] at hr
        have h2 : e.shape.prod ≤ 1 := by omega
        simp [h2] at hr
      obtain ⟨r', h1, h2, -⟩ := reshape_spec ih hp hne
      rw [h1] at hr
      simp only [Option.some.injEq] at hr
      exact hr ▸ h2

theorem value_transform (f : W → W) {e : Elms W} (h : WF e) {idx : List Nat}
    (hi : InBounds e.shape idx) : value (transform f e) idx = (value e idx).map f := by
  have hw : WF (transform f e) := ⟨h.len, h.one, h.bnd, h.size, h.onto⟩
  rw [hw.value_eq' hi, h.value_eq' hi]
  show (e.buf.map (f ∘ e.tr))[posN idx e.strides]? = _
  simp [Elms.bufWide]

/-- Two lists of axes with inverse permutations. -/
theorem transposeDims_inverse {p q l : List Nat} (hq : q.length = l.length)
    (hpl : p.length = l.length) (hp : ∀ x ∈ p, x < l.length)
    (h : ∀ k, k < l.length → p.getD (q.getD k 0) 0 = k ∧ q.getD k 0 < l.length) :
    transposeDims (transposeDims l p) q = l := by
  apply List.ext_getElem
  · simp [transposeDims, hq]
  · intro k h1 h2
    simp only [transposeDims, List.getElem_map]
    obtain ⟨h3, h4⟩ := h k h2
    rw [getD_of_lt _ (by omega : k < q.length)] at h3 h4
    rw [getD_of_lt _ (by simpa [hpl] using h4), List.getElem_map]
    rw [getD_of_lt _ (by omega)] at h3
    rw [h3, getD_of_lt _ h2]

theorem untranspose_fold (perm dims acc : List Nat) (hnd : perm.Nodup)
    (hd : dims.length = perm.length) (hb : ∀ p ∈ perm, p < acc.length) :
    ((List.zip perm dims).foldl (fun acc pd => acc.set pd.1 pd.2) acc).length = acc.length ∧
    (∀ k (hk : k < perm.length),
      ((List.zip perm dims).foldl (fun acc pd => acc.set pd.1 pd.2) acc)[perm[k]]?
        = some (dims[k]'(hd ▸ hk))) ∧
    ∀ a, a ∉ perm →
      ((List.zip perm dims).foldl (fun acc pd => acc.set pd.1 pd.2) acc)[a]? = acc[a]? := by
  induction perm generalizing dims acc with
  | nil => simp
  | cons p ps ih =>
    cases dims with
    | nil => simp at hd
    | cons d ds =>
      rw [List.nodup_cons] at hnd
      obtain ⟨h1, h2, h3⟩ := ih ds (acc.set p d) hnd.2 (by simpa using hd)
        (fun q hq => by simpa using hb q (by simp [hq]))
      simp only [List.zip_cons_cons, List.foldl_cons]
      refine ⟨by simpa using h1, ?_, ?_⟩
      · intro k hk
        cases k with
        | zero =>
          simp only [List.getElem_cons_zero]
          rw [h3 p hnd.1]
          have := hb p (by simp)
          simp [this]
        | succ k =>
          simp only [List.getElem_cons_succ]
          exact h2 k (by simpa using hk)
      · intro a ha
        rw [List.mem_cons, not_or] at ha
        rw [h3 a ha.2, List.getElem?_set_ne (Ne.symm ha.1)]

theorem untranspose_transpose {perm l : List Nat} (hp : perm.Perm (List.range l.length)) :
    untransposeDims (transposeDims l perm) perm = l := by
  have hpl : perm.length = l.length := by rw [hp.length_eq]; simp
  have hnd : perm.Nodup := hp.nodup_iff.2 List.nodup_range
  have hmem : ∀ p ∈ perm, p < l.length := fun p h => by simpa using hp.mem_iff.1 h
  obtain ⟨h1, h2, -⟩ := untranspose_fold perm (transposeDims l perm)
    (List.replicate perm.length 0) hnd (by simp [transposeDims])
    (fun p h => by simpa [hpl] using hmem p h)
  unfold untransposeDims
  apply List.ext_getElem?
  intro a
  by_cases ha : a < l.length
  · have hm : a ∈ perm := hp.mem_iff.2 (by simpa using ha)
    obtain ⟨k, hk, rfl⟩ := List.getElem_of_mem hm
    rw [h2 k hk]
    simp only [transposeDims, List.getElem_map]
    rw [getD_of_lt _ ha, List.getElem?_eq_getElem ha]
  · rw [List.getElem?_eq_none (by rw [h1]; simp; omega), List.getElem?_eq_none (by omega)]

end Verif.Elems
