import Verif.Decompose.Model
import Verif.Einsum.Diagonal

/-! # Facts about reductions -/

namespace Verif.Decompose

open Verif.Rewrite Verif.Einsum

theorem project_length (R : List ℕ) (v : ℕ) (l : List ℕ) : (project R true v l).length = l.length := by
  simp [project]

theorem project_getD {R : List ℕ} {v : ℕ} {l : List ℕ} {k : ℕ} (h : k < l.length) :
    (project R true v l).getD k 0 = if k ∈ R then v else l.getD k 0 := by
  rw [List.getD_eq_getElem _ _ (by rw [project_length]; exact h), List.getD_eq_getElem _ _ h]
  simp [project]

theorem inBounds_iff_getD {s i : List ℕ} : InBounds s i ↔ i.length = s.length ∧ ∀ k < s.length, i.getD k 0 < s.getD k 0 := by
  induction s generalizing i with
  | nil => cases i <;> simp
  | cons d s ih =>
    cases i with
    | nil => simp
    | cons a i =>
      rw [inBounds_cons, ih]
      constructor
      · rintro ⟨h1, h2, h3⟩
        refine ⟨by simp [h2], fun k hk => ?_⟩
        cases k with
        | zero => simpa using h1
        | succ k => simpa using h3 k (by simpa using hk)
      · rintro ⟨h1, h2⟩
        refine ⟨by simpa using h2 0 (by simp), by simpa using h1, fun k hk => ?_⟩
        simpa using h2 (k + 1) (by simpa using hk)

/-- The kept index of an element is an index of the result. -/
theorem project_inBounds {R s p : List ℕ} (h : InBounds s p) : InBounds (project R true 1 s) (project R true 0 p) := by
  rw [inBounds_iff_getD] at h ⊢
  refine ⟨by rw [project_length, project_length, h.1], fun k hk => ?_⟩
  rw [project_length] at hk
  rw [project_getD (by omega), project_getD hk]
  split
  · exact Nat.zero_lt_one
  · exact h.2 k hk

theorem ext_getD {l m : List ℕ} (h : l.length = m.length) (hk : ∀ k < l.length, l.getD k 0 = m.getD k 0) : l = m := by
  refine List.ext_getElem h fun k h1 h2 => ?_
  have := hk k h1
  rwa [List.getD_eq_getElem _ _ h1, List.getD_eq_getElem _ _ h2] at this

/-- An index of a result with kept axes is 0 on them. -/
theorem project_self {R s i : List ℕ} (h : InBounds (project R true 1 s) i) : project R true 0 i = i := by
  rw [inBounds_iff_getD, project_length] at h
  refine ext_getD (project_length _ _ _) fun k hk => ?_
  rw [project_length] at hk
  rw [project_getD hk]
  split
  · rename_i hR
    have := h.2 k (by omega)
    rw [project_getD (by omega), if_pos hR] at this
    omega
  · rfl

theorem dropFrom_dropFrom_eq {α : Type} (ax : List ℕ) : ∀ {k : ℕ} {l m : List α}, l.length = m.length →
    (∀ j < l.length, k + j ∉ ax → l[j]? = m[j]?) → dropFrom ax k l = dropFrom ax k m
  | _, [], [], _, _ => rfl
  | k, a :: l, b :: m, hl, h => by
    have ih := dropFrom_dropFrom_eq ax (k := k + 1) (l := l) (m := m) (by simpa using hl) fun j hj hn => by
      have := h (j + 1) (by simpa using hj) (by rwa [show k + (j + 1) = k + 1 + j by omega])
      simpa using this
    rw [dropFrom_cons, dropFrom_cons, ih]
    by_cases hk : k ∈ ax
    · rw [if_pos hk, if_pos hk]
    · rw [if_neg hk, if_neg hk]
      have := h 0 (by simp) (by simpa using hk)
      simp at this
      rw [this]
  | _, [], _ :: _, h, _ => by simp at h
  | _, _ :: _, [], h, _ => by simp at h

/-- Dropping axes and setting them to 0 identify the same indices. -/
theorem drop_iff_project {R p q : List ℕ} (h : p.length = q.length) :
    dropAt R p = dropAt R q ↔ project R true 0 p = project R true 0 q := by
  rw [dropAt_eq, dropAt_eq]
  constructor
  · intro hd
    refine ext_getD (by rw [project_length, project_length, h]) fun k hk => ?_
    rw [project_length] at hk
    rw [project_getD hk, project_getD (by omega)]
    split
    · rfl
    · rename_i hR
      have := dropFrom_inj R h hd k hk (by omega) (by simpa using hR)
      rw [List.getD_eq_getElem _ _ hk, List.getD_eq_getElem _ _ (by omega), this]
  · intro hp
    refine dropFrom_dropFrom_eq R h fun j hj hn => ?_
    have h1 : (project R true 0 p).getD j 0 = (project R true 0 q).getD j 0 := by rw [hp]
    rw [project_getD hj, project_getD (by omega), if_neg (by simpa using hn), if_neg (by simpa using hn)] at h1
    rw [List.getD_eq_getElem _ _ hj, List.getD_eq_getElem _ _ (h ▸ hj)] at h1
    rw [List.getElem?_eq_getElem hj, List.getElem?_eq_getElem (h ▸ hj), h1]

/-- The elements that go into a result with dropped axes. -/
theorem reduced_drop {x : Tensor ℝ} {R p : List ℕ} (h : p.length = x.shape.length) :
    reduced x R false (dropAt R p) = reduced x R true (project R true 0 p) := by
  unfold reduced
  congr 1
  refine List.filter_congr fun q hq => ?_
  have hl := (mem_allIndices.1 hq).length_eq
  have : project R false 0 q = dropAt R q := rfl
  rw [this]
  exact decide_eq_decide.2 (drop_iff_project (by omega))

theorem reduced_map {x : Tensor ℝ} {g : ℝ → ℝ} {R : List ℕ} {keep : Bool} {idx : List ℕ} :
    reduced (x.map g) R keep idx = (reduced x R keep idx).map g := by
  unfold reduced
  rw [List.map_map, map_shape]
  refine List.map_congr_left fun q hq => ?_
  rw [get_map _ _ (mem_allIndices.1 (List.mem_filter.1 hq).1)]
  rfl

theorem reduced_build {s : List ℕ} {f : List ℕ → ℝ} {R : List ℕ} {keep : Bool} {idx : List ℕ} :
    reduced (build s f) R keep idx = ((allIndices s).filter fun p => project R keep 0 p = idx).map f := by
  unfold reduced
  refine List.map_congr_left fun q hq => ?_
  exact get_build _ (mem_allIndices.1 (List.mem_filter.1 hq).1)

/-- The element of a reduction with kept axes that is used at an index of the data. -/
theorem bidx_project {R s i : List ℕ} (h : InBounds s i) : bidx (project R true 1 s) i = project R true 0 i := by
  have hl := h.length_eq
  have hle : (project R true 1 s).length ≤ i.length := by rw [project_length]; omega
  refine ext_getD (by rw [bidx_length hle, project_length, project_length, hl]) fun k hk => ?_
  rw [bidx_length hle, project_length] at hk
  rw [bidx_getD hle (by rw [project_length]; exact hk), project_getD hk, project_getD (by omega), project_length, hl]
  rw [show s.length - s.length + k = k by omega]
  by_cases hR : k ∈ R
  · simp [hR]
  · simp only [hR, if_false]
    split
    · have := (inBounds_iff_getD.1 h).2 k hk
      omega
    · rfl

theorem bshape_project (R s : List ℕ) : bshape s (project R true 1 s) = some s := by
  rw [bshape_comm]
  refine bshape_of_bto ⟨by rw [project_length], fun k hk => ?_⟩
  rw [project_length] at hk ⊢
  rw [project_getD hk, show s.length - s.length + k = k by omega]
  split
  · exact .inl rfl
  · exact .inr rfl

/-! ### Squeeze of a reduction -/

theorem inBounds_dropFrom (ax : List ℕ) : ∀ {k : ℕ} {s p : List ℕ}, InBounds s p →
    InBounds (dropFrom ax k s) (dropFrom ax k p)
  | _, [], [], _ => inBounds_nil
  | k, d :: s, i :: p, h => by
    have ih := inBounds_dropFrom ax (k := k + 1) (inBounds_cons.1 h).2
    rw [dropFrom_cons, dropFrom_cons]
    split
    · exact ih
    · exact inBounds_cons.2 ⟨(inBounds_cons.1 h).1, ih⟩
  | _, [], _ :: _, h => by simp at h
  | _, _ :: _, [], h => by simp at h

theorem dropAt_project (R : List ℕ) (v : ℕ) (s : List ℕ) : dropAt R (project R true v s) = dropAt R s := by
  rw [dropAt_eq, dropAt_eq]
  refine dropFrom_dropFrom_eq R (project_length _ _ _) fun j hj hn => ?_
  rw [project_length] at hj
  rw [List.getElem?_eq_getElem (by rwa [project_length]), List.getElem?_eq_getElem hj]
  have := project_getD (R := R) (v := v) hj
  rw [List.getD_eq_getElem _ _ (by rwa [project_length]), List.getD_eq_getElem _ _ hj, if_neg (by simpa using hn)] at this
  rw [this]

/-- Removing the kept axes of a reduction gives the reduction with dropped axes. -/
theorem retag_reduce (f : List ℝ → ℝ) (x : Tensor ℝ) (R : List ℕ) :
    (reduceWith f x R true).retag (dropAt R x.shape) = some (reduceWith f x R false) := by
  have h1 : ∀ j < (project R true 1 x.shape).length, 0 + j ∈ R → (project R true 1 x.shape).getD j 0 = 1 := by
    intro j hj hR
    rw [project_length] at hj
    rw [project_getD hj, if_pos (by simpa using hR)]
  have hd : dropFrom R 0 (project R true 1 x.shape) = dropAt R x.shape := by
    rw [← dropAt_eq, dropAt_project]
  have hp : (reduceWith f x R true).shape.prod = (dropAt R x.shape).prod := by
    rw [← hd, prod_dropFrom R h1]
    rfl
  obtain ⟨y, hy⟩ := retag_ok' hp
  rw [hy]
  congr 1
  have hys := retag_shape hy
  refine Tensor.ext' hys fun i hi => ?_
  rw [hys] at hi
  have hlt : rowMajor (dropAt R x.shape) i < (project R true 1 x.shape).prod := by
    have := rowMajor_lt hi
    rw [← hp] at this
    exact this
  have hu : InBounds (project R true 1 x.shape) (unrank (project R true 1 x.shape) (rowMajor (dropAt R x.shape) i)) :=
    unrank_inBounds hlt
  generalize hpdef : unrank (project R true 1 x.shape) (rowMajor (dropAt R x.shape) i) = p at hu
  have hrm := (rowMajor_dropFrom R hu h1).2
  have hpr : rowMajor (project R true 1 x.shape) p = rowMajor (dropAt R x.shape) i := by
    rw [← hpdef, rowMajor_unrank hlt]
  rw [hd, hpr] at hrm
  have hin : InBounds (dropAt R x.shape) (dropFrom R 0 p) := by
    rw [← hd]
    exact inBounds_dropFrom R hu
  have hip : dropFrom R 0 p = i := rowMajor_inj hin hi hrm
  rw [retag_get' hy hpr.symm]
  have e1 : (reduceWith f x R true).get p = f (reduced x R true p) := get_build _ hu
  have e2 : (reduceWith f x R false).get i = f (reduced x R false i) := get_build _ hi
  rw [e1, e2, ← hip, ← dropAt_eq, reduced_drop (by rw [hu.length_eq, project_length]), project_self hu]

end Verif.Decompose
