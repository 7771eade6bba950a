import Verif.Rewrite.Onnx
import Mathlib.Data.List.GetD
import Mathlib.Data.List.Perm.Subperm

/-! # Laws of Transpose -/

namespace Verif.Rewrite

variable {V W : Type} [Inhabited V] [Inhabited W]

theorem IsPerm.perm {r : ℕ} {p : List ℕ} (h : IsPerm r p) : p.Perm (List.range r) := by
  obtain ⟨h1, h2, h3⟩ := h
  exact (List.subperm_of_subset h2 (fun a ha => List.mem_range.2 (h3 a ha))).perm_of_length_le
    (by simp [h1])

theorem IsPerm.mem {r : ℕ} {p : List ℕ} (h : IsPerm r p) {a : ℕ} (ha : a < r) : a ∈ p :=
  h.perm.mem_iff.2 (List.mem_range.2 ha)

theorem IsPerm.idxOf_lt {r : ℕ} {p : List ℕ} (h : IsPerm r p) {a : ℕ} (ha : a < r) :
    p.idxOf a < r := h.1 ▸ List.idxOf_lt_length_of_mem (h.mem ha)

theorem IsPerm.getD_lt {r : ℕ} {p : List ℕ} (h : IsPerm r p) {k : ℕ} (hk : k < r) :
    p.getD k 0 < r := by
  have : k < p.length := h.1 ▸ hk
  rw [List.getD_eq_getElem _ _ this]
  exact h.2.2 _ (List.getElem_mem this)

theorem IsPerm.idxOf_getD {r : ℕ} {p : List ℕ} (h : IsPerm r p) {k : ℕ} (hk : k < r) :
    p.idxOf (p.getD k 0) = k := by
  have : k < p.length := h.1 ▸ hk
  rw [List.getD_eq_getElem _ _ this]
  exact h.2.1.idxOf_getElem k this

theorem IsPerm.getD_idxOf {r : ℕ} {p : List ℕ} (h : IsPerm r p) {a : ℕ} (ha : a < r) :
    p.getD (p.idxOf a) 0 = a := by
  have : p.idxOf a < p.length := List.idxOf_lt_length_of_mem (h.mem ha)
  rw [List.getD_eq_getElem _ _ this]
  exact List.getElem_idxOf this

/-- Index of the data for an index of the transposed tensor. -/
def tIdx (r : ℕ) (p idx : List ℕ) : List ℕ := (List.range r).map fun a => idx.getD (p.idxOf a) 0

/-- Shape of the transposed tensor. -/
def tShape (p s : List ℕ) : List ℕ := p.map fun a => s.getD a 0

@[simp] theorem tIdx_length (r : ℕ) (p idx : List ℕ) : (tIdx r p idx).length = r := by simp [tIdx]

@[simp] theorem tShape_length (p s : List ℕ) : (tShape p s).length = p.length := by simp [tShape]

theorem tIdx_getD {r : ℕ} {p idx : List ℕ} {a : ℕ} (ha : a < r) :
    (tIdx r p idx).getD a 0 = idx.getD (p.idxOf a) 0 := by
  rw [List.getD_eq_getElem _ _ (by simpa using ha)]
  simp [tIdx]

theorem inBounds_getD {s idx : List ℕ} :
    InBounds s idx ↔ idx.length = s.length ∧ ∀ k < s.length, idx.getD k 0 < s.getD k 0 := by
  rw [inBounds_iff_get]
  constructor
  · rintro ⟨h, g⟩
    refine ⟨h, fun k hk => ?_⟩
    rw [List.getD_eq_getElem _ _ (h ▸ hk), List.getD_eq_getElem _ _ hk]
    exact g k hk
  · rintro ⟨h, g⟩
    refine ⟨h, fun k hk => ?_⟩
    have := g k hk
    rwa [List.getD_eq_getElem _ _ (h ▸ hk), List.getD_eq_getElem _ _ hk] at this

theorem tShape_getD {p s : List ℕ} {k : ℕ} (hk : k < p.length) :
    (tShape p s).getD k 0 = s.getD (p.getD k 0) 0 := by
  rw [List.getD_eq_getElem _ _ (by simpa using hk), List.getD_eq_getElem p _ hk]
  simp [tShape]

theorem tIdx_inBounds {s p idx : List ℕ} (hp : IsPerm s.length p)
    (h : InBounds (tShape p s) idx) : InBounds s (tIdx s.length p idx) := by
  rw [inBounds_getD] at h ⊢
  refine ⟨by simp, fun k hk => ?_⟩
  rw [tIdx_getD hk]
  have h1 := hp.idxOf_lt hk
  have h2 := h.2 (p.idxOf k) (by simpa [hp.1] using h1)
  rwa [tShape_getD (by rw [hp.1]; exact h1), hp.getD_idxOf hk] at h2

theorem transpose_some {x y : Tensor V} {p : List ℕ} :
    transpose x p = some y ↔ IsPerm x.shape.length p ∧
      y = build (tShape p x.shape) fun idx => x.get (tIdx x.shape.length p idx) := by
  unfold transpose
  split
  · rename_i h
    simp only [Option.some.injEq, h, true_and]
    exact eq_comm
  · rename_i h
    simp [h]

theorem getD_ext {a b : List ℕ} (h : a.length = b.length)
    (g : ∀ k < a.length, a.getD k 0 = b.getD k 0) : a = b := by
  apply List.ext_getElem h
  intro k h1 h2
  have := g k h1
  rwa [List.getD_eq_getElem _ _ h1, List.getD_eq_getElem _ _ h2] at this

/-- The composition of two permutations: second one as an index in the first one. -/
def compPerm (p1 p2 : List ℕ) : List ℕ := p2.map fun k => p1.getD k 0

theorem compPerm_isPerm {r : ℕ} {p1 p2 : List ℕ} (h1 : IsPerm r p1) (h2 : IsPerm r p2) :
    IsPerm r (compPerm p1 p2) := by
  refine ⟨by simp [compPerm, h2.1], ?_, ?_⟩
  · unfold compPerm
    refine List.Nodup.map_on ?_ h2.2.1
    intro a ha b hb hab
    have ha := h2.2.2 a ha
    have hb := h2.2.2 b hb
    rw [← h1.idxOf_getD ha, ← h1.idxOf_getD hb, hab]
  · intro a ha
    obtain ⟨k, hk, rfl⟩ := List.mem_map.1 ha
    exact h1.getD_lt (h2.2.2 k hk)

theorem compPerm_getD {p1 p2 : List ℕ} {k : ℕ} (hk : k < p2.length) :
    (compPerm p1 p2).getD k 0 = p1.getD (p2.getD k 0) 0 := by
  rw [List.getD_eq_getElem _ _ (by simpa [compPerm] using hk), List.getD_eq_getElem p2 _ hk]
  simp [compPerm]

theorem compPerm_idxOf {r : ℕ} {p1 p2 : List ℕ} (h1 : IsPerm r p1) (h2 : IsPerm r p2) {a : ℕ}
    (ha : a < r) : (compPerm p1 p2).idxOf a = p2.idxOf (p1.idxOf a) := by
  have hc := compPerm_isPerm h1 h2
  have hk : p2.idxOf (p1.idxOf a) < r := h2.idxOf_lt (h1.idxOf_lt ha)
  have : (compPerm p1 p2).getD (p2.idxOf (p1.idxOf a)) 0 = a := by
    rw [compPerm_getD (h2.1 ▸ hk), h2.getD_idxOf (h1.idxOf_lt ha), h1.getD_idxOf ha]
  conv_lhs => rw [← this]
  exact hc.idxOf_getD hk

/-- Transposing twice is transposing by the composed permutation. -/
theorem transpose_transpose {x y z : Tensor V} {p1 p2 : List ℕ} (h1 : transpose x p1 = some y)
    (h2 : transpose y p2 = some z) : transpose x (compPerm p1 p2) = some z := by
  obtain ⟨g1, rfl⟩ := transpose_some.1 h1
  obtain ⟨g2, rfl⟩ := transpose_some.1 h2
  simp only [build_shape, tShape_length, g1.1] at g2 ⊢
  have hc := compPerm_isPerm g1 g2
  rw [transpose_some]
  refine ⟨hc, ?_⟩
  have hs : tShape p2 (tShape p1 x.shape) = tShape (compPerm p1 p2) x.shape := by
    apply getD_ext
    · simp [g2.1, hc.1]
    · intro k hk
      have hk : k < x.shape.length := by simpa [g2.1] using hk
      rw [tShape_getD (g2.1 ▸ hk), tShape_getD (g1.1 ▸ g2.getD_lt hk), tShape_getD (hc.1 ▸ hk),
        compPerm_getD (g2.1 ▸ hk)]
  rw [hs]
  refine build_congr fun i hi => ?_
  rw [← hs] at hi
  rw [get_build]
  · congr 1
    apply getD_ext
    · simp
    · intro k hk
      have hk : k < x.shape.length := by simpa using hk
      rw [tIdx_getD hk, tIdx_getD hk, tIdx_getD (g1.idxOf_lt hk), compPerm_idxOf g1 g2 hk]
  · have := tIdx_inBounds (s := tShape p1 x.shape) (p := p2) (by simpa [g1.1] using g2) hi
    simpa [g1.1] using this

theorem idxOf_range {r a : ℕ} (h : a < r) : (List.range r).idxOf a = a := by
  have := List.nodup_range.idxOf_getElem (xs := List.range r) a (by simpa using h)
  simpa using this

/-- Transposing by the identity changes nothing. -/
theorem transpose_id {x y : Tensor V} (h : transpose x (List.range x.shape.length) = some y) :
    y = x := by
  obtain ⟨g, rfl⟩ := transpose_some.1 h
  symm
  apply eq_build
  · apply getD_ext
    · simp
    · intro k hk
      rw [tShape_getD (by simpa using hk)]
      simp [List.getD_eq_getElem _ _ hk, hk]
  · intro i hi
    have hl : i.length = x.shape.length := by simpa using hi.length
    congr 1
    apply getD_ext
    · simp [hl]
    · intro k hk
      rw [tIdx_getD (hl ▸ hk), idxOf_range (hl ▸ hk)]

/-- Element-wise operators commute with Transpose. -/
theorem transpose_map (f : V → W) (x : Tensor V) (p : List ℕ) :
    transpose (x.map f) p = (transpose x p).map (Tensor.map f) := by
  unfold transpose
  by_cases h : IsPerm x.shape.length p
  · simp only [map_shape, h, if_true, Option.map_some, Option.some.injEq]
    rw [map_build]
    refine build_congr fun i hi => ?_
    exact get_map f x (tIdx_inBounds h hi)
  · simp [h]

end Verif.Rewrite
