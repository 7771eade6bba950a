import Verif.Base.Index

/-!
# Tensors as values

Vocabulary for the ONNX semantics used by the models of the graph rewrites: a tensor is a shape and
its elements in row-major order, so two tensors are equal exactly when they have the same shape and
the same elements. Nothing here models code.
-/

namespace Verif.Rewrite

/-- A tensor: a shape and as many elements as the shape has positions, in row-major order. -/
structure Tensor (V : Type) where
  shape : List ℕ
  data : List V
  wf : data.length = shape.prod

instance {V : Type} [DecidableEq V] : DecidableEq (Tensor V) := fun a b =>
  if h : a.shape = b.shape ∧ a.data = b.data then
    .isTrue (by cases a; cases b; simp at h; obtain ⟨rfl, rfl⟩ := h; rfl)
  else .isFalse (by rintro rfl; exact h ⟨rfl, rfl⟩)

variable {V W : Type}

/-- The tensor of a shape whose element at index `i` is `f i`. -/
def build (s : List ℕ) (f : List ℕ → V) : Tensor V :=
  ⟨s, (allIndices s).map f, by simp [length_allIndices]⟩

/-- The element at an index (any value out of bounds). -/
def Tensor.get [Inhabited V] (t : Tensor V) (idx : List ℕ) : V :=
  t.data.getD (rowMajor t.shape idx) default

@[simp] theorem build_shape (s : List ℕ) (f : List ℕ → V) : (build s f).shape = s := rfl

theorem getElem_unrank (s : List ℕ) (f : List ℕ → V) (n : ℕ) (h : n < s.prod) :
    (build s f).data.getD n (f (unrank s n)) = f (unrank s n) := by
  have h' : n < (allIndices s).length := by rwa [length_allIndices]
  simp only [build, List.getD_eq_getElem?_getD, List.getElem?_map,
    List.getElem?_eq_getElem h', getElem_allIndices, Option.map_some, Option.getD_some]

variable [Inhabited V] [Inhabited W]

@[simp] theorem get_build {s : List ℕ} (f : List ℕ → V) {idx : List ℕ} (h : InBounds s idx) :
    (build s f).get idx = f idx := by
  have hl := rowMajor_lt h
  have h' : rowMajor s idx < (allIndices s).length := by rwa [length_allIndices]
  simp only [build, Tensor.get, List.getD_eq_getElem?_getD, List.getElem?_map,
    List.getElem?_eq_getElem h', getElem_allIndices, Option.map_some, Option.getD_some]
  rw [unrank_rowMajor h]

theorem build_congr {s : List ℕ} {f g : List ℕ → V} (h : ∀ i, InBounds s i → f i = g i) :
    build s f = build s g := by
  unfold build
  congr 1
  exact List.map_congr_left fun i hi => h i (mem_allIndices.1 hi)

/-- A tensor is determined by its shape and its elements. -/
theorem build_get (t : Tensor V) : build t.shape t.get = t := by
  obtain ⟨s, d, w⟩ := t
  unfold build
  congr 1
  apply List.ext_getElem
  · simp [length_allIndices, w]
  · intro n h1 h2
    have hn : n < s.prod := by simpa [length_allIndices] using h1
    rw [List.getElem_map, getElem_allIndices, Tensor.get]
    simp only [rowMajor_unrank hn, List.getD_eq_getElem?_getD,
      List.getElem?_eq_getElem h2, Option.getD_some]

theorem Tensor.ext' {a b : Tensor V} (hs : a.shape = b.shape)
    (h : ∀ i, InBounds a.shape i → a.get i = b.get i) : a = b := by
  rw [← build_get a, ← build_get b, hs]
  exact build_congr fun i hi => h i (hs ▸ hi)

theorem eq_build {t : Tensor V} {s : List ℕ} {f : List ℕ → V} (hs : t.shape = s)
    (h : ∀ i, InBounds s i → t.get i = f i) : t = build s f :=
  Tensor.ext' (by simp [hs]) fun i hi => by rw [h i (hs ▸ hi), get_build _ (hs ▸ hi)]

/-- Apply a function to every element. -/
def Tensor.map (f : V → W) (t : Tensor V) : Tensor W := ⟨t.shape, t.data.map f, by simp [t.wf]⟩

@[simp] theorem map_shape (f : V → W) (t : Tensor V) : (t.map f).shape = t.shape := rfl

@[simp] theorem get_map (f : V → W) (t : Tensor V) {idx : List ℕ} (h : InBounds t.shape idx) :
    (t.map f).get idx = f (t.get idx) := by
  have hl := rowMajor_lt h
  rw [← t.wf] at hl
  simp only [Tensor.map, Tensor.get, List.getD_eq_getElem?_getD, List.getElem?_map,
    List.getElem?_eq_getElem hl, Option.map_some, Option.getD_some]

theorem map_build (f : V → W) (s : List ℕ) (g : List ℕ → V) :
    (build s g).map f = build s fun i => f (g i) := by
  unfold build Tensor.map
  simp [List.map_map, Function.comp_def]

/-- The same elements in the same order under another shape. -/
def Tensor.retag (t : Tensor V) (s : List ℕ) : Option (Tensor V) :=
  if h : t.shape.prod = s.prod then some ⟨s, t.data, by rw [t.wf, h]⟩ else none

theorem retag_retag {t u : Tensor V} {s r : List ℕ} (h : t.retag s = some u) :
    u.retag r = t.retag r := by
  unfold Tensor.retag at h
  split at h
  · rename_i hp
    cases h
    unfold Tensor.retag
    simp only [hp]
  · cases h

theorem retag_self (t : Tensor V) : t.retag t.shape = some t := by
  simp [Tensor.retag]

theorem retag_shape {t u : Tensor V} {s : List ℕ} (h : t.retag s = some u) : u.shape = s := by
  unfold Tensor.retag at h
  split at h
  · cases h; rfl
  · cases h

theorem retag_data {t u : Tensor V} {s : List ℕ} (h : t.retag s = some u) : u.data = t.data := by
  unfold Tensor.retag at h
  split at h
  · cases h; rfl
  · cases h

theorem retag_prod {t u : Tensor V} {s : List ℕ} (h : t.retag s = some u) :
    t.shape.prod = s.prod := by
  unfold Tensor.retag at h
  split at h
  · assumption
  · cases h

theorem retag_map {t : Tensor V} {s : List ℕ} (f : V → W) :
    (t.map f).retag s = (t.retag s).map (Tensor.map f) := by
  unfold Tensor.retag
  by_cases h : t.shape.prod = s.prod
  · simp [h, Tensor.map]
  · simp [h]

end Verif.Rewrite
