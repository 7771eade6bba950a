import Verif.Rewrite.Onnx
import Verif.Rewrite.ConcatSem

/-! # Facts about broadcasting -/

namespace Verif.Rewrite

variable {V : Type} [Inhabited V]

theorem bdims_get : ∀ {a b s : List ℕ}, bdims a b = some s → a.length = s.length ∧ b.length = s.length ∧
    ∀ k, k < s.length → bdim (a.getD k 0) (b.getD k 0) = some (s.getD k 0)
  | [], [], s, h => by cases h; simp
  | x :: a, y :: b, s, h => by
    simp only [bdims, Option.bind_eq_some_iff, Option.map_eq_some_iff] at h
    obtain ⟨d, h1, t, h2, rfl⟩ := h
    obtain ⟨g1, g2, g3⟩ := bdims_get h2
    refine ⟨by simp [g1], by simp [g2], fun k hk => ?_⟩
    cases k with
    | zero => simpa using h1
    | succ k => simpa using g3 k (by simpa using hk)
  | [], _ :: _, s, h => by cases h
  | _ :: _, [], s, h => by cases h

theorem bdims_comm : ∀ (a b : List ℕ), bdims a b = bdims b a
  | [], [] => rfl
  | x :: a, y :: b => by
    simp only [bdims, bdims_comm a b]
    have : bdim x y = bdim y x := by
      unfold bdim
      by_cases h1 : x = y
      · rw [h1]
      · rw [if_neg h1, if_neg (Ne.symm h1)]
        by_cases h2 : x = 1
        · have h3 : y ≠ 1 := fun h => h1 (h2.trans h.symm)
          rw [if_pos h2, if_neg h3, if_pos h2]
        · rw [if_neg h2]
          by_cases h3 : y = 1
          · rw [if_pos h3, if_pos h3]
          · rw [if_neg h3, if_neg h3, if_neg h2]
    rw [this]
  | [], _ :: _ => rfl
  | _ :: _, [] => rfl

theorem bshape_comm (a b : List ℕ) : bshape a b = bshape b a := by
  unfold bshape
  rw [bdims_comm, max_comm]

theorem padOnes_length {r : ℕ} {s : List ℕ} (h : s.length ≤ r) : (padOnes r s).length = r := by
  simp [padOnes]; omega

theorem padOnes_getD {r k : ℕ} {s : List ℕ} : (padOnes r s).getD (r - s.length + k) 0 = s.getD k 0 := by
  unfold padOnes
  rw [List.getD_append_right _ _ _ _ (by simp)]
  simp

theorem bshape_length {a b s : List ℕ} (h : bshape a b = some s) : s.length = max a.length b.length := by
  obtain ⟨h1, -, -⟩ := bdims_get h
  rw [padOnes_length (le_max_left _ _)] at h1
  exact h1.symm

/-- A shape can be stretched to another one. -/
def Bto (a s : List ℕ) : Prop :=
  a.length ≤ s.length ∧ ∀ k, k < a.length → a.getD k 0 = 1 ∨ a.getD k 0 = s.getD (s.length - a.length + k) 0

theorem bto_bshape {a b s : List ℕ} (h : bshape a b = some s) : Bto a s := by
  have hl := bshape_length h
  obtain ⟨-, -, h3⟩ := bdims_get h
  have hle : a.length ≤ s.length := by rw [hl]; exact le_max_left _ _
  refine ⟨hle, fun k hk => ?_⟩
  have hk' : s.length - a.length + k < s.length := by omega
  have h4 := h3 _ hk'
  rw [hl, padOnes_getD, ← hl] at h4
  by_cases h1 : a.getD k 0 = 1
  · exact .inl h1
  right
  generalize a.getD k 0 = x at *
  generalize s.getD (s.length - a.length + k) 0 = z at *
  unfold bdim at h4
  by_cases hx : x = (padOnes s.length b).getD (s.length - a.length + k) 0
  · rw [if_pos hx] at h4
    exact Option.some.inj h4
  · rw [if_neg hx, if_neg h1] at h4
    split at h4
    · exact Option.some.inj h4
    · cases h4

theorem bto_bshape_right {a b s : List ℕ} (h : bshape a b = some s) : Bto b s :=
  bto_bshape (by rw [bshape_comm]; exact h)

theorem Bto.trans {a b c : List ℕ} (h : Bto a b) (g : Bto b c) : Bto a c := by
  refine ⟨h.1.trans g.1, fun k hk => ?_⟩
  rcases h.2 k hk with h1 | h1
  · exact .inl h1
  · have hle := h.1
    have hle' := g.1
    have h2 := g.2 (b.length - a.length + k) (by omega)
    rw [← h1] at h2
    rw [show c.length - b.length + (b.length - a.length + k) = c.length - a.length + k by omega] at h2
    exact h2

theorem bidx_length {a i : List ℕ} (h : a.length ≤ i.length) : (bidx a i).length = a.length := by
  unfold bidx
  simp only [List.length_zipWith, List.length_drop]
  omega

theorem bidx_getD {a i : List ℕ} (h : a.length ≤ i.length) {k : ℕ} (hk : k < a.length) :
    (bidx a i).getD k 0 = if a.getD k 0 = 1 then 0 else i.getD (i.length - a.length + k) 0 := by
  have := bidx_length h
  rw [List.getD_eq_getElem _ _ (by omega)]
  unfold bidx
  rw [List.getElem_zipWith, List.getElem_drop, List.getD_eq_getElem _ _ hk, List.getD_eq_getElem]

/-- The element of an operand used by a broadcast exists. -/
theorem Bto.inBounds {a s i : List ℕ} (h : Bto a s) (hi : InBounds s i) : InBounds a (bidx a i) := by
  rw [inBounds_getD] at hi ⊢
  obtain ⟨hi1, hi2⟩ := hi
  have hle : a.length ≤ i.length := by rw [hi1]; exact h.1
  refine ⟨bidx_length hle, fun k hk => ?_⟩
  have := h.1
  have h5 := hi2 (s.length - a.length + k) (by omega)
  rw [bidx_getD hle hk, hi1]
  split
  · omega
  · rename_i h1
    rcases h.2 k hk with h2 | h2
    · exact absurd h2 h1
    · rw [h2]; exact h5

theorem bidx_inBounds {a b s i : List ℕ} (h : bshape a b = some s) (hi : InBounds s i) :
    InBounds a (bidx a i) := (bto_bshape h).inBounds hi

theorem bidx_self {s i : List ℕ} (h : InBounds s i) : bidx s i = i := by
  rw [inBounds_iff_get] at h
  unfold bidx
  rw [h.1]
  simp only [Nat.sub_self, List.drop_zero]
  apply List.ext_getElem
  · simp [h.1]
  · intro k g1 g2
    rw [List.getElem_zipWith]
    have hk : k < s.length := by have := h.1; omega
    have := h.2 k hk
    split
    · omega
    · rfl

theorem bdims_self : ∀ s : List ℕ, bdims s s = some s
  | [] => rfl
  | d :: s => by simp [bdims, bdim, bdims_self s]

theorem bshape_self (s : List ℕ) : bshape s s = some s := by
  unfold bshape
  simp only [max_self]
  rw [bdims_self]
  simp [padOnes]

theorem binary_same {f : V → V → V} {a b : Tensor V} {s : List ℕ} (ha : a.shape = s) (hb : b.shape = s) :
    binary f a b = some (build s fun i => f (a.get i) (b.get i)) := by
  unfold binary
  rw [ha, hb, bshape_self]
  simp only [Option.map_some, Option.some.injEq]
  refine build_congr fun i hi => ?_
  rw [bidx_self hi]

theorem get_mem {t : Tensor V} {i : List ℕ} (h : InBounds t.shape i) : t.get i ∈ t.data := by
  have hl := rowMajor_lt h
  rw [← t.wf] at hl
  unfold Tensor.get
  rw [List.getD_eq_getElem _ _ hl]
  exact List.getElem_mem _

/-! ### Tensors with one element -/

/-- The shapes taken for scalars. -/
def IsSc (s : List ℕ) : Prop := s = [] ∨ s = [1]

theorem bdims_ones : ∀ s : List ℕ, bdims (List.replicate s.length 1) s = some s
  | [] => rfl
  | d :: s => by
    rw [List.length_cons, List.replicate_succ, bdims, bdims_ones s]
    have : bdim 1 d = some d := by
      unfold bdim
      split
      · rename_i h; rw [h]
      · rfl
    rw [this]
    rfl

theorem bshape_sc {l s : List ℕ} (hl : IsSc l) (hs : l = [] ∨ s ≠ []) : bshape l s = some s := by
  have hle : l.length ≤ s.length := by
    rcases hl with rfl | rfl
    · simp
    · rcases hs with h | h
      · cases h
      · exact List.length_pos_iff.2 h
  unfold bshape
  rw [max_eq_right hle]
  have h1 : padOnes s.length l = List.replicate s.length 1 := by
    rcases hl with rfl | rfl
    · simp [padOnes]
    · unfold padOnes
      conv_rhs => rw [show s.length = (s.length - 1) + 1 by simp at hle; omega]
      rw [List.replicate_add]
      rfl
  have h2 : padOnes s.length s = s := by simp [padOnes]
  rw [h1, h2, bdims_ones]

theorem bshape_sc_nil {l : List ℕ} (hl : IsSc l) : bshape l [] = some l := by
  rcases hl with rfl | rfl <;> rfl

/-- The broadcast of a scalar shape with any shape. -/
theorem bshape_sc' {l : List ℕ} (s : List ℕ) (hl : IsSc l) : bshape l s = some (if s = [] then l else s) := by
  split
  · rename_i h; rw [h]; exact bshape_sc_nil hl
  · rename_i h; exact bshape_sc hl (.inr h)

/-- The only element. -/
def Tensor.one (t : Tensor V) : V := t.data.headD default

theorem sc_data {t : Tensor V} (h : IsSc t.shape) : t.data = [t.one] := by
  have : t.data.length = 1 := by rw [t.wf]; rcases h with h | h <;> rw [h] <;> rfl
  obtain ⟨v, hv⟩ := List.length_eq_one_iff.1 this
  rw [Tensor.one, hv]
  rfl

theorem sc_get {t : Tensor V} (h : IsSc t.shape) (i : List ℕ) : t.get (bidx t.shape i) = t.one := by
  have hd := sc_data h
  unfold Tensor.get
  rw [hd]
  have h0 : rowMajor t.shape (bidx t.shape i) = 0 := by
    rcases h with h | h
    · rw [h]; rfl
    · rw [h]
      unfold bidx
      cases i.drop (i.length - [1].length) with
      | nil => rfl
      | cons a l => simp [rowMajor]
  rw [h0]
  rfl

/-- The tensor of a shape all of whose elements are `v`. -/
def fill (s : List ℕ) (v : V) : Tensor V := build s fun _ => v

omit [Inhabited V] in
theorem fill_data (s : List ℕ) (v : V) : (fill s v).data = List.replicate s.prod v := by
  unfold fill build
  simp only
  rw [List.map_const', length_allIndices]

theorem retag_fill {s r : List ℕ} {v : V} {y : Tensor V} (h : (fill s v).retag r = some y) : y = fill r v := by
  have h1 := retag_shape h
  have h2 := retag_data h
  have h3 := retag_prod h
  obtain ⟨a, d, w⟩ := y
  simp only at h1 h2
  subst h1
  have : (fill a v).data = d := by
    rw [h2, fill_data, fill_data]
    congr 1
    exact h3.symm
  subst this
  rfl

theorem expand_sc {t : Tensor V} {s : List ℕ} (h : IsSc t.shape) (hs : s ≠ []) :
    expand t s = some (fill s t.one) := by
  unfold expand
  rw [bshape_sc h (.inr hs)]
  simp only [Option.map_some, Option.some.injEq]
  exact build_congr fun i _ => sc_get h i

theorem binary_sc_right {f : V → V → V} {a r : Tensor V} (h : IsSc r.shape) (ha : r.shape = [] ∨ a.shape ≠ []) :
    binary f a r = some (a.map fun v => f v r.one) := by
  unfold binary
  rw [bshape_comm, bshape_sc h ha]
  simp only [Option.map_some, Option.some.injEq]
  refine Eq.symm (eq_build (t := a.map fun v => f v r.one) rfl fun i hi => ?_)
  have hi' : InBounds a.shape i := hi
  rw [get_map _ _ hi', sc_get h, bidx_self hi']

end Verif.Rewrite
