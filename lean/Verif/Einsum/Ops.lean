import Verif.Einsum.Sum
import Verif.Rewrite.ArithSem

/-! # What the steps of the decomposition do to values with subscripts -/

namespace Verif.Einsum

open Verif.Rewrite

variable {V : Type} [Inhabited V] {A : Alg V} {D : Char → ℕ}

/-- The shape of a value is given by the extents `e` of its subscripts, which are 1 or the extents `D`. -/
structure WF (D e : Char → ℕ) (o : Out V) : Prop where
  shape : o.shape = o.subs.map e
  value : o.value.shape = o.subs.map e
  dims : ∀ x ∈ o.subs, e x = 1 ∨ e x = D x

/-- The coordinate along an axis with subscript `x`. -/
def pos (e σ : Char → ℕ) (x : Char) : ℕ := if e x = 1 then 0 else σ x

/-- The element of a value for given values of the subscripts. -/
def den (e : Char → ℕ) (o : Out V) (σ : Char → ℕ) : V := o.value.get (o.subs.map (pos e σ))

theorem map_inBounds {e g : Char → ℕ} {subs : List Char} (h : ∀ x ∈ subs, g x < e x) :
    InBounds (subs.map e) (subs.map g) := by
  induction subs with
  | nil => simp
  | cons x subs ih =>
    rw [List.map_cons, List.map_cons, inBounds_cons]
    exact ⟨h x (by simp), ih fun y hy => h y (by simp [hy])⟩

theorem pos_lt {e σ : Char → ℕ} {x : Char} (h : e x = 1 ∨ e x = D x) (hσ : σ x < D x) : pos e σ x < e x := by
  unfold pos
  split
  · omega
  · rcases h with h | h
    · contradiction
    · omega

theorem WF.inBounds {e σ : Char → ℕ} {o : Out V} (h : WF D e o) (hσ : ∀ x, σ x < D x) :
    InBounds (o.subs.map e) (o.subs.map (pos e σ)) :=
  map_inBounds fun x hx => pos_lt (h.dims x hx) (hσ x)

theorem typed_some {s : List ℕ} {t : Option (Tensor V)} {v : Tensor V} (ht : t = some v) (hs : v.shape = s) :
    typed s t = some v := by
  rw [ht]
  unfold typed
  simp [Option.filter, hs]

theorem Out.sub_eq {o : Out V} {a : ℕ} (h : a < o.subs.length) : o.sub a = o.subs[a] := by
  unfold Out.sub
  rw [List.getD_eq_getElem _ _ h]

theorem WF.dim {e : Char → ℕ} {o : Out V} (h : WF D e o) {a : ℕ} (ha : a < o.subs.length) : o.dim a = e (o.sub a) := by
  unfold Out.dim
  rw [h.shape, List.getD_eq_getElem _ _ (by simpa using ha), Out.sub_eq ha]
  simp

theorem dropFrom_map {α β : Type} (f : α → β) (ax : List ℕ) : ∀ (k : ℕ) (l : List α),
    dropFrom ax k (l.map f) = (dropFrom ax k l).map f
  | _, [] => rfl
  | k, a :: l => by
    rw [List.map_cons, dropFrom_cons, dropFrom_cons, dropFrom_map f ax (k + 1) l]
    split <;> simp

/-! ### Axes chosen by their subscripts -/

/-- The axes whose subscripts satisfy a predicate. -/
def axesOf (o : Out V) (p : Char → Bool) : List ℕ := (List.range o.subs.length).filter fun a => p (o.sub a)

omit [Inhabited V] in
theorem axesOf_sorted (o : Out V) (p : Char → Bool) : (axesOf o p).Pairwise (· < ·) := filter_sorted _ _

omit [Inhabited V] in
theorem axesOf_lt {o : Out V} {p : Char → Bool} {a : ℕ} (h : a ∈ axesOf o p) : a < o.subs.length :=
  List.mem_range.1 (List.mem_filter.1 h).1

omit [Inhabited V] in
theorem axesOf_drop (o : Out V) (p : Char → Bool) : dropFrom (axesOf o p) 0 o.subs = o.subs.filter fun x => !p x := by
  have := dropFrom_filter p ' ' 0 o.subs
  rw [← List.range_eq_range'] at this
  simpa [axesOf, Out.sub] using this

theorem pickFrom_filter {α : Type} (p : α → Bool) (d : α) : ∀ (k : ℕ) (l : List α),
    pickFrom ((List.range' k l.length).filter fun a => p (l.getD (a - k) d)) k l = l.filter p
  | _, [] => rfl
  | k, a :: l => by
    have h1 : ∀ b, (b ∈ (List.range' k (a :: l).length).filter fun c => p ((a :: l).getD (c - k) d)) ↔
        (b = k ∧ p a) ∨ (b ∈ (List.range' (k + 1) l.length).filter fun c => p (l.getD (c - (k + 1)) d)) := by
      intro b
      simp only [List.mem_filter, List.mem_range'_1, List.length_cons]
      constructor
      · rintro ⟨⟨h1, h2⟩, h3⟩
        rcases Nat.eq_or_lt_of_le h1 with h | h
        · subst h; left; simpa using h3
        · right
          refine ⟨⟨h, by omega⟩, ?_⟩
          rw [show b - k = b - (k + 1) + 1 by omega, List.getD_cons_succ] at h3
          exact h3
      · rintro (⟨rfl, h⟩ | ⟨⟨h1, h2⟩, h3⟩)
        · exact ⟨⟨le_refl _, by omega⟩, by simpa using h⟩
        · refine ⟨⟨by omega, by omega⟩, ?_⟩
          rw [show b - k = b - (k + 1) + 1 by omega, List.getD_cons_succ]
          exact h3
    rw [pickFrom_cons, List.filter_cons]
    have h2 : pickFrom ((List.range' k (a :: l).length).filter fun c => p ((a :: l).getD (c - k) d)) (k + 1) l =
        l.filter p := by
      rw [← pickFrom_filter p d (k + 1) l]
      unfold pickFrom
      congr 1
      apply List.filter_congr
      intro q hq
      have := List.le_snd_of_mem_zipIdx hq
      rw [decide_eq_decide, h1]
      constructor
      · rintro (h | h)
        · omega
        · exact h
      · exact .inr
    rw [h2]
    by_cases hp : p a
    · rw [if_pos ((h1 k).2 (.inl ⟨rfl, hp⟩))]
      simp [hp]
    · rw [if_neg]
      · simp [hp]
      · rw [h1]
        rintro (h | h)
        · exact hp h.2
        · simp only [List.mem_filter, List.mem_range'_1] at h
          omega

omit [Inhabited V] in
theorem axesOf_pick (o : Out V) (p : Char → Bool) : pickFrom (axesOf o p) 0 o.subs = o.subs.filter p := by
  have := pickFrom_filter p ' ' 0 o.subs
  rw [← List.range_eq_range'] at this
  simpa [axesOf, Out.sub] using this

/-! ### Squeeze -/

theorem rowMajor_dropFrom (ax : List ℕ) : ∀ {s p : List ℕ} {k : ℕ}, InBounds s p →
    (∀ j < s.length, k + j ∈ ax → s.getD j 0 = 1) →
    (dropFrom ax k s).prod = s.prod ∧ rowMajor (dropFrom ax k s) (dropFrom ax k p) = rowMajor s p
  | [], [], _, _, _ => ⟨rfl, rfl⟩
  | d :: s, i :: p, k, hp, h => by
    rw [inBounds_cons] at hp
    obtain ⟨h1, h2⟩ := rowMajor_dropFrom ax (k := k + 1) hp.2 (fun j hj hm => by
      have := h (j + 1) (by simpa using hj) (by rw [show k + (j + 1) = k + 1 + j by omega]; exact hm)
      simpa using this)
    rw [dropFrom_cons, dropFrom_cons]
    by_cases hk : k ∈ ax
    · have hd : d = 1 := by simpa using h 0 (by simp) (by simpa using hk)
      subst hd
      have hi : i = 0 := by omega
      subst hi
      rw [if_pos hk, if_pos hk, h1, h2]
      simp [rowMajor]
    · rw [if_neg hk, if_neg hk]
      simp only [List.prod_cons, rowMajor, h1, h2, and_self]

theorem prod_dropFrom (ax : List ℕ) : ∀ {s : List ℕ} {k : ℕ}, (∀ j < s.length, k + j ∈ ax → s.getD j 0 = 1) →
    (dropFrom ax k s).prod = s.prod
  | [], _, _ => rfl
  | d :: s, k, h => by
    have h1 := prod_dropFrom ax (s := s) (k := k + 1) (fun j hj hm => by
      have := h (j + 1) (by simpa using hj) (by rw [show k + (j + 1) = k + 1 + j by omega]; exact hm)
      simpa using this)
    rw [dropFrom_cons]
    by_cases hk : k ∈ ax
    · have hd : d = 1 := by simpa using h 0 (by simp) (by simpa using hk)
      rw [if_pos hk, h1, hd]
      simp
    · rw [if_neg hk, List.prod_cons, List.prod_cons, h1]

theorem retag_get' {x y : Tensor V} {s i j : List ℕ} (h : x.retag s = some y)
    (he : rowMajor s i = rowMajor x.shape j) : y.get i = x.get j := by
  unfold Tensor.get
  rw [retag_shape h, retag_data h, he]

omit [Inhabited V] in
theorem retag_ok' {x : Tensor V} {s : List ℕ} (h : x.shape.prod = s.prod) : ∃ y, x.retag s = some y := by
  unfold Tensor.retag
  rw [dif_pos h]
  exact ⟨_, rfl⟩

/-- Squeezing axes of extent 1. -/
theorem squeezeAxes_gen {e : Char → ℕ} {o : Out V} (h : WF D e o) {ax : List ℕ} (hs : ax.Pairwise (· < ·))
    (hl : ∀ a ∈ ax, a < o.subs.length) (h1 : ∀ a ∈ ax, o.dim a = 1) :
    ∃ o', squeezeAxes o ax = some o' ∧ WF D e o' ∧ o'.subs = dropFrom ax 0 o.subs ∧
      ∀ g, (∀ x ∈ o.subs, g x < e x) → o'.value.get (o'.subs.map g) = o.value.get (o.subs.map g) := by
  unfold squeezeAxes
  by_cases h0 : ax = []
  · rw [if_pos h0]
    refine ⟨o, rfl, h, ?_, fun g _ => rfl⟩
    rw [h0]
    unfold dropFrom
    simp [List.filter_true]
  rw [if_neg h0, if_pos h1, eraseAxes_eq hs, eraseAxes_eq hs]
  have hvl : o.value.shape.length = o.subs.length := by rw [h.value]; simp
  have hone : ∀ j < o.value.shape.length, 0 + j ∈ ax → o.value.shape.getD j 0 = 1 := by
    intro j hj hm
    rw [Nat.zero_add] at hm
    have := h1 j hm
    unfold Out.dim at this
    rwa [h.value, ← h.shape]
  obtain ⟨y, hy⟩ := retag_ok' (x := o.value) (s := dropFrom ax 0 o.value.shape) (prod_dropFrom ax hone).symm
  have hsq : squeeze o.value (some (lits ax)) = some y := by
    rw [squeeze_some]
    exact ⟨ax, lits_axes fun a ha => hvl ▸ hl a ha, fun a ha => hone a (hvl ▸ hl a ha) (by simpa using ha), hy⟩
  have hys := retag_shape hy
  refine ⟨⟨dropFrom ax 0 o.subs, dropFrom ax 0 o.shape, y⟩, ?_, ⟨?_, ?_, ?_⟩, rfl, ?_⟩
  · rw [typed_some hsq (by rw [hys, h.value, h.shape])]
    rfl
  · show dropFrom ax 0 o.shape = _
    rw [h.shape, dropFrom_map]
  · show y.shape = _
    rw [hys, h.value, dropFrom_map]
  · exact fun x hx => h.dims x ((dropFrom_sublist ax 0 o.subs).subset hx)
  · intro g hg
    show y.get ((dropFrom ax 0 o.subs).map g) = _
    have hin : InBounds o.value.shape (o.subs.map g) := by rw [h.value]; exact map_inBounds hg
    refine retag_get' hy ?_
    rw [← dropFrom_map, (rowMajor_dropFrom ax hin hone).2]

theorem squeezeNonResults_spec {e : Char → ℕ} {o : Out V} (h : WF D e o) (res : List Char) :
    ∃ o', squeezeNonResults res o = some o' ∧ WF D e o' ∧ o'.subs = o.subs.filter (fun x => !(e x = 1 && x ∉ res)) ∧
      ∀ σ, (∀ x, σ x < D x) → den e o' σ = den e o σ := by
  have hax : ((List.range o.subs.length).filter fun a => o.dim a = 1 ∧ o.sub a ∉ res) =
      axesOf o (fun x => e x = 1 && x ∉ res) := by
    unfold axesOf
    apply List.filter_congr
    intro a ha
    rw [h.dim (List.mem_range.1 ha)]
    simp
  unfold squeezeNonResults
  rw [hax]
  obtain ⟨o', h1, h2, h3, h4⟩ := squeezeAxes_gen h (axesOf_sorted o (fun x => e x = 1 && x ∉ res))
    (fun a ha => axesOf_lt ha) (fun a ha => by
    rw [h.dim (axesOf_lt ha)]
    have := (List.mem_filter.1 ha).2
    simp only [Bool.and_eq_true, decide_eq_true_eq] at this
    exact this.1)
  exact ⟨o', h1, h2, by rw [h3, axesOf_drop], fun σ hσ => h4 _ fun x hx => pos_lt (h.dims x hx) (hσ x)⟩

/-! ### ReduceSum -/

theorem reduceSum_eq [CommRing V] (hA : RingAlg A) {x : Tensor V} {ax : List ℕ} (h0 : ax ≠ [])
    (hl : ∀ a ∈ ax, a < x.shape.length) :
    reduceSum A x (some (lits ax)) false false = some (build (dropFrom ax 0 x.shape) fun idx =>
      (((allIndices x.shape).filter fun p => dropFrom ax 0 p = idx).map x.get).sum) := by
  have h1 : redAxes x.shape.length (some (lits ax)) false = some ax := by
    unfold redAxes
    have := lits_axes hl
    cases ax with
    | nil => exact absurd rfl h0
    | cons a ax => exact this
  unfold reduceSum reduceOp
  rw [h1]
  simp only [Option.map_some, Option.some.injEq]
  unfold reduceWith reduced
  have h2 : ∀ (v : ℕ) (l : List ℕ), project ax false v l = dropFrom ax 0 l := fun _ _ => rfl
  simp only [h2]
  congr 1
  funext idx
  rw [sumOver_eq hA, List.map_id]

theorem sumAxes_gen [CommRing V] (hA : RingAlg A) {e : Char → ℕ} {o : Out V} (h : WF D e o) {ax : List ℕ}
    (hs : ax.Pairwise (· < ·)) (hl : ∀ a ∈ ax, a < o.subs.length) (hn : ¬ ∀ a ∈ ax, o.dim a = 1) :
    ∃ o', sumAxes A o ax = some o' ∧ WF D e o' ∧ o'.subs = dropFrom ax 0 o.subs ∧
      ∀ g, (∀ x ∈ o'.subs, g x < e x) → o'.value.get (o'.subs.map g) =
        (((allIndices (o.subs.map e)).filter fun p => dropFrom ax 0 p = o'.subs.map g).map o.value.get).sum := by
  have h0 : ax ≠ [] := by rintro rfl; exact hn (by simp)
  have hvl : o.value.shape.length = o.subs.length := by rw [h.value]; simp
  unfold sumAxes
  rw [if_neg h0, if_neg hn, eraseAxes_eq hs, eraseAxes_eq hs, reduceSum_eq hA h0 (fun a ha => hvl ▸ hl a ha), h.value]
  refine ⟨⟨dropFrom ax 0 o.subs, dropFrom ax 0 o.shape, build (dropFrom ax 0 (o.subs.map e)) fun idx =>
      (((allIndices (o.subs.map e)).filter fun p => dropFrom ax 0 p = idx).map o.value.get).sum⟩, ?_, ⟨?_, ?_, ?_⟩, rfl, ?_⟩
  · rw [typed_some rfl (by rw [build_shape, h.shape])]
    rfl
  · show dropFrom ax 0 o.shape = _
    rw [h.shape, dropFrom_map]
  · rw [build_shape, dropFrom_map]
  · exact fun x hx => h.dims x ((dropFrom_sublist ax 0 o.subs).subset hx)
  · intro g hg
    show (build _ _).get _ = _
    rw [get_build _ (by rw [dropFrom_map]; exact map_inBounds hg)]

theorem index_map (e σ : Char → ℕ) (subs : List Char) : index (subs.map e) subs σ = subs.map (pos e σ) := by
  unfold index
  induction subs with
  | nil => rfl
  | cons x subs ih =>
    rw [List.map_cons, List.zipWith_cons_cons, ih]
    rfl

theorem dims_map {e : Char → ℕ} {subs : List Char} (h : ∀ x ∈ subs, e x = 1 ∨ e x = D x) : Dims D (subs.map e) subs := by
  unfold Dims
  induction subs with
  | nil => exact .nil
  | cons x subs ih => exact .cons (h x (by simp)) (ih fun y hy => h y (by simp [hy]))

/-- The element does not depend on subscripts that do not occur or have extent 1. -/
theorem den_congr {e : Char → ℕ} {o : Out V} {σ τ : Char → ℕ} (h : ∀ x ∈ o.subs, e x = 1 ∨ σ x = τ x) :
    den e o σ = den e o τ := by
  unfold den
  congr 1
  refine List.map_congr_left fun x hx => ?_
  unfold pos
  split
  · rfl
  · rename_i h1
    exact (h x hx).resolve_left h1

/-- Summing over the axes with some subscripts. -/
theorem sumAxes_spec [CommRing V] (hA : RingAlg A) {e : Char → ℕ} {o : Out V} (h : WF D e o) (hn : o.subs.Nodup)
    {p : Char → Bool} (hp : ∀ x ∈ o.subs, p x → e x = D x) :
    ∃ o', sumAxes A o (axesOf o p) = some o' ∧ WF D e o' ∧ o'.subs = o.subs.filter (fun x => !p x) ∧
      ∀ σ, (∀ x, σ x < D x) → den e o' σ = sumVars D (o.subs.filter p) (den e o) σ := by
  by_cases h1 : ∀ a ∈ axesOf o p, o.dim a = 1
  · have : sumAxes A o (axesOf o p) = squeezeAxes o (axesOf o p) := by
      unfold sumAxes
      by_cases h0 : axesOf o p = []
      · rw [if_pos h0, h0]; rfl
      · rw [if_neg h0, if_pos h1]
    rw [this]
    obtain ⟨o', g1, g2, g3, g4⟩ := squeezeAxes_gen h (axesOf_sorted o p) (fun a ha => axesOf_lt ha) h1
    refine ⟨o', g1, g2, by rw [g3, axesOf_drop], fun σ hσ => ?_⟩
    have hone : ∀ x ∈ o.subs.filter p, e x = 1 := by
      intro x hx
      obtain ⟨hx1, hx2⟩ := List.mem_filter.1 hx
      obtain ⟨a, ha, hax⟩ := List.getElem_of_mem hx1
      have ha' : a ∈ axesOf o p := by
        unfold axesOf
        rw [List.mem_filter, List.mem_range, Out.sub_eq ha, hax]
        exact ⟨ha, hx2⟩
      have := h1 a ha'
      rwa [h.dim ha, Out.sub_eq ha, hax] at this
    rw [sumVars_ones]
    · exact g4 _ fun x hx => pos_lt (h.dims x hx) (hσ x)
    · intro x hx
      rw [← hp x (List.mem_filter.1 hx).1 (List.mem_filter.1 hx).2]
      exact hone x hx
    · intro τ hτ
      refine den_congr fun x hx => ?_
      by_cases hpx : p x
      · exact .inl (hone x (List.mem_filter.2 ⟨hx, hpx⟩))
      · exact .inr (hτ x fun h => hpx (List.mem_filter.1 h).2)
  · obtain ⟨o', g1, g2, g3, g4⟩ := sumAxes_gen hA h (axesOf_sorted o p) (fun a ha => axesOf_lt ha) h1
    refine ⟨o', g1, g2, by rw [g3, axesOf_drop], fun σ hσ => ?_⟩
    unfold den
    rw [g4 _ fun x hx => pos_lt (g2.dims x hx) (hσ x), g3]
    have := sum_axes (axesOf o p) (s := o.subs.map e) (subs := o.subs) (k := 0) (σ := σ) o.value.get (dims_map h.dims) hn
      (fun x _ => hσ x) (by
        intro q hq hm
        obtain ⟨⟨d, x⟩, a⟩ := q
        rw [List.mem_zipIdx_iff_getElem?] at hq
        simp only at hq hm ⊢
        rw [List.getElem?_zip_eq_some] at hq
        obtain ⟨hq1, hq2⟩ := hq
        obtain ⟨ha, hx⟩ := List.getElem?_eq_some_iff.1 hq2
        have hx : o.subs[a] = x := hx
        rw [List.getElem?_map, hq2] at hq1
        simp only [Option.map_some, Option.some.injEq] at hq1
        rw [← hq1]
        refine hp x (hx ▸ List.getElem_mem ha) ?_
        have := (List.mem_filter.1 hm).2
        rwa [Out.sub_eq ha, hx] at this)
    rw [dropFrom_map, index_map, axesOf_pick] at this
    simp only [index_map] at this
    rw [this]

end Verif.Einsum
