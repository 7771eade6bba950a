import Verif.Rewrite.TransposeSem

/-! # Laws of Concat -/

namespace Verif.Rewrite

variable {V W : Type} [Inhabited V] [Inhabited W]

theorem concat_some {ts : List (Tensor V)} {axis : ℤ} {y : Tensor V} :
    concat ts axis = some y ↔ ∃ t us ax, ts = t :: us ∧ normAxis t.shape.length axis = some ax ∧
      (∀ u ∈ ts, u.shape.set ax 0 = t.shape.set ax 0) ∧
      y = build (t.shape.set ax (ts.map fun u => u.shape.getD ax 0).sum) (concatGet ax ts) := by
  unfold concat
  cases ts with
  | nil => simp
  | cons t us =>
    simp only [Option.bind_eq_some_iff]
    constructor
    · rintro ⟨ax, h, g⟩
      split at g
      · rename_i hu
        exact ⟨t, us, ax, rfl, h, hu, (Option.some.inj g).symm⟩
      · cases g
    · rintro ⟨t', us', ax, h, hn, hu, rfl⟩
      cases h
      exact ⟨ax, hn, if_pos hu⟩

theorem set_eq_length {a b : List ℕ} {k : ℕ} (h : a.set k 0 = b.set k 0) : a.length = b.length := by
  simpa using congrArg List.length h

theorem getD_set_ne {a : List ℕ} {k j v : ℕ} (h : j ≠ k) : (a.set k v).getD j 0 = a.getD j 0 := by
  rw [List.getD_eq_getElem?_getD, List.getD_eq_getElem?_getD, List.getElem?_set_ne (Ne.symm h)]

theorem getD_set_eq {a : List ℕ} {k v : ℕ} (h : k < a.length) : (a.set k v).getD k 0 = v := by
  rw [List.getD_eq_getElem?_getD, List.getElem?_set_self h, Option.getD_some]

theorem set_eq_getD {a b : List ℕ} {k j : ℕ} (h : a.set k 0 = b.set k 0) (hj : j ≠ k) :
    a.getD j 0 = b.getD j 0 := by
  rw [← getD_set_ne (v := 0) hj, h, getD_set_ne hj]

theorem set_eq_iff {a b : List ℕ} {k : ℕ} :
    a.set k 0 = b.set k 0 ↔ a.length = b.length ∧ ∀ j, j ≠ k → a.getD j 0 = b.getD j 0 := by
  constructor
  · exact fun h => ⟨set_eq_length h, fun j hj => set_eq_getD h hj⟩
  · rintro ⟨hl, h⟩
    apply getD_ext (by simpa using hl)
    intro j hj
    by_cases hjk : j = k
    · subst hjk
      rw [List.length_set] at hj
      rw [getD_set_eq hj, getD_set_eq (hl ▸ hj)]
    · rw [getD_set_ne hjk, getD_set_ne hjk, h j hjk]

/-- The coordinate along the axis falls into one of the operands. -/
theorem concatGet_map (f : V → W) {ax : ℕ} {s : List ℕ} : ∀ (ts : List (Tensor V)) (idx : List ℕ),
    (∀ u ∈ ts, u.shape.set ax 0 = s.set ax 0) →
    InBounds (s.set ax (ts.map fun u => u.shape.getD ax 0).sum) idx → ax < s.length →
    concatGet ax (ts.map (Tensor.map f)) idx = f (concatGet ax ts idx)
  | [], idx, _, hi, hax => by
    have := (inBounds_getD.1 hi).2 ax (by simpa using hax)
    rw [getD_set_eq hax] at this
    simp at this
  | t :: ts, idx, hs, hi, hax => by
    rw [inBounds_getD] at hi
    have ht := hs t (by simp)
    have hl := set_eq_length ht
    rw [List.map_cons]
    unfold concatGet
    have e0 : (t.map f).shape = t.shape := rfl
    simp only [e0]
    by_cases hlt : idx.getD ax 0 < t.shape.getD ax 0
    · rw [if_pos hlt, if_pos hlt]
      refine get_map f t (inBounds_getD.2 ⟨by simpa [hl] using hi.1, fun k hk => ?_⟩)
      by_cases hka : k = ax
      · rwa [hka]
      · have := hi.2 k (by simpa [← hl] using hk)
        rwa [getD_set_ne hka, ← set_eq_getD ht hka] at this
    · rw [if_neg hlt, if_neg hlt]
      refine concatGet_map f ts _ (fun u hu => hs u (by simp [hu])) ?_ hax
      refine inBounds_getD.2 ⟨by simpa using hi.1, fun k hk => ?_⟩
      have := hi.2 k (by simpa using hk)
      have hil : idx.length = s.length := by simpa using hi.1
      by_cases hka : k = ax
      · subst hka
        rw [getD_set_eq (hil ▸ hax), getD_set_eq hax]
        rw [getD_set_eq hax, List.map_cons, List.sum_cons] at this
        omega
      · rw [getD_set_ne hka] at this
        rwa [getD_set_ne hka, getD_set_ne hka]

/-- Element-wise operators commute with Concat. -/
theorem concat_map (f : V → W) {ts : List (Tensor V)} {axis : ℤ} {y : Tensor V}
    (h : concat ts axis = some y) : concat (ts.map (Tensor.map f)) axis = some (y.map f) := by
  obtain ⟨t, us, ax, rfl, hn, hs, rfl⟩ := concat_some.1 h
  refine concat_some.2 ⟨t.map f, us.map (Tensor.map f), ax, by simp, hn, ?_, ?_⟩
  · intro u hu
    obtain ⟨u', hu', rfl⟩ := List.mem_map.1 hu
    exact hs u' hu'
  · rw [map_build]
    have : (((t :: us).map (Tensor.map f)).map fun u => u.shape.getD ax 0) =
        ((t :: us).map fun u => u.shape.getD ax 0) := by
      rw [List.map_map]; rfl
    rw [this]
    refine build_congr fun i hi => ?_
    have hax : ax < t.shape.length := by
      unfold normAxis at hn
      split at hn
      · cases hn; omega
      · split at hn
        · cases hn; omega
        · cases hn
    exact (concatGet_map f (t :: us) i hs hi hax).symm

/-- The transposed operand. -/
def tr (p : List ℕ) (u : Tensor V) : Tensor V :=
  build (tShape p u.shape) fun i => u.get (tIdx u.shape.length p i)

theorem concatGet_transpose {ax r : ℕ} {p s : List ℕ} (hp : IsPerm r p) (hsl : s.length = r)
    (hax : ax < r) : ∀ (ts : List (Tensor V)) (idx : List ℕ),
    (∀ u ∈ ts, u.shape.set ax 0 = s.set ax 0) →
    InBounds (tShape p (s.set ax (ts.map fun u => u.shape.getD ax 0).sum)) idx →
    concatGet (p.idxOf ax) (ts.map (tr p)) idx = concatGet ax ts (tIdx r p idx)
  | [], _, _, _ => rfl
  | t :: ts, idx, hs, hi => by
    have ht := hs t (by simp)
    have hl : t.shape.length = r := hsl ▸ set_eq_length ht
    have hk := hp.idxOf_lt hax
    rw [inBounds_getD] at hi
    have hil : idx.length = r := by simpa [hp.1] using hi.1
    have e1 : (tr p t).shape.getD (p.idxOf ax) 0 = t.shape.getD ax 0 := by
      rw [tr, build_shape, tShape_getD (hp.1 ▸ hk), hp.getD_idxOf hax]
    simp only [List.map_cons, concatGet]
    rw [e1, tIdx_getD hax]
    split
    · rename_i hlt
      rw [tr, get_build, hl]
      refine inBounds_getD.2 ⟨by simp [hil, hp.1], fun k hk' => ?_⟩
      have hk'' : k < r := by simpa [hp.1] using hk'
      have := hi.2 k (by simpa [hp.1] using hk'')
      rw [tShape_getD (hp.1 ▸ hk'')] at this ⊢
      by_cases hka : p.getD k 0 = ax
      · rw [hka]
        have : k = p.idxOf ax := by rw [← hka, hp.idxOf_getD hk'']
        rw [this]; exact hlt
      · rwa [getD_set_ne hka, ← set_eq_getD ht hka] at this
    · rename_i hge
      have e2 : (tIdx r p idx).set ax (idx.getD (p.idxOf ax) 0 - t.shape.getD ax 0) =
          tIdx r p (idx.set (p.idxOf ax) (idx.getD (p.idxOf ax) 0 - t.shape.getD ax 0)) := by
        apply getD_ext (by simp)
        intro j hj
        have hj : j < r := by simpa using hj
        rw [tIdx_getD hj]
        by_cases hja : j = ax
        · subst hja
          rw [getD_set_eq (by simpa using hax), getD_set_eq (hil ▸ hk)]
        · rw [getD_set_ne hja, tIdx_getD hj, getD_set_ne]
          intro hc
          apply hja
          rw [← hp.getD_idxOf hj, hc, hp.getD_idxOf hax]
      rw [e2]
      refine concatGet_transpose hp hsl hax ts _ (fun u hu => hs u (by simp [hu])) ?_
      refine inBounds_getD.2 ⟨by simp [hil, hp.1], fun k hk' => ?_⟩
      have hk'' : k < r := by simpa [hp.1] using hk'
      have := hi.2 k (by simpa [hp.1] using hk'')
      rw [tShape_getD (hp.1 ▸ hk'')] at this ⊢
      by_cases hka : p.getD k 0 = ax
      · have hkk : k = p.idxOf ax := by rw [← hka, hp.idxOf_getD hk'']
        rw [hka, getD_set_eq (hsl ▸ hax), List.map_cons, List.sum_cons] at this
        rw [hka, getD_set_eq (hsl ▸ hax), hkk, getD_set_eq (hil ▸ hk)]
        rw [hkk] at this
        omega
      · rw [getD_set_ne hka] at this ⊢
        rwa [getD_set_ne]
        intro hc
        apply hka
        rw [hc, hp.getD_idxOf hax]

/-- Transposing a concatenation is concatenating the transposed operands along the place where the axis
goes. -/
theorem concat_transpose {ts : List (Tensor V)} {axis : ℤ} {y z : Tensor V} {p : List ℕ}
    (h : concat ts axis = some y) (hz : transpose y p = some z) :
    ∃ ax, normAxis y.shape.length axis = some ax ∧ (∀ u ∈ ts, u.shape.length = y.shape.length ∧
      transpose u p = some (tr p u)) ∧ concat (ts.map (tr p)) (p.idxOf ax : ℕ) = some z := by
  obtain ⟨t, us, ax, rfl, hn, hs, rfl⟩ := concat_some.1 h
  obtain ⟨hp, rfl⟩ := transpose_some.1 hz
  simp only [build_shape, List.length_set] at hp ⊢
  have hax : ax < t.shape.length := by
    unfold normAxis at hn
    split at hn
    · cases hn; omega
    · split at hn
      · cases hn; omega
      · cases hn
  have hk := hp.idxOf_lt hax
  have hshape : ∀ u ∈ t :: us, ∀ j, j ≠ p.idxOf ax → (tr p u).shape.getD j 0 =
      (tr p t).shape.getD j 0 := by
    intro u hu j hj
    simp only [tr, build_shape]
    by_cases hjr : j < p.length
    · rw [tShape_getD hjr, tShape_getD hjr]
      refine set_eq_getD (hs u hu) fun hc => hj ?_
      rw [← hc, hp.idxOf_getD (hp.1 ▸ hjr)]
    · rw [List.getD_eq_default _ _ (by simpa using hjr),
        List.getD_eq_default _ _ (by simpa using hjr)]
  have hsum : (((t :: us).map (tr p)).map fun u => u.shape.getD (p.idxOf ax) 0) =
      ((t :: us).map fun u => u.shape.getD ax 0) := by
    rw [List.map_map]
    refine List.map_congr_left fun u hu => ?_
    simp only [Function.comp, tr, build_shape]
    rw [tShape_getD (hp.1 ▸ hk), hp.getD_idxOf hax]
  refine ⟨ax, hn, fun u hu => ?_, ?_⟩
  · have := set_eq_length (hs u hu)
    exact ⟨this, transpose_some.2 ⟨this ▸ hp, rfl⟩⟩
  · refine concat_some.2 ⟨tr p t, us.map (tr p), p.idxOf ax, by simp, ?_, ?_, ?_⟩
    · unfold normAxis
      rw [if_pos (by simp [tr, hp.1]; omega)]
      simp
    · intro u hu
      obtain ⟨u', hu', rfl⟩ := List.mem_map.1 hu
      refine set_eq_iff.2 ⟨by simp [tr], hshape u' hu'⟩
    · rw [hsum]
      have hsh : tShape p (t.shape.set ax ((t :: us).map fun u => u.shape.getD ax 0).sum) =
          (tr p t).shape.set (p.idxOf ax) ((t :: us).map fun u => u.shape.getD ax 0).sum := by
        apply getD_ext (by simp [tr])
        intro j hj
        have hj : j < p.length := by simpa using hj
        rw [tShape_getD hj]
        by_cases hja : j = p.idxOf ax
        · rw [hja, hp.getD_idxOf hax, getD_set_eq hax, getD_set_eq (by simpa [tr, hp.1] using hk)]
        · rw [getD_set_ne hja, getD_set_ne, tr, build_shape, tShape_getD hj]
          intro hc
          apply hja
          rw [← hc, hp.idxOf_getD (hp.1 ▸ hj)]
      rw [← hsh]
      refine build_congr fun i hi => ?_
      rw [concatGet_transpose hp rfl hax (t :: us) i hs hi, get_build]
      have := tIdx_inBounds (s := t.shape.set ax ((t :: us).map fun u => u.shape.getD ax 0).sum)
        (p := p) (by simpa using hp) hi
      simpa using this

end Verif.Rewrite
