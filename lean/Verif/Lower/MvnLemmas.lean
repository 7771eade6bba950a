import Verif.Lower.NormLemmas

/-!
Lemmas for MeanVarianceNormalization and LpNormalization.
-/

namespace Verif.Lower

/-- The mask of a predicate on positions. -/
def maskOf (n : ℕ) (P : ℕ → Bool) : List Bool := (List.range n).map P

theorem maskOf_succ (n : ℕ) (P : ℕ → Bool) : maskOf (n + 1) P = P 0 :: maskOf n fun k => P (k + 1) := by
  unfold maskOf
  rw [List.range_succ_eq_map, List.map_cons, List.map_map]
  rfl

theorem project_mask : ∀ (i : Idx) (P : ℕ → Bool),
    project true (maskOf i.length P) i = i.mapIdx fun k x => if P k then 0 else x
  | [], P => by simp [maskOf, project]
  | x :: i, P => by
    rw [List.length_cons, maskOf_succ, List.mapIdx_cons, ← project_mask i]
    cases P 0 <;> simp [project]

theorem outDims_mask : ∀ (ds : List ℤ) (P : ℕ → Bool),
    outDims true (maskOf ds.length P) ds = ds.mapIdx fun k d => if P k then 1 else d
  | [], P => by simp [maskOf, outDims]
  | x :: i, P => by
    rw [List.length_cons, maskOf_succ, List.mapIdx_cons, ← outDims_mask i]
    cases P 0 <;> simp [outDims]

theorem redDims_mask : ∀ (ds : List ℤ) (P : ℕ → Bool),
    numel (redDims (maskOf ds.length P) ds) = (((List.range ds.length).filter P).map fun k => ds.getD k 0).prod
  | [], P => by simp [maskOf, redDims, numel]
  | x :: i, P => by
    rw [List.length_cons, maskOf_succ, List.range_succ_eq_map, List.filter_cons, List.filter_map]
    have ih := redDims_mask i fun k => P (k + 1)
    have e : (fun k => P (k + 1)) = P ∘ Nat.succ := rfl
    rw [← e]
    cases P 0 with
    | false =>
      simp only [redDims]
      rw [ih]
      simp
      rfl
    | true =>
      simp only [redDims, numel_cons, if_true]
      rw [ih]
      simp
      left; rfl

/-- The positions named by the axes. -/
def inAxes (axes : List ℤ) (k : ℕ) : Bool := decide ((k : ℤ) ∈ axes)

theorem mvnRed_eq (axes : List ℤ) (i : Idx) : mvnRed axes i = project true (maskOf i.length (inAxes axes)) i := by
  rw [project_mask]
  unfold mvnRed inAxes
  congr 1
  funext k x
  simp

theorem mvnDims_eq (axes ds : List ℤ) : mvnDims axes ds = outDims true (maskOf ds.length (inAxes axes)) ds := by
  rw [outDims_mask]
  unfold mvnDims inAxes
  congr 1
  funext k x
  simp

theorem mvnRed_inShape {axes dims : List ℤ} {i : Idx} (h : InShape i dims) : InShape (mvnRed axes i) (mvnDims axes dims) := by
  rw [mvnRed_eq, mvnDims_eq, h.length]
  exact project_inShape true _ dims i (by simp [maskOf]) h

theorem mvnRed_eq_iff {axes : List ℤ} {i j : Idx} (h : i.length = j.length) :
    mvnRed axes j = mvnRed axes i ↔ ∀ k < i.length, (k : ℤ) ∉ axes → j.getD k 0 = i.getD k 0 := by
  unfold mvnRed
  constructor
  · intro e k hk hna
    have := congrArg (fun l : List ℤ => l[k]?) e
    simp only [List.getElem?_mapIdx] at this
    rw [List.getElem?_eq_getElem hk, List.getElem?_eq_getElem (by omega)] at this
    simp only [Option.map_some, if_neg hna, Option.some.injEq] at this
    rw [List.getD_eq_getElem _ _ hk, List.getD_eq_getElem _ _ (by omega)]
    exact this
  · intro hk
    refine List.ext_getElem (by simp [h]) fun k h1 h2 => ?_
    rw [List.getElem_mapIdx, List.getElem_mapIdx]
    by_cases hm : (k : ℤ) ∈ axes
    · rw [if_pos hm, if_pos hm]
    · rw [if_neg hm, if_neg hm]
      have hki : k < i.length := by simpa using h2
      have := hk k hki hm
      rwa [List.getD_eq_getElem _ _ hki, List.getD_eq_getElem _ _ (by omega)] at this

theorem sliceOf_eq {dims axes : List ℤ} {i : Idx} (hi : InShape i dims) :
    sliceOf dims axes i = (idxs dims).filter fun j => decide (mvnRed axes j = mvnRed axes i) := by
  unfold sliceOf
  refine List.filter_congr fun j hj => ?_
  have hj' := mem_idxs.1 hj
  rw [decide_eq_decide, mvnRed_eq_iff (by rw [hi.length, hj'.length]), hi.length]

/-- Distinct axes in range. -/
def AxesOk (rank : ℕ) (axes : List ℤ) : Prop := axes.Nodup ∧ ∀ a ∈ axes, 0 ≤ a ∧ a < rank

theorem mvnAxes_ok {rank : ℕ} {axes : List ℤ} (h : AxesOk rank axes) : AxesOk rank (mvnAxes rank axes) := by
  unfold mvnAxes
  split
  · refine ⟨List.nodup_range.map fun a b h => by simpa using h, ?_⟩
    intro a ha
    obtain ⟨k, hk, rfl⟩ := List.mem_map.1 ha
    have := List.mem_range.1 hk
    omega
  · exact h

theorem mvnDivisor_eq {dims axes : List ℤ} (h : AxesOk dims.length axes) :
    mvnDivisor dims axes = some (numel (redDims (maskOf dims.length (inAxes axes)) dims)) := by
  have key : ∀ (L : List ℤ) (p : ℤ), (∀ a ∈ L, 0 ≤ a ∧ a < dims.length) →
      L.foldlM (fun (p a : ℤ) => if 0 ≤ a ∧ a < dims.length then some (p * dims.getD a.toNat 0) else none) p =
        some (p * (L.map fun a => dims.getD a.toNat 0).prod) := by
    intro L
    induction L with
    | nil => intro p _; simp
    | cons a L ih =>
      intro p hL
      rw [List.foldlM_cons, if_pos (hL a (by simp))]
      refine (ih _ fun b hb => hL b (by simp [hb])).trans ?_
      rw [List.map_cons, List.prod_cons, mul_assoc]
  unfold mvnDivisor
  rw [key axes 1 h.2, one_mul, redDims_mask]
  congr 1
  have hp : (axes.map Int.toNat).Perm ((List.range dims.length).filter (inAxes axes)) := by
    refine (List.perm_ext_iff_of_nodup (h.1.map_on ?_) (List.nodup_range.filter _)).2 fun k => ?_
    · intro a ha b hb hab
      have := h.2 a ha
      have := h.2 b hb
      omega
    · rw [List.mem_map, List.mem_filter, List.mem_range]
      unfold inAxes
      rw [decide_eq_true_eq]
      constructor
      · rintro ⟨a, ha, rfl⟩
        have := h.2 a ha
        exact ⟨by omega, by rw [Int.toNat_of_nonneg this.1]; exact ha⟩
      · rintro ⟨_, hk⟩
        exact ⟨_, hk, by simp⟩
  rw [← (hp.map fun k => dims.getD k 0).prod_eq, List.map_map]
  rfl

/-- Two loops over the same indices run together. -/
theorem foldlM_pair {α S T : Type*} (f : S → α → Option S) (g : T → α → Option T) (h : S × T → α → Option (S × T))
    (hh : ∀ s a s' t', f s.1 a = some s' → g s.2 a = some t' → h s a = some (s', t')) :
    ∀ (L : List α) (s : S) (t : T) (s' : S) (t' : T), L.foldlM f s = some s' → L.foldlM g t = some t' →
      L.foldlM h (s, t) = some (s', t')
  | [], s, t, s', t', h1, h2 => by
    simp only [List.foldlM_nil, Option.pure_def, Option.some.injEq] at h1 h2
    subst h1 h2; rfl
  | a :: L, s, t, s', t', h1, h2 => by
    rw [List.foldlM_cons] at h1 h2 ⊢
    cases e1 : f s a with
    | none => rw [e1] at h1; cases h1
    | some s1 =>
      cases e2 : g t a with
      | none => rw [e2] at h2; cases h2
      | some t1 =>
        rw [e1] at h1
        rw [e2] at h2
        rw [hh (s, t) a s1 t1 e1 e2]
        exact foldlM_pair f g h hh L s1 t1 s' t' h1 h2

theorem mvnSums_eq {X : Mem ℝ} {axes : List ℤ} :
    mvnSums X axes (⟨mvnDims axes X.shape, fun _ => 0⟩, ⟨mvnDims axes X.shape, fun _ => 0⟩) = some
      (⟨mvnDims axes X.shape, fun r => (((idxs X.shape).filter fun i => decide (mvnRed axes i = r)).map X.data).sum⟩,
       ⟨mvnDims axes X.shape, fun r => (((idxs X.shape).filter fun i => decide (mvnRed axes i = r)).map
          fun i => X.data i * X.data i).sum⟩) := by
  have hin : ∀ i, InShape i X.shape → InShape (mvnRed axes i) (mvnDims axes X.shape) := fun i hi => mvnRed_inShape hi
  have a1 := accumulate_spec (fun a b : ℝ => a + b) X (mvnRed axes) ⟨mvnDims axes X.shape, fun _ => 0⟩ hin
  have a2 := accumulate_spec (fun a b : ℝ => a + b) ⟨X.shape, fun i => X.data i * X.data i⟩ (mvnRed axes)
    ⟨mvnDims axes X.shape, fun _ => 0⟩ hin
  have hsum : ∀ (L : List ℝ), L.foldl (fun a b => a + b) 0 = L.sum := by
    intro L
    have := foldl_addf_sum (fun x : ℝ => x) L 0
    simpa using this
  simp only [hsum] at a1 a2
  unfold mvnSums iterate
  refine foldlM_pair _ _ _ ?_ (idxs X.shape) _ _ _ _ a1 a2
  intro s a s' t' h1 h2
  unfold Mem.load at h1 h2 ⊢
  simp only at h1 h2 ⊢
  by_cases hX : InShape a X.shape
  · rw [if_pos hX] at h1 h2
    rw [if_pos hX]
    simp only [Option.bind_some] at h1 h2 ⊢
    by_cases hs1 : InShape (mvnRed axes a) s.1.shape
    · rw [if_pos hs1] at h1
      by_cases hs2 : InShape (mvnRed axes a) s.2.shape
      · rw [if_pos hs2] at h2
        rw [if_pos hs1, if_pos hs2]
        simp only [Option.bind_some] at h1 h2 ⊢
        rw [h1, Option.bind_some, h2]; rfl
      · rw [if_neg hs2] at h2; cases h2
    · rw [if_neg hs1] at h1; cases h1
  · rw [if_neg hX] at h1; cases h1

theorem mvnStats_eq {sx sx2 : Mem ℝ} {div : ℝ} (hs : sx2.shape = sx.shape) (hd : div ≠ 0) (junk : Idx → ℝ) :
    ∃ m sd, mvnStats (sx, sx2) div (⟨sx.shape, junk⟩, ⟨sx.shape, junk⟩) = some (m, sd) ∧ m.shape = sx.shape ∧
      sd.shape = sx.shape ∧ ∀ r, InShape r sx.shape → m.data r = sx.data r / div ∧
        sd.data r = Real.sqrt |sx2.data r / div - sx.data r / div * (sx.data r / div)| := by
  have f1 := fill_spec (R := ℝ) ⟨sx.shape, junk⟩ (fun r => some (sx.data r / div)) (fun r => sx.data r / div) (fun _ _ => rfl)
  have f2 := fill_spec (R := ℝ) ⟨sx.shape, junk⟩
    (fun r => some (Real.sqrt |sx2.data r / div - sx.data r / div * (sx.data r / div)|))
    (fun r => Real.sqrt |sx2.data r / div - sx.data r / div * (sx.data r / div)|) (fun _ _ => rfl)
  obtain ⟨m, e1, h1, v1⟩ := f1
  obtain ⟨sd, e2, h2, v2⟩ := f2
  refine ⟨m, sd, ?_, h1, h2, fun r hr => ⟨v1 r hr, v2 r hr⟩⟩
  unfold mvnStats iterate
  unfold fill iterate at e1 e2
  simp only [Option.bind_some] at e1 e2
  have key : ∀ (L : List Idx) (s t s' t' : Mem ℝ), (∀ i ∈ L, InShape i sx.shape) →
      L.foldlM (fun (o : Mem ℝ) i => o.store i (sx.data i / div)) s = some s' →
      L.foldlM (fun (o : Mem ℝ) i => o.store i (Real.sqrt |sx2.data i / div - sx.data i / div * (sx.data i / div)|)) t = some t' →
      L.foldlM (fun (s : Mem ℝ × Mem ℝ) i => (sx.load i).bind fun a => (sx2.load i).bind fun b =>
        (fdiv a div).bind fun m => (fdiv b div).bind fun v => (fsqrt |v - m * m|).bind fun sd =>
          (s.1.store i m).bind fun s1 => (s.2.store i sd).map fun s2 => (s1, s2)) (s, t) = some (s', t') := by
    intro L
    induction L with
    | nil =>
      intro s t s' t' _ h1 h2
      simp only [List.foldlM_nil, Option.pure_def, Option.some.injEq] at h1 h2
      subst h1 h2; rfl
    | cons a L ih =>
      intro s t s' t' hL h1 h2
      rw [List.foldlM_cons] at h1 h2 ⊢
      have ha := hL a (by simp)
      have hla : sx.load a = some (sx.data a) := by unfold Mem.load; rw [if_pos ha]
      have hlb : sx2.load a = some (sx2.data a) := by unfold Mem.load; rw [if_pos (by rw [hs]; exact ha)]
      rw [hla, Option.bind_some, hlb, Option.bind_some, fdiv_eq hd, Option.bind_some, fdiv_eq hd, Option.bind_some,
        fsqrt_eq (abs_nonneg _), Option.bind_some]
      cases e1 : s.store a (sx.data a / div) with
      | none => rw [e1] at h1; cases h1
      | some s1 =>
        cases e2 : t.store a (Real.sqrt |sx2.data a / div - sx.data a / div * (sx.data a / div)|) with
        | none => rw [e2] at h2; cases h2
        | some t1 =>
          rw [e1] at h1
          rw [e2] at h2
          exact ih s1 t1 s' t' (fun i hi => hL i (by simp [hi])) h1 h2
  exact key (idxs sx.shape) _ _ _ _ (fun i hi => mem_idxs.1 hi) e1 e2

theorem sliceOf_length {dims axes : List ℤ} {i : Idx} (hd : ∀ d ∈ dims, 0 ≤ d) (hi : InShape i dims) :
    ((sliceOf dims axes i).length : ℤ) = numel (redDims (maskOf dims.length (inAxes axes)) dims) := by
  rw [sliceOf_eq hi, ← contributing_length true (maskOf dims.length (inAxes axes)) dims (mvnRed axes i) (by simp [maskOf]) hd
    (by rw [← mvnDims_eq]; exact mvnRed_inShape hi)]
  unfold contributing
  congr 2
  refine List.filter_congr fun j hj => ?_
  rw [mvnRed_eq axes j, (mem_idxs.1 hj).length]

/-- MeanVarianceNormalization where the standard deviations are not zero. -/
theorem mvn_spec {X : Mem ℝ} {attr : List ℤ} (hd : ∀ d ∈ X.shape, 0 < d) (ha : AxesOk X.shape.length attr) (junk : Idx → ℝ)
    (hv : ∀ i, InShape i X.shape → varianceOf (sliceOf X.shape (mvnAxes X.shape.length attr) i) X.data ≠ 0) :
    ∃ Y, mvn X attr junk = some Y ∧ Y.shape = X.shape ∧ ∀ i, InShape i X.shape →
      Y.data i = (X.data i - meanOf (sliceOf X.shape (mvnAxes X.shape.length attr) i) X.data) /
        Real.sqrt (varianceOf (sliceOf X.shape (mvnAxes X.shape.length attr) i) X.data) := by
  have hd0 : ∀ d ∈ X.shape, 0 ≤ d := fun d h => (hd d h).le
  unfold mvn
  simp only
  generalize hax : mvnAxes X.shape.length attr = axes at hv ⊢
  have hok : AxesOk X.shape.length axes := hax ▸ mvnAxes_ok ha
  rw [mvnDivisor_eq hok, Option.bind_some, mvnSums_eq, Option.bind_some]
  -- the divisor is not zero
  have hex : ∃ i, InShape i X.shape := by
    refine ⟨X.shape.map fun _ => 0, ?_⟩
    have : ∀ ds : List ℤ, (∀ d ∈ ds, 0 < d) → InShape (ds.map fun _ => 0) ds := by
      intro ds
      induction ds with
      | nil => intro _; exact inShape_nil
      | cons a ds ih => intro h; exact inShape_cons.2 ⟨⟨le_refl _, h a (by simp)⟩, ih fun d hd => h d (by simp [hd])⟩
    exact this _ hd
  have hmem : ∀ i, InShape i X.shape → i ∈ sliceOf X.shape axes i := by
    intro i hi
    rw [sliceOf_eq hi, List.mem_filter]
    exact ⟨mem_idxs.2 hi, by simp⟩
  obtain ⟨i0, hi0⟩ := hex
  have hdiv0 : numel (redDims (maskOf X.shape.length (inAxes axes)) X.shape) ≠ 0 := by
    rw [← sliceOf_length hd0 hi0]
    have := List.length_pos_of_mem (hmem i0 hi0)
    omega
  have hdiv : ((numel (redDims (maskOf X.shape.length (inAxes axes)) X.shape) : ℤ) : ℝ) ≠ 0 := by exact_mod_cast hdiv0
  obtain ⟨m, sd, e, h1, h2, hst⟩ := mvnStats_eq
    (sx := ⟨mvnDims axes X.shape, fun r => (((idxs X.shape).filter fun i => decide (mvnRed axes i = r)).map X.data).sum⟩)
    (sx2 := ⟨mvnDims axes X.shape, fun r => (((idxs X.shape).filter fun i => decide (mvnRed axes i = r)).map
          fun i => X.data i * X.data i).sum⟩) rfl hdiv junk
  simp only at e h1 h2 hst
  rw [e, Option.bind_some]
  refine fill_spec ⟨X.shape, junk⟩ _ _ fun i hi => ?_
  simp only at hi
  have hr := mvnRed_inShape (axes := axes) hi
  obtain ⟨e1, e2⟩ := hst _ hr
  have hlen : ((numel (redDims (maskOf X.shape.length (inAxes axes)) X.shape) : ℤ) : ℝ) = ((sliceOf X.shape axes i).length : ℝ) := by
    rw [← sliceOf_length hd0 hi]; simp
  rw [← sliceOf_eq hi, hlen] at e1 e2
  have e2' : sd.data (mvnRed axes i) = Real.sqrt (varianceOf (sliceOf X.shape axes i) X.data) := by
    rw [e2, varianceOf_eq _ _ (List.ne_nil_of_mem (hmem i hi)), abs_of_nonneg (varianceOf_nonneg _ _)]
  have e1' : m.data (mvnRed axes i) = meanOf (sliceOf X.shape axes i) X.data := e1
  have hpos : 0 < Real.sqrt (varianceOf (sliceOf X.shape axes i) X.data) :=
    Real.sqrt_pos.2 (lt_of_le_of_ne (varianceOf_nonneg _ _) (hv i hi).symm)
  unfold mvnPoint Mem.load
  rw [if_pos hi, h1, if_pos hr, h2, if_pos hr]
  simp only [Option.bind_some]
  rw [e1', e2', fdiv_eq hpos.ne']

end Verif.Lower
