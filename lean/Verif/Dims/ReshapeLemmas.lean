import Verif.Dims.DefLemmas
import Mathlib.Data.List.Perm.Subperm
import Mathlib.Data.List.Dedup
import Mathlib.Tactic.Ring
import Mathlib.Algebra.BigOperators.Ring.List

/-!
# The special case for Reshape, and visits of all dimensions
-/

namespace Verif.Dims

theorem conforms_prod_aux {t : Ty} {s : List ℕ} (h : Conforms t s) : ∀ k : ℕ,
    s.prod = staticSize t *
      ((((t.zipIdx k).filter fun p => p.1.isNone).map (·.2)).map fun i => (s[i - k]?).getD 1).prod := by
  induction h with
  | nil => intro k; simp [staticSize]
  | @cons x n t s hd _ ih =>
    intro k
    have h1 : ((((t.zipIdx (k + 1)).filter fun p => p.1.isNone).map (·.2)).map fun i => ((n :: s)[i - k]?).getD 1) =
        ((((t.zipIdx (k + 1)).filter fun p => p.1.isNone).map (·.2)).map fun i => (s[i - (k + 1)]?).getD 1) := by
      apply List.map_congr_left
      intro i hi
      simp only [List.mem_map, List.mem_filter] at hi
      obtain ⟨p, ⟨hp, _⟩, hpi⟩ := hi
      have h2 := List.le_snd_of_mem_zipIdx hp
      have h3 : i - k = (i - (k + 1)) + 1 := by omega
      rw [h3]
      simp
    have ih := ih (k + 1)
    rw [List.zipIdx_cons]
    cases x with
    | none =>
      simp only [List.filter_cons, Option.isNone_none, if_true, List.map_cons, List.prod_cons, Nat.sub_self]
      rw [h1]
      simp only [List.getElem?_cons_zero, Option.getD_some]
      rw [ih]
      simp only [staticSize, List.map_cons, Option.getD_none, List.prod_cons]
      ring
    | some v =>
      simp only [reduceCtorEq, Option.some.injEq, false_or] at hd
      subst hd
      simp only [List.filter_cons, Option.isNone_some, Bool.false_eq_true, if_false]
      rw [h1, List.prod_cons, ih]
      simp only [staticSize, List.map_cons, Option.getD_some, List.prod_cons]
      ring

/-- The number of elements is the product of the static sizes and of the dynamic ones. -/
theorem conforms_prod {t : Ty} {s : List ℕ} (h : Conforms t s) :
    s.prod = staticSize t * ((dynDims t).map fun i => (s[i]?).getD 1).prod := conforms_prod_aux h 0

theorem mem_dynDims (t : Ty) (i : ℕ) : i ∈ dynDims t ↔ t[i]? = some none := by
  unfold dynDims
  simp only [List.mem_map, List.mem_filter, Prod.exists, List.mem_zipIdx_iff_getElem?, Option.isNone_iff_eq_none]
  constructor
  · rintro ⟨a, b, ⟨h1, h2⟩, h3⟩
    subst h3 h2
    exact h1
  · intro h; exact ⟨none, i, ⟨h, rfl⟩, rfl⟩

theorem nodup_dynDims (t : Ty) : (dynDims t).Nodup := by
  unfold dynDims
  have h : ((t.zipIdx).map (·.2)).Nodup := by
    rw [List.zipIdx_map_snd]
    exact List.nodup_range'
  exact h.sublist (List.filter_sublist.map _)

/-- The loop that pairs dynamic dimensions of the data and of the result. -/
theorem match_inv (g : Graph) (m : List (List Dim)) (x y : Val) (outs : List ℕ) (f h : ℕ → ℕ)
    (hfh : ∀ i j : ℕ, sameDim g m x i y j = true → f i = h j) : ∀ (L : List ℕ) (st : List ℕ × Option ℕ) (done unf : List ℕ),
    st.1.Nodup → (∀ j ∈ st.1, j ∈ outs) → (done.map f).prod = (st.1.map h).prod * (unf.map f).prod →
    st.1.length + unf.length = done.length → st.2 = unf.head? →
    ∃ unf' : List ℕ, (L.foldl (matchStep g m x y outs) st).1.Nodup ∧
      (∀ j ∈ (L.foldl (matchStep g m x y outs) st).1, j ∈ outs) ∧
      ((done ++ L).map f).prod = ((L.foldl (matchStep g m x y outs) st).1.map h).prod * (unf'.map f).prod ∧
      (L.foldl (matchStep g m x y outs) st).1.length + unf'.length = (done ++ L).length ∧
      (L.foldl (matchStep g m x y outs) st).2 = unf'.head? := by
  intro L
  induction L with
  | nil =>
    intro st done unf h1 h2 h3 h4 h5
    exact ⟨unf, h1, h2, by simpa using h3, by simpa using h4, h5⟩
  | cons i L ih =>
    intro st done unf h1 h2 h3 h4 h5
    rw [List.foldl_cons]
    have hd : done ++ i :: L = (done ++ [i]) ++ L := by simp
    rw [hd]
    unfold matchStep
    cases hfind : outs.find? fun j => decide (j ∉ st.1) && sameDim g m x i y j with
    | some j =>
      have h6 := List.mem_of_find?_eq_some hfind
      have h7 := List.find?_some hfind
      simp only [Bool.and_eq_true, decide_eq_true_eq] at h7
      apply ih _ (done ++ [i]) unf
      · rw [List.nodup_append]
        refine ⟨h1, by simp, ?_⟩
        intro a ha b hb hab
        simp at hb
        subst hb hab
        exact h7.1 ha
      · intro j' hj'
        simp only [List.mem_append, List.mem_singleton] at hj'
        rcases hj' with hj' | hj'
        · exact h2 j' hj'
        · rw [hj']; exact h6
      · simp only [List.map_append, List.map_cons, List.map_nil, List.prod_append, List.prod_cons, List.prod_nil, mul_one]
        rw [h3, hfh i j h7.2]
        ring
      · simp only [List.length_append, List.length_cons, List.length_nil]; omega
      · exact h5
    | none =>
      apply ih _ (done ++ [i]) (unf ++ [i])
      · exact h1
      · exact h2
      · simp only [List.map_append, List.map_cons, List.map_nil, List.prod_append, List.prod_cons, List.prod_nil, mul_one]
        rw [h3]
        ring
      · simp only [List.length_append, List.length_cons, List.length_nil]; omega
      · simp only [h5]
        cases unf <;> simp

section
variable {g : Graph} {r : Run} (hw : WellFormed g) (hx : Executes g r) (hp : Plain g r)
include hw hx hp

theorem fromReshape_size (m : List (List Dim)) (hs : Sound g r m) (o : Op) (ho : o ∈ g.ops) (hk : o.kind = .reshape 0)
    (d : Dim) (x : Val) (h0 : o.opd 0 = some x) (h1 : o.results = [d.1]) (hdyn : (g.ty d.1)[d.2]? = some none)
    (e : Dim) (he : e ∈ fromReshape g m d x d.1) : size g r e = size g r d ∧ InSet g e := by
  have hrun := hx.runs o ho
  simp only [OpRuns, hk] at hrun
  obtain ⟨x', s, y, h2, h3, hprod, _⟩ := hrun
  have hxx : x' = x := by simp [Op.opd, h2] at h0; exact h0
  subst hxx
  have hy : y = d.1 := by rw [h3] at h1; simpa using h1
  subst hy
  have hnz := hp.nonempty o ho hk d.1 (by simp [h1])
  unfold fromReshape at he
  dsimp only at he
  split at he
  · rename_i hc
    obtain ⟨hc1, hc2⟩ := hc
    split at he
    · simp at he
    · rename_i i hi
      split at he
      · rename_i hv
        have h4 := insertWhen_size r hw _ _ e he
        refine ⟨?_, h4.2.1⟩
        rw [h4.1]
        set F : ℕ → ℕ := fun i => ((r.shape x')[i]?).getD 1 with hF
        set H : ℕ → ℕ := fun i => ((r.shape d.1)[i]?).getD 1 with hH
        obtain ⟨unf, k1, k2, k3, k4, k5⟩ := match_inv g m x' d.1 (dynDims (g.ty d.1)) F H (by
          intro i j hij
          obtain ⟨i', j', hi', hj', hsd⟩ := sameDim_norm hij
          have h5 := normAxis_some hi'
          have h6 := normAxis_some hj'
          have e1 : i' = i := by omega
          have e2 : j' = j := by omega
          subst e1 e2
          simp only [hF, hH]
          rw [sameDimAt_shape hx.fits hs _ _ _ _ hsd]) (dynDims (g.ty x')) ([], none) [] [] (by simp) (by simp) (by simp) (by simp)
            (by simp)
        simp only [List.nil_append] at k3 k4
        have hu : unf = [i] := by
          rw [hi] at k5
          have : unf.length = 1 := by omega
          obtain ⟨a, ha⟩ := List.length_eq_one_iff.mp this
          subst ha
          simp at k5
          rw [k5]
        subst hu
        set vis := (List.foldl (matchStep g m x' d.1 (dynDims (g.ty d.1))) ([], none) (dynDims (g.ty x'))).1 with hvis
        have hperm : (d.2 :: vis).Perm (dynDims (g.ty d.1)) := by
          have hsub : (d.2 :: vis).Subperm (dynDims (g.ty d.1)) := by
            apply List.subperm_of_subset
            · rw [List.nodup_cons]; exact ⟨hv.2, k1⟩
            · intro j hj
              simp only [List.mem_cons] at hj
              rcases hj with hj | hj
              · rw [hj, mem_dynDims]; exact hdyn
              · exact k2 j hj
          exact hsub.perm_of_length_le (by simp only [List.length_cons]; omega)
        have p1 := conforms_prod (hx.fits x')
        have p2 := conforms_prod (hx.fits d.1)
        have p3 := (hperm.map H).prod_eq
        rw [← p3] at p2
        change _ = _ * (List.map F _).prod at p1
        rw [k3] at p1
        rw [p1, p2, hc2] at hprod
        simp only [List.map_cons, List.prod_cons, List.map_nil, List.prod_nil, mul_one] at hprod
        have hpos : (r.shape d.1).prod ≠ 0 := by
          rw [Ne, List.prod_eq_zero_iff]
          exact hnz
        rw [p2] at hpos
        simp only [List.map_cons, List.prod_cons] at hpos
        have q1 : staticSize (g.ty d.1) ≠ 0 := fun h => hpos (by rw [h]; simp)
        have q2 : (vis.map H).prod ≠ 0 := fun h => hpos (by rw [h]; simp)
        have hfi : F i = H d.2 := by
          have a1 := Nat.eq_of_mul_eq_mul_left (Nat.pos_of_ne_zero q1) hprod
          rw [mul_comm (H d.2)] at a1
          exact (Nat.eq_of_mul_eq_mul_left (Nat.pos_of_ne_zero q2) a1).symm
        have hidyn : (g.ty x')[i]? = some none := by
          rw [← mem_dynDims]
          by_contra hni
          have : ∀ (L : List ℕ) (st : List ℕ × Option ℕ), i ∉ L → st.2 ≠ some i →
              (L.foldl (matchStep g m x' d.1 (dynDims (g.ty d.1))) st).2 ≠ some i := by
            intro L
            induction L with
            | nil => intro st _ h; exact h
            | cons a L ih =>
              intro st ha hst
              simp only [List.mem_cons, not_or] at ha
              rw [List.foldl_cons]
              apply ih _ ha.2
              unfold matchStep
              split
              · exact hst
              · cases h : st.2 with
                | none => simp; exact fun h => ha.1 h.symm
                | some b => simp; rw [h] at hst; simpa using hst
          exact this _ _ hni (by simp) hi
        obtain ⟨a, ha, _⟩ := conforms_get (hx.fits x') i none hidyn
        obtain ⟨b, hb, _⟩ := conforms_get (hx.fits d.1) d.2 none hdyn
        rw [size_dyn g r (x', i) hidyn, size_dyn g r d hdyn, hb]
        dsimp only
        rw [ha]
        simp only [hF, hH, ha, hb, Option.getD_some] at hfi
        rw [hfi]
      · simp at he
  · simp at he

theorem fromOp_size (m : List (List Dim)) (hs : Sound g r m) (o : Op) (ho : o ∈ g.ops) (d : Dim)
    (hd : d.1 ∈ o.results) (hdyn : (g.ty d.1)[d.2]? = some none) (e : Dim)
    (he : e ∈ fromOp g m d o) : size g r e = size g r d ∧ InSet g e := by
  unfold fromOp at he
  simp only [List.mem_append] at he
  rcases he with ((he | he) | he) | he
  · exact fromHelper_size hw hx hp o d hdyn e he
  · exact fromShapeInput_size hw hx hp o ho d hd hdyn e he
  · split at he
    · rename_i hn
      exact fromNary_size hw hx hp m hs o ho hn d hd hdyn e he
    · simp at he
  · split at he
    · rename_i z x y ys hk h0 hres
      split at he
      · rename_i hz
        subst hz
        have hrun := hx.runs o ho
        simp only [OpRuns, hk] at hrun
        obtain ⟨x', s, y', h2, h3, _⟩ := hrun
        have hyd : y = d.1 := by
          rw [h3] at hd hres
          simp at hd hres
          rw [hd, hres.1]
        subst hyd
        have hres' : o.results = [d.1] := by rw [h3] at hd ⊢; rw [List.mem_singleton.mp hd]
        exact fromReshape_size hw hx hp m hs o ho hk d x h0 hres' hdyn e he
      · simp at he
    · simp at he

/-- A visit finds only dimensions that are equal to the visited one. -/
theorem visit_size (m : List (List Dim)) (hs : Sound g r m) (d : Dim) (hin : InSet g d) (e : Dim)
    (he : e ∈ visit g m d) : size g r e = size g r d ∧ InSet g e := by
  unfold visit at he
  rw [List.mem_append] at he
  rcases he with he | he
  · exact consuming_size hw hx hp d e he
  · unfold fromDef at he
    rcases hin with hin | ⟨o, hin, hk⟩
    · rw [hin] at he; simp at he
    · rw [hin] at he
      have hm := defOp_mem hin
      have hrun := hx.runs o hm.1
      simp only at he
      split at he
      · simp at he
      · rename_i axis hka
        simp only [OpRuns, hka] at hrun
        obtain ⟨x, y, n, h1, h2, h3, h4, h5⟩ := hrun
        have e0 : o.opd 0 = some x := by simp [Op.opd, h1]
        rw [e0] at he
        simp only [Option.toList_some, List.flatMap_cons, List.flatMap_nil, List.append_nil] at he
        have h6 := insertWhen_size r hw _ _ e he
        have h7 := hw.dimTy o hm.1 axis hka
        refine ⟨?_, h6.2.1⟩
        have hdy : d.1 = y := by have := hm.2; rw [h2] at this; simpa using this
        rw [h6.1, size_dyn g r (x, axis) (h7.2 x e0)]
        simp only [size, h7.1 d.1 hm.2, if_true]
        rw [h3, hdy, h5]
        rfl
      · rename_i hka
        simp only [OpRuns, hka] at hrun
        obtain ⟨x, y, h1, h2, h3⟩ := hrun
        have e0 : o.opd 0 = some x := by simp [Op.opd, h1]
        rw [e0] at he
        simp only [Option.toList_some, List.flatMap_cons, List.flatMap_nil, List.append_nil] at he
        have h6 := insertWhen_size r hw _ _ e he
        refine ⟨?_, h6.2.1⟩
        have hdy : d.1 = y := by have := hm.2; rw [h2] at this; simpa using this
        have hty := hw.castTy o hm.1 hka x e0 d.1 hm.2
        rw [h6.1]
        simp only [size]
        rw [← hty]
        by_cases ht : g.ty d.1 = [some 1]
        · rw [if_pos ht, if_pos ht, hp.cast o hm.1 hka x e0 d.1 hm.2 ht]
        · rw [if_neg ht, if_neg ht, hdy, h3]
      · rename_i n1 n2 n3
        refine fromOp_size hw hx hp m hs o hm.1 d hm.2 ?_ e he
        rcases hk with hk | hk | hk
        · exact absurd hk (n2 _)
        · exact absurd hk n3
        · exact hk

end

end Verif.Dims
