import Verif.Rewrite.TransposeSem
import Verif.Rewrite.TransposeRules
import Verif.Rewrite.TermLemmas

/-! # The Transpose patterns keep results -/

namespace Verif.Rewrite

variable {V : Type} [Inhabited V] {A : Alg V} {env : ℕ → Tensor V}

theorem mapM_forall₂ {α β : Type} {f : α → Option β} : ∀ {l : List α} {r : List β},
    l.mapM f = some r ↔ List.Forall₂ (fun a b => f a = some b) l r
  | [], r => by simp [eq_comm]
  | a :: l, r => by
    rw [List.mapM_cons]
    simp only [Option.bind_eq_bind, Option.bind_eq_some_iff, Option.pure_def, Option.some.injEq,
      List.forall₂_cons_left_iff]
    constructor
    · rintro ⟨b, hb, bs, hbs, rfl⟩
      exact ⟨b, bs, hb, mapM_forall₂.1 hbs, rfl⟩
    · rintro ⟨b, bs, hb, hbs, rfl⟩
      exact ⟨b, hb, bs, mapM_forall₂.2 hbs, rfl⟩

theorem forall₂_getElem? {α β : Type} {R : α → β → Prop} {l : List α} {r : List β}
    (h : List.Forall₂ R l r) {k : ℕ} {a : α} (ha : l[k]? = some a) :
    ∃ b, r[k]? = some b ∧ R a b := by
  obtain ⟨hk, rfl⟩ := List.getElem?_eq_some_iff.1 ha
  have hk' : k < r.length := h.length_eq ▸ hk
  exact ⟨r[k], List.getElem?_eq_getElem hk', h.get hk hk'⟩

theorem normAxis_nonneg {r : ℕ} {a : ℤ} {n : ℕ} (h : normAxis r a = some n) (ha : 0 ≤ a) :
    n = a.toNat ∧ a < r := by
  unfold normAxis at h
  split at h
  · cases h; exact ⟨rfl, by omega⟩
  · split at h
    · omega
    · cases h

theorem normAxis_lt {r : ℕ} {a : ℤ} {n : ℕ} (h : normAxis r a = some n) : n < r := by
  unfold normAxis at h
  split at h
  · cases h; omega
  · split at h
    · cases h; omega
    · cases h

theorem normAxis_of_nat {r n : ℕ} (h : n < r) : normAxis r (n : ℤ) = some n := by
  unfold normAxis
  rw [if_pos (by omega)]
  simp

/-- The combined permutation denotes the composition. -/
theorem combinedPerm_perm {r : ℕ} {p1 p2 p : List ℤ} {q1 q2 : List ℕ}
    (h : combinedPerm p1 p2 = some p) (h1 : permOf r (some p1) = some q1)
    (h2 : permOf r (some p2) = some q2) : permOf r (some p) = some (compPerm q1 q2) := by
  unfold combinedPerm at h
  unfold permOf at *
  rw [mapM_forall₂] at *
  unfold compPerm
  revert h2
  generalize q2 = q2
  induction h generalizing q2 with
  | nil => intro h2; cases h2; exact .nil
  | @cons k v ks vs hk hks ih =>
    intro h2
    obtain ⟨n, ns, hn, hns, rfl⟩ := List.forall₂_cons_left_iff.1 h2
    rw [List.map_cons]
    refine List.Forall₂.cons ?_ (ih ns hns)
    split at hk
    · rename_i hk0
      obtain ⟨rfl, -⟩ := normAxis_nonneg hn hk0
      obtain ⟨b, hb, hb2⟩ := forall₂_getElem? h1 hk
      rw [hb2, List.getD_eq_getElem?_getD, hb]
      rfl
    · cases hk

/-- An evaluated Transpose. -/
theorem eval_transpose {p : Option (List ℤ)} {e : Ex V} {ty : STy} {v : Option (Tensor V)} :
    eval A env (.op (.transpose p) [e] ty) = some v ↔
      ∃ x q y, eval A env e = some (some x) ∧ permOf x.shape.length p = some q ∧
        transpose x q = some y ∧ v = some y := by
  rw [eval_op1]
  constructor
  · rintro ⟨x, t, hx, ht, rfl⟩
    cases x with
    | none => simp [sem] at ht
    | some x =>
      simp only [sem, Option.bind_eq_some_iff] at ht
      obtain ⟨q, hq, ht⟩ := ht
      exact ⟨x, q, t, hx, hq, ht, rfl⟩
  · rintro ⟨x, q, y, hx, hq, hy, rfl⟩
    exact ⟨some x, y, hx, by simp [sem, hq, hy], rfl⟩

theorem transpose_shape_length {x y : Tensor V} {p : List ℕ} (h : transpose x p = some y) :
    y.shape.length = x.shape.length := by
  obtain ⟨g, rfl⟩ := transpose_some.1 h
  simp [g.1]

theorem eltOk_transpose {p : Option (List ℤ)} {t : STy} {d : DT} :
    EltOk (.transpose p) [t] d ↔ d = t.elt := Iff.rfl

/-- Two transposes in a row. -/
theorem eval_combined {p1 p2 p : List ℤ} {e : Ex V} {t1 ty : STy} {v : Option (Tensor V)}
    (hc : combinedPerm p1 p2 = some p)
    (h : eval A env (.op (.transpose (some p2)) [.op (.transpose (some p1)) [e] t1] ty) = some v) :
    eval A env (.op (.transpose (some p)) [e] ty) = some v := by
  obtain ⟨y, q2, z, hy, hq2, hz, rfl⟩ := eval_transpose.1 h
  obtain ⟨x, q1, y', hx, hq1, hy', he⟩ := eval_transpose.1 hy
  cases he
  rw [transpose_shape_length hy'] at hq2
  exact eval_transpose.2 ⟨x, _, z, hx, combinedPerm_perm hc hq1 hq2, transpose_transpose hy' hz, rfl⟩

theorem fuseTranspose_sound : Sound A fuseTranspose := by
  intro env e e' hr ht v hv
  unfold fuseTranspose at hr
  split at hr
  · split at hr
    · split at hr
      · rename_i hc
        cases hr
        have hv' := eval_combined hc hv
        rw [typed_op, typedL_cons, typed_op] at ht
        refine ⟨hv', ?_, rfl⟩
        rw [typed_op]
        refine ⟨fun t h => ht.1 t (by rw [hv] ; rw [hv'] at h; exact h), ?_, ht.2.2.1.2.2⟩
        exact ht.2.1.trans ht.2.2.1.2.1
      · cases hr
    · cases hr
  · cases hr

theorem isIdentityFrom_eq : ∀ {k : ℤ} {p : List ℤ}, isIdentityFrom k p = true →
    p = (List.range p.length).map fun (i : ℕ) => k + (i : ℤ)
  | _, [], _ => by simp
  | k, a :: p, h => by
    unfold isIdentityFrom at h
    split at h
    · cases h
    · rename_i ha
      have ha : a = k := not_not.1 ha
      have := isIdentityFrom_eq h
      rw [List.length_cons, List.range_succ_eq_map, List.map_cons, List.map_map, ha]
      congr 1
      · simp
      · rw [this]
        simp only [List.length_map, List.length_range]
        refine List.map_congr_left fun i _ => ?_
        simp only [Function.comp, Nat.succ_eq_add_one, Nat.cast_add, Nat.cast_one]
        omega

theorem permOf_range {r n : ℕ} (h : n ≤ r) :
    permOf r (some ((List.range n).map fun (i : ℕ) => (i : ℤ))) = some (List.range n) := by
  unfold permOf
  rw [mapM_forall₂, List.forall₂_map_left_iff, List.forall₂_same]
  intro x hx
  exact normAxis_of_nat (by have := List.mem_range.1 hx; omega)

theorem permOf_length {r : ℕ} {p : List ℤ} {q : List ℕ} (h : permOf r (some p) = some q) :
    q.length = p.length := by
  unfold permOf at h
  exact (mapM_forall₂.1 h).length_eq.symm

theorem removeIdentityTranspose_sound : Sound A removeIdentityTranspose := by
  intro env e e' hr ht v hv
  unfold removeIdentityTranspose at hr
  split at hr
  · split at hr
    · rename_i p w ty hid
      cases hr
      obtain ⟨x, q, y, hx, hq, hy, rfl⟩ := eval_transpose.1 hv
      have hl := (transpose_some.1 hy).1.1
      rw [permOf_length hq] at hl
      have hp := isIdentityFrom_eq hid
      simp only [zero_add] at hp
      rw [hp, permOf_range hl.le, hl] at hq
      cases hq
      rw [typed_op, typedL_cons] at ht
      rw [transpose_id hy]
      exact ⟨hx, ht.2.2.1, ht.2.1.symm⟩
    · cases hr
  · cases hr

theorem fixPerm_perm {r : ℕ} {p q : List ℤ} {n : List ℕ} (h : fixPerm r p = some q)
    (hp : permOf r (some p) = some n) (hn : n.length = r) : permOf r (some q) = some n := by
  have hlen := permOf_length hp
  unfold permOf at *
  unfold fixPerm at h
  rw [mapM_forall₂] at *
  have hl : q.length = r := by simpa using h.length_eq.symm
  rw [List.forall₂_iff_get]
  refine ⟨by omega, fun k h1 h2 => ?_⟩
  have g1 := h.get (i := k) (by simpa using hl ▸ h1) h1
  have g2 := hp.get (i := k) (by omega) h2
  simp only [List.get_eq_getElem, List.getElem_range] at g1 g2 ⊢
  rw [List.getElem?_eq_getElem (by omega)] at g1
  simp only [Option.map_some, Option.some.injEq] at g1
  rw [← g1]
  split
  · rename_i hneg
    unfold normAxis at g2 ⊢
    rw [if_neg (by omega)] at g2
    split at g2
    · rw [if_pos (by omega), ← g2]
    · cases g2
  · exact g2

theorem permOf_reverse {r : ℕ} :
    permOf r (some ((List.range r).reverse.map fun (k : ℕ) => (k : ℤ))) = permOf r none := by
  unfold permOf
  rw [mapM_forall₂, List.forall₂_map_left_iff, List.forall₂_same]
  intro x hx
  exact normAxis_of_nat (by simpa using hx)

theorem fitsDims_length {ds : List (Option ℕ)} {s : List ℕ} (h : FitsDims ds s) :
    s.length = ds.length := (List.Forall₂.length_eq h).symm

theorem handleNegativePerm_sound : Sound A handleNegativePerm := by
  intro env e e' hr ht v hv
  unfold handleNegativePerm at hr
  split at hr
  · rename_i p x ty
    split at hr
    · cases hr
    · rename_i ds hds
      obtain ⟨t, q, y, hx, hq, hy, rfl⟩ := eval_transpose.1 hv
      have hrank := fitsDims_length (typed_fits (typedL_cons.1 (typed_op.1 ht).2.2).1 hx ds hds)
      split at hr
      · cases hr
        have hv' : eval A env (.op (.transpose (some ((List.range ds.length).reverse.map
            fun (k : ℕ) => (k : ℤ)))) [x] ty) = some (some y) :=
          eval_transpose.2 ⟨t, q, y, hx, by rw [← hrank, permOf_reverse]; exact hq, hy, rfl⟩
        exact ⟨hv', typed_same ht hv hv' (typed_op.1 ht).2.1 (typed_op.1 ht).2.2, rfl⟩
      · split at hr
        · cases hr
        · rename_i p p' q' hf
          split at hr
          · cases hr
            have hv' : eval A env (.op (.transpose (some q')) [x] ty) = some (some y) :=
              eval_transpose.2 ⟨t, q, y, hx,
                fixPerm_perm (hrank ▸ hf) hq (transpose_some.1 hy).1.1, hy, rfl⟩
            exact ⟨hv', typed_same ht hv hv' (typed_op.1 ht).2.1 (typed_op.1 ht).2.2, rfl⟩
          · cases hr
  · cases hr

/-! ### Element-wise operators between two transposes -/

theorem eval_unary {n : String} {a : List ℚ} {e : Ex V} {ty : STy} {v : Option (Tensor V)} :
    eval A env (.op (.unary n a) [e] ty) = some v ↔
      ∃ x, eval A env e = some (some x) ∧ v = some (x.map (A.un n a)) := by
  rw [eval_op1]
  constructor
  · rintro ⟨x, t, hx, ht, rfl⟩
    cases x with
    | none => simp [sem] at ht
    | some x =>
      simp only [sem, Option.some.injEq] at ht
      subst ht
      exact ⟨x, hx, rfl⟩
  · rintro ⟨x, hx, rfl⟩
    exact ⟨some x, _, hx, rfl, rfl⟩

theorem eval_cast {s : ℤ} {d : DT} {e : Ex V} {ty : STy} {v : Option (Tensor V)} :
    eval A env (.op (.cast s d) [e] ty) = some v ↔
      ∃ x, eval A env e = some (some x) ∧ v = some (x.map (A.cast d)) := by
  rw [eval_op1]
  constructor
  · rintro ⟨x, t, hx, ht, rfl⟩
    cases x with
    | none => simp [sem] at ht
    | some x =>
      simp only [sem, Option.some.injEq] at ht
      subst ht
      exact ⟨x, hx, rfl⟩
  · rintro ⟨x, hx, rfl⟩
    exact ⟨some x, _, hx, rfl, rfl⟩

/-- Two transposes around a function of elements. -/
theorem eval_combined_map {p1 p2 p : List ℤ} {x y z : Tensor V} {q1 q2 : List ℕ} (f : V → V)
    (hc : combinedPerm p1 p2 = some p) (h1 : permOf x.shape.length (some p1) = some q1)
    (hy : transpose x q1 = some y)
    (h2 : permOf (y.map f).shape.length (some p2) = some q2)
    (hz : transpose (y.map f) q2 = some z) :
    ∃ q, permOf (x.map f).shape.length (some p) = some q ∧ transpose (x.map f) q = some z := by
  rw [map_shape, transpose_shape_length hy] at h2
  refine ⟨_, combinedPerm_perm hc h1 h2, ?_⟩
  refine transpose_transpose ?_ hz
  rw [transpose_map, hy]
  rfl

/-- The fragments that `fuseTransposeUnary` handles well: the element type does not change. -/
def KeepsElt : Ex V → Prop
  | .op _ [.op (.unary n _) _ _] _ => n ≠ "IsNaN"
  | .op _ [.op (.cast _ d) [.op _ [v] _] _] _ => v.ty.elt = d
  | _ => True

theorem fuseTransposeUnary_sound :
    SoundOn A (fun _ e => KeepsElt e) fuseTransposeUnary := by
  intro env e e' hr ht hk v hv
  unfold fuseTransposeUnary at hr
  split at hr
  · rename_i p2 n a p1 w t1 t2 ty
    split at hr
    · split at hr
      · split at hr
        · rename_i hc
          cases hr
          have hk : n ≠ "IsNaN" := hk
          obtain ⟨y', q2, z, hy', hq2, hz, rfl⟩ := eval_transpose.1 hv
          obtain ⟨y, hy, he⟩ := eval_unary.1 hy'
          cases he
          obtain ⟨x, q1, y'', hx, hq1, hy'', he⟩ := eval_transpose.1 hy
          cases he
          obtain ⟨q, hq, hqz⟩ := eval_combined_map _ hc hq1 hy'' hq2 hz
          have hun : eval A env (.op (.unary n a) [w] w.ty) = some (some (x.map (A.un n a))) :=
            eval_unary.2 ⟨x, hx, rfl⟩
          have hv' := eval_transpose (ty := ty).2 ⟨_, q, z, hun, hq, hqz, rfl⟩
          rw [typed_op, typedL_cons, typed_op, typedL_cons, typed_op, typedL_cons] at ht
          have hw := ht.2.2.1.2.2.1.2.2.1
          have e1 : ty.elt = t2.elt := ht.2.1
          have e2 : t2.elt = t1.elt := by
            have := ht.2.2.1.2.1
            simpa [EltOk, hk, Ex.ty] using this
          have e3 : t1.elt = w.ty.elt := ht.2.2.1.2.2.1.2.1
          refine ⟨hv', ?_, rfl⟩
          rw [typed_op]
          refine ⟨fun t h => ht.1 t (by rw [hv]; rw [hv'] at h; exact h),
            e1.trans (e2.trans e3), ?_⟩
          rw [typedL_cons]
          refine ⟨?_, typedL_nil⟩
          rw [typed_op]
          refine ⟨fun t h => ?_, by simp [EltOk, hk], by simpa using hw⟩
          rw [hun] at h
          cases h
          rw [map_shape]; exact typed_fits hw hx
        · cases hr
      · cases hr
    · cases hr
  · cases hr

theorem fuseTransposeCast_sound :
    SoundOn A (fun _ e => KeepsElt e) fuseTransposeCast := by
  intro env e e' hr ht hk v hv
  unfold fuseTransposeCast at hr
  split at hr
  · rename_i p2 s d p1 w t1 t2 ty
    split at hr
    · split at hr
      · rename_i hc
        cases hr
        have hk : w.ty.elt = d := hk
        obtain ⟨y', q2, z, hy', hq2, hz, rfl⟩ := eval_transpose.1 hv
        obtain ⟨y, hy, he⟩ := eval_cast.1 hy'
        cases he
        obtain ⟨x, q1, y'', hx, hq1, hy'', he⟩ := eval_transpose.1 hy
        cases he
        obtain ⟨q, hq, hqz⟩ := eval_combined_map _ hc hq1 hy'' hq2 hz
        have hun : eval A env (.op (.cast s d) [w] w.ty) = some (some (x.map (A.cast d))) :=
          eval_cast.2 ⟨x, hx, rfl⟩
        have hv' := eval_transpose (ty := ty).2 ⟨_, q, z, hun, hq, hqz, rfl⟩
        rw [typed_op, typedL_cons, typed_op, typedL_cons, typed_op, typedL_cons] at ht
        have hw := ht.2.2.1.2.2.1.2.2.1
        have e1 : ty.elt = t2.elt := ht.2.1
        have e2 : t2.elt = d := ht.2.2.1.2.1
        refine ⟨hv', ?_, rfl⟩
        rw [typed_op]
        refine ⟨fun t h => ht.1 t (by rw [hv]; rw [hv'] at h; exact h),
          e1.trans (e2.trans hk.symm), ?_⟩
        rw [typedL_cons]
        refine ⟨?_, typedL_nil⟩
        rw [typed_op]
        refine ⟨fun t h => ?_, hk, by simpa using hw⟩
        rw [hun] at h
        cases h
        rw [map_shape]; exact typed_fits hw hx
      · cases hr
    · cases hr
  · cases hr

end Verif.Rewrite
