import Verif.Rewrite.DimRules
import Verif.Rewrite.ConcatLemmas

/-! # The patterns of Dim, Shape and Size keep results -/

namespace Verif.Rewrite

variable {V : Type} [Inhabited V] {A : Alg V} {env : ℕ → Tensor V}

theorem eval_dim {axis : ℤ} {x : Ex V} {ty : STy} {v : Option (Tensor V)} :
    eval A env (.op (.dim axis) [x] ty) = some v ↔
      ∃ t a, eval A env x = some (some t) ∧ normAxis t.shape.length axis = some a ∧
        v = some (ofInts A [(t.shape.getD a 0 : ℕ)]) := by
  rw [eval_op1]
  constructor
  · rintro ⟨x', y, hx, hs, rfl⟩
    cases x' with
    | none => simp [sem] at hs
    | some x' =>
      simp only [sem, Option.map_eq_some_iff] at hs
      obtain ⟨a, h1, rfl⟩ := hs
      exact ⟨x', a, hx, h1, rfl⟩
  · rintro ⟨t, a, h1, h2, rfl⟩
    exact ⟨some t, _, h1, by simp [sem, h2], rfl⟩

omit [Inhabited V] in
theorem fits_static {ds : List (Option ℕ)} {s : List ℕ} (h : FitsDims ds s) (hs : ds.all Option.isSome = true) :
    ds.map (fun d => d.getD 0) = s := by
  induction h with
  | nil => rfl
  | @cons d n ds s h1 _ ih =>
    rw [List.all_cons, Bool.and_eq_true] at hs
    rw [List.map_cons, ih hs.2]
    rcases h1 with rfl | rfl
    · simp at hs
    · rfl

theorem dimToConstant_sound : Sound A (dimToConstant A) := by
  intro env e e' hr ht v hv
  unfold dimToConstant at hr
  split at hr
  · rename_i axis x ty
    split at hr
    · cases hr
    · rename_i ds hd
      split at hr
      · cases hr
      · rename_i hax
        split at hr
        · rename_i n hn
          cases hr
          obtain ⟨t, a, h1, h2, rfl⟩ := eval_dim.1 hv
          obtain ⟨g1, e1⟩ := typed_args1 ht
          have hf := typed_fits g1 h1 ds hd
          have hl := fitsDims_length hf
          obtain ⟨ha, -⟩ := normAxis_nonneg h2 (by omega)
          rw [← ha] at hn
          have hlt : a < ds.length := by have := normAxis_lt h2; omega
          rw [List.getD_eq_getElem?_getD, List.getElem?_eq_getElem hlt, Option.getD_some] at hn
          have hg := fits_get hf (k := a) (v := n) (by rw [List.getElem?_eq_getElem hlt, hn])
          refine ⟨?_, typed_const, e1.symm⟩
          rw [List.getD_eq_getElem?_getD, hg]
          rfl
        · cases hr
  · cases hr

/-- Every operand of the shape holds one element, and the one for the axis holds a positive integer. -/
def AxisFromPositiveDim (A : Alg V) (env : ℕ → Tensor V) : Ex V → Prop
  | .op (.dim axis) [.op (.reshape _) [_, .op (.concat _) dims _] _] _ =>
    (∀ d ∈ dims, ∀ t, eval A env d = some (some t) → t.shape = [1]) ∧
    ∀ k, normAxis dims.length axis = some k → ∀ d, dims[k]? = some d →
      ∃ n : ℕ, 0 < n ∧ eval A env d = some (some (ofInts A [(n : ℤ)]))
  | _ => True

theorem normAxis_norm {r : ℕ} {a : ℤ} {k : ℕ} (h : normAxis r a = some k) :
    normDim a r = k := by
  unfold normDim
  unfold normAxis at h
  split at h
  · cases h; split <;> omega
  · split at h
    · cases h; split <;> omega
    · cases h

theorem flatMap_getElem {α : Type} (f : α → List ℤ) : ∀ {l : List α} {k : ℕ} {a : α} {n : ℤ},
    (∀ b ∈ l, (f b).length = 1) → l[k]? = some a → f a = [n] → (l.flatMap f)[k]? = some n
  | [], _, _, _, _, h, _ => by simp at h
  | b :: l, 0, a, n, hl, h, hf => by
    simp only [List.getElem?_cons_zero, Option.some.injEq] at h
    subst h
    simp [List.flatMap_cons, hf]
  | b :: l, k + 1, a, n, hl, h, hf => by
    obtain ⟨m, hm⟩ := List.length_eq_one_iff.1 (hl b (by simp))
    rw [List.flatMap_cons, hm]
    simp only [List.getElem?_cons_succ] at h
    rw [List.cons_append, List.getElem?_cons_succ, List.nil_append]
    exact flatMap_getElem f (fun c hc => hl c (by simp [hc])) h hf

theorem dimFromReshape_sound : SoundOn A (AxisFromPositiveDim A) (dimFromReshape A) := by
  intro env e e' hr ht hp v hv
  unfold dimFromReshape at hr
  split at hr
  · rename_i axis az x cax dims cty rty ty
    split at hr
    · cases hr
    rename_i ds hds
    split at hr
    · cases hr
    rename_i haz
    split at hr
    · cases hr
    rename_i hlen
    split at hr
    · cases hr
    split at hr
    · cases hr
    rename_i d hd
    split at hr
    · cases hr
    rw [Outcome.into.injEq] at hr
    subst hr
    obtain ⟨y, a, h1, h2, rfl⟩ := eval_dim.1 hv
    obtain ⟨g1, e1⟩ := typed_args1 ht
    obtain ⟨x', s', l, y', hx, hs, hl, hre, he⟩ := eval_reshape.1 h1
    cases he
    obtain ⟨g2, g3, e2⟩ := typed_args2 g1
    obtain ⟨-, e3, g4⟩ := typed_op.1 g3
    rw [typedL_iff] at g4
    obtain ⟨ts, c, hts, hc, he⟩ := eval_concat.1 hs
    cases he
    have hrank : y.shape.length = ds.length := fitsDims_length (typed_fits g1 h1 ds hds)
    push Not at hlen
    rw [hrank, ← hlen] at h2
    rw [← hlen, normAxis_norm h2, Int.toNat_natCast] at hd
    obtain ⟨hp1, hp2⟩ := hp
    obtain ⟨n, hn, hv'⟩ := hp2 a h2 _ hd
    have hone : ∀ t ∈ ts, t.shape = [1] := by
      intro t ht
      obtain ⟨j, hj⟩ := List.getElem?_of_mem ht
      obtain ⟨z, hz1, hz2⟩ := forall₂_getElem? hts.flip hj
      exact hp1 z (List.mem_of_getElem? hz1) t hz2
    obtain ⟨c1, c2⟩ := concat_one hc (fun t ht => by rw [hone t ht]; rfl)
    have hla : l[a]? = some (n : ℤ) := by
      rw [ints_const hl, c2, List.map_flatMap]
      obtain ⟨t, ht1, ht2⟩ := forall₂_getElem? hts hd
      rw [hv'] at ht2
      cases ht2
      refine flatMap_getElem _ ?_ ht1 ?_
      · intro b hb
        rw [List.length_map, b.wf, hone b hb]
        rfl
      · simp [ofInts, A.toInt_ofInt]
    obtain ⟨hret, q, hq, hfq, -, -⟩ := reshape_some.1 hre
    obtain ⟨hql, hqg⟩ := reqDims_getElem?.1 hq
    obtain ⟨w, hw1, hw2⟩ := hqg a n hla
    have hw : w = some n := by
      unfold reqOne at hw2
      rw [if_neg (by omega), if_neg (by omega), if_pos (by omega)] at hw2
      simpa using hw2.symm
    subst hw
    have hya := fits_get hfq hw1
    refine ⟨?_, g4 _ (List.mem_of_getElem? hd), ?_⟩
    · rw [hv', List.getD_eq_getElem?_getD, hya]
      rfl
    · have e4 := e3 _ (List.mem_map_of_mem (List.mem_of_getElem? hd))
      have e5 : cty.elt = i64 := e2.2
      exact (e4.symm.trans e5).trans e1.symm
  · cases hr

theorem dimFromTranspose_sound : Sound A dimFromTranspose := by
  intro env e e' hr ht v hv
  unfold dimFromTranspose at hr
  split at hr
  · rename_i axis perm x tty ty
    split at hr
    · cases hr
    rename_i ds hds
    split at hr
    · cases hr
    rename_i p
    split at hr
    · cases hr
    split at hr
    · cases hr
    rename_i b hb
    cases hr
    obtain ⟨y, a, h1, h2, rfl⟩ := eval_dim.1 hv
    obtain ⟨g1, e1⟩ := typed_args1 ht
    obtain ⟨g2, e2⟩ := typed_args1 g1
    obtain ⟨x', q, y', hx, hq, hy, he⟩ := eval_transpose.1 h1
    cases he
    have hrank : y.shape.length = ds.length := fitsDims_length (typed_fits g1 h1 ds hds)
    rw [← hrank, normAxis_norm h2, Int.toNat_natCast] at hb
    obtain ⟨c, hc1, hc2⟩ := forall₂_getElem? (mapM_forall₂.1 hq) hb
    obtain ⟨hperm, rfl⟩ := transpose_some.1 hy
    have hv' : ∀ ty', eval A env (.op (.dim b) [x] ty') = some (some (ofInts A
        [((build (q.map fun a => x'.shape.getD a 0) fun idx =>
          x'.get (tIdx x'.shape.length q idx)).shape.getD a 0 : ℕ)])) := by
      intro ty'
      refine eval_dim.2 ⟨x', c, hx, hc2, ?_⟩
      rw [build_shape]
      congr 4
      rw [List.getD_eq_getElem?_getD, List.getElem?_map, hc1]
      rfl
    refine ⟨hv' _, ?_, e1.symm⟩
    rw [typed_op]
    refine ⟨?_, rfl, typedL_cons.2 ⟨g2, typedL_nil⟩⟩
    intro t ht ds hds
    rw [hv'] at ht
    cases ht
    cases hds
    exact .cons (.inr rfl) .nil
  · cases hr

theorem normalizeClamped_eq (r : ℕ) (a : ℤ) : (normalizeClamped a r).toNat = clampPos r a := by
  unfold normalizeClamped clampPos
  simp only
  split <;> (try split) <;> (try split) <;> omega

theorem shapeToConstant_sound : Sound A (shapeToConstant A) := by
  intro env e e' hr ht v hv
  unfold shapeToConstant at hr
  split at hr
  · rename_i start stop x ty
    split at hr
    · cases hr
    rename_i ds hds
    split at hr
    · rename_i hall
      split at hr
      · cases hr
      cases hr
      obtain ⟨x', y, hx, hs, rfl⟩ := eval_op1.1 hv
      obtain ⟨g1, e1⟩ := typed_args1 ht
      cases x' with
      | none => simp [sem] at hs
      | some x' =>
        simp only [sem, Option.some.injEq] at hs
        subst hs
        have hf := typed_fits g1 hx ds hds
        have hst := fits_static hf hall
        have hl := fitsDims_length hf
        refine ⟨?_, typed_const, e1.symm⟩
        rw [eval, normalizeClamped_eq, normalizeClamped_eq, hl, ← hst]
        congr 3
        rw [← List.map_take, ← List.map_drop, List.map_map]
        rfl
    · cases hr
  · cases hr

theorem sizeToConstant_sound : Sound A (sizeToConstant A) := by
  intro env e e' hr ht v hv
  unfold sizeToConstant at hr
  split at hr
  · rename_i x ty
    split at hr
    · cases hr
    rename_i ds hds
    split at hr
    · rename_i hall
      cases hr
      obtain ⟨x', y, hx, hs, rfl⟩ := eval_op1.1 hv
      obtain ⟨g1, e1⟩ := typed_args1 ht
      cases x' with
      | none => simp [sem] at hs
      | some x' =>
        simp only [sem, Option.some.injEq] at hs
        subst hs
        have hst := fits_static (typed_fits g1 hx ds hds) hall
        refine ⟨?_, typed_const, e1.symm⟩
        rw [eval, hst]
    · cases hr
  · cases hr

end Verif.Rewrite
