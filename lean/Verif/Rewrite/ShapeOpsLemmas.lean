import Verif.Rewrite.ShapeOpsRules
import Verif.Rewrite.DimLemmas

/-! # The patterns that expose dimensions keep results -/

namespace Verif.Rewrite

variable {V : Type} [Inhabited V] {A : Alg V} {env : ℕ → Tensor V}

/-- A tensor of one element along one axis. -/
def one (v : V) : Tensor V := ⟨[1], [v], rfl⟩

/-- A value of one element. -/
def OneVal (A : Alg V) (env : ℕ → Tensor V) (el : DT) (d : Ex V) (v : V) : Prop :=
  Typed A env d ∧ d.ty.elt = el ∧ eval A env d = some (some (one v))

omit [Inhabited V] in
theorem tensor_eq {a b : Tensor V} (h1 : a.shape = b.shape) (h2 : a.data = b.data) : a = b := by
  cases a; cases b; simp_all

omit [Inhabited V] in
theorem eq_one {t : Tensor V} (h : t.shape = [1]) : ∃ v, t = one v ∧ t.data = [v] := by
  obtain ⟨v, hv⟩ := List.length_eq_one_iff.1 (by rw [t.wf, h]; rfl : t.data.length = 1)
  exact ⟨v, tensor_eq h hv, hv⟩

theorem oneVal_of {d : Ex V} {t : Tensor V} (h : Typed A env d) (he : d.ty.elt = i64)
    (hd : d.ty.dims = some [some 1]) (hv : eval A env d = some (some t)) :
    t.shape.length = 1 ∧ List.Forall₂ (OneVal A env i64) [d] t.data := by
  have hf := typed_fits h hv _ hd
  have hs : t.shape = [1] := by
    obtain ⟨b, bs, hb, hbs, hh⟩ := List.forall₂_cons_left_iff.1 hf
    rw [List.forall₂_nil_left_iff] at hbs
    subst hbs
    rcases hb with hb | hb
    · cases hb
    · cases hb; exact hh
  obtain ⟨v, rfl, e⟩ := eq_one hs
  exact ⟨rfl, .cons ⟨h, he, hv⟩ .nil⟩

mutual
theorem dims_vals : ∀ (e : Ex V), areDims e = true → Typed A env e → ∀ {t : Tensor V},
    eval A env e = some (some t) →
    t.shape.length = 1 ∧ List.Forall₂ (OneVal A env i64) (getDims e) t.data
  | .none, h, _, _, _ => by simp [areDims] at h
  | .arg i ty, h, ht, t, hv => by
    simp only [areDims, Bool.and_eq_true, decide_eq_true_eq] at h
    rw [getDims]
    · exact oneVal_of (d := .arg i ty) ht h.2 h.1 hv
    · intro a b c hc; cases hc
  | .const c d, h, ht, t, hv => by
    simp only [areDims, Bool.and_eq_true, decide_eq_true_eq] at h
    rw [getDims]
    · exact oneVal_of (d := .const c d) ht h.2 (by simp [Ex.ty, STy.static, h.1]) hv
    · intro a b c hc; cases hc
  | .op o args ty, h, ht, t, hv => by
    by_cases hc : ∃ ax, o = .concat ax
    · obtain ⟨ax, rfl⟩ := hc
      rw [areDims, Bool.and_eq_true] at h
      obtain ⟨ts, y, hts, hcat, he⟩ := eval_concat.1 hv
      cases he
      obtain ⟨g1, g2⟩ := dims_valsL args h.2 (typed_op.1 ht).2.2 hts
      obtain ⟨s1, s2⟩ := concat_one hcat g1
      refine ⟨by rw [s1]; rfl, ?_⟩
      rw [s2, getDims]
      exact g2
    · have hg : getDims (.op o args ty) = [.op o args ty] := by
        cases o <;> first | rfl | exact absurd ⟨_, rfl⟩ hc
      have ha : areDims (.op o args ty) = (decide (ty.dims = some [some 1]) && decide (ty.elt = i64)) := by
        cases o <;> first | rfl | exact absurd ⟨_, rfl⟩ hc
      rw [ha, Bool.and_eq_true, decide_eq_true_eq, decide_eq_true_eq] at h
      rw [hg]
      exact oneVal_of (d := .op o args ty) ht h.2 h.1 hv
theorem dims_valsL : ∀ (es : List (Ex V)), areDimsL es = true → TypedL A env es →
    ∀ {ts : List (Tensor V)}, List.Forall₂ (fun e t => eval A env e = some (some t)) es ts →
    (∀ t ∈ ts, t.shape.length = 1) ∧
      List.Forall₂ (OneVal A env i64) (getDimsL es) (ts.flatMap fun t => t.data)
  | [], _, _, ts, h => by
    cases h
    refine ⟨by simp, ?_⟩
    rw [getDimsL]; exact .nil
  | e :: es, h, ht, ts, hts => by
    rw [areDimsL, Bool.and_eq_true] at h
    rw [typedL_cons] at ht
    obtain ⟨t, us, h1, h2, rfl⟩ := List.forall₂_cons_left_iff.1 hts
    obtain ⟨a1, a2⟩ := dims_vals e h.1 ht.1 h1
    obtain ⟨b1, b2⟩ := dims_valsL es h.2 ht.2 h2
    refine ⟨?_, ?_⟩
    · intro u hu
      rcases List.mem_cons.1 hu with rfl | hu
      · exact a1
      · exact b1 u hu
    · rw [getDimsL, List.flatMap_cons]
      exact List.rel_append a2 b2
end

mutual
theorem dims_elt : ∀ (e : Ex V), areDims e = true → Typed A env e → ∀ {t : Tensor V},
    eval A env e = some (some t) → e.ty.elt = i64
  | .none, h, _, _, _ => by simp [areDims] at h
  | .arg i ty, h, _, _, _ => by
    simp only [areDims, Bool.and_eq_true, decide_eq_true_eq] at h
    exact h.2
  | .const c d, h, _, _, _ => by
    simp only [areDims, Bool.and_eq_true, decide_eq_true_eq] at h
    exact h.2
  | .op o args ty, h, ht, t, hv => by
    by_cases hc : ∃ ax, o = .concat ax
    · obtain ⟨ax, rfl⟩ := hc
      rw [areDims, Bool.and_eq_true] at h
      obtain ⟨ts, y, hts, hcat, he⟩ := eval_concat.1 hv
      have g := dims_eltL args h.2 (typed_op.1 ht).2.2 hts
      have e1 : ∀ a ∈ args.map Ex.ty, ty.elt = a.elt := (typed_op.1 ht).2.1
      cases args with
      | nil =>
        cases hts
        simp [concat] at hcat
      | cons a l => exact (e1 a.ty (by simp)).trans (g a (by simp))
    · have ha : areDims (.op o args ty) = (decide (ty.dims = some [some 1]) && decide (ty.elt = i64)) := by
        cases o <;> first | rfl | exact absurd ⟨_, rfl⟩ hc
      rw [ha, Bool.and_eq_true, decide_eq_true_eq, decide_eq_true_eq] at h
      exact h.2
theorem dims_eltL : ∀ (es : List (Ex V)), areDimsL es = true → TypedL A env es →
    ∀ {ts : List (Tensor V)}, List.Forall₂ (fun e t => eval A env e = some (some t)) es ts →
    ∀ e ∈ es, e.ty.elt = i64
  | [], _, _, _, _ => by simp
  | e :: es, h, ht, ts, hts => by
    rw [areDimsL, Bool.and_eq_true] at h
    rw [typedL_cons] at ht
    obtain ⟨t, us, h1, h2, rfl⟩ := List.forall₂_cons_left_iff.1 hts
    have a1 := dims_elt e h.1 ht.1 h1
    have a2 := dims_eltL es h.2 ht.2 h2
    intro u hu
    rcases List.mem_cons.1 hu with rfl | hu
    · exact a1
    · exact a2 u hu
end

theorem concat_ones (v : V) (vs : List V) :
    concat ((v :: vs).map one) 0 = some ⟨[(v :: vs).length], v :: vs, by simp⟩ := by
  obtain ⟨y, hy⟩ : ∃ y, concat ((v :: vs).map one) 0 = some y := by
    refine ⟨_, concat_some.2 ⟨one v, vs.map one, 0, by simp, rfl, ?_, rfl⟩⟩
    intro u hu
    obtain ⟨w, -, rfl⟩ := List.mem_map.1 hu
    rfl
  obtain ⟨h1, h2⟩ := concat_one hy (by
    intro t ht
    obtain ⟨w, -, rfl⟩ := List.mem_map.1 ht
    rfl)
  have e : ∀ l : List V, ((l.map one).flatMap fun t => t.data) = l := by
    intro l
    induction l with
    | nil => rfl
    | cons a l ih => rw [List.map_cons, List.flatMap_cons, ih]; rfl
  rw [e] at h1 h2
  rw [hy]
  exact congrArg some (tensor_eq h1 h2)

theorem vals_eval {el : DT} {ds : List (Ex V)} {vs : List V} (h : List.Forall₂ (OneVal A env el) ds vs) :
    List.Forall₂ (fun e t => eval A env e = some (some t)) ds (vs.map one) := by
  rw [List.forall₂_map_right_iff]
  exact h.imp fun _ _ k => k.2.2

theorem vals_typed {el : DT} {ds : List (Ex V)} {vs : List V} (h : List.Forall₂ (OneVal A env el) ds vs) :
    ∀ d ∈ ds, Typed A env d ∧ d.ty.elt = el := by
  intro d hd
  obtain ⟨k, hk⟩ := List.getElem?_of_mem hd
  obtain ⟨v, -, hv⟩ := forall₂_getElem? h hk
  exact ⟨hv.1, hv.2.1⟩

/-- What is emitted has the values of the dimensions. -/
theorem emitConcat_ok {ds : List (Ex V)} {vs : List V} {out : STy} {e' : Ex V} {t : Tensor V}
    (h : List.Forall₂ (OneVal A env out.elt) ds vs) (he : emitConcat A ds out = .into e')
    (hd : t.data = vs) (hs : t.shape = [vs.length] ∨ (t.shape = [] ∧ out.dims = some [])) (hf : out.Fits t.shape) :
    eval A env e' = some (some t) ∧ Typed A env e' ∧ e'.ty.elt = out.elt := by
  have ht := vals_typed h
  have hev := vals_eval h
  unfold emitConcat at he
  split at he
  · cases he
  · rename_i d
    obtain ⟨v, l, h1, h2, rfl⟩ := List.forall₂_cons_left_iff.1 h
    rw [List.forall₂_nil_left_iff] at h2
    subst h2
    split at he
    · rename_i ho
      cases he
      have hs0 : t.shape = [] := by
        have := fitsDims_length (hf _ ho)
        simpa using this
      have hsq : ∀ ty, eval A env (.op .squeeze [d, .const (ofInts A [0]) i64] ty) = some (some t) := by
        intro ty
        refine eval_squeeze_const.2 ⟨one v, [0], t, h1.2.2, by simp [ints, ofInts, A.toInt_ofInt], ?_, rfl⟩
        have : dropAt [0] [1] = ([] : List ℕ) := by decide
        simp only [squeeze, one, List.length_cons, List.length_nil, List.mapM_cons, List.mapM_nil]
        simp [normAxis, Tensor.retag, this]
        exact tensor_eq hs0.symm hd.symm
      refine ⟨hsq _, ?_, rfl⟩
      rw [typed_op]
      refine ⟨fun u hu => ?_, ?_, typedL_cons.2 ⟨h1.1, typedL_cons.2 ⟨typed_const, typedL_nil⟩⟩⟩
      · rw [hsq] at hu
        cases hu
        exact hf
      · exact h1.2.1.symm
    · rename_i ho
      cases he
      rcases hs with hs | hs
      · refine ⟨?_, h1.1, h1.2.1⟩
        rw [h1.2.2]
        exact congrArg (some ∘ some) (tensor_eq hs.symm hd.symm)
      · exact absurd hs.2 ho
  · rename_i d rest hne
    cases he
    obtain ⟨v, l, h1, h2, rfl⟩ := List.forall₂_cons_left_iff.1 h
    have hl : rest.length = l.length := h2.length_eq
    have hr : rest ≠ [] := fun e => hne e
    have hs' : t.shape = [(v :: l).length] := by
      rcases hs with hs | hs
      · exact hs
      · exfalso
        have := t.wf
        rw [hs.1, hd] at this
        have : l = [] := by simpa using this
        rw [this] at hl
        exact hr (List.length_eq_zero_iff.1 hl)
    have hc : ∀ ty, eval A env (.op (.concat 0) (d :: rest) ty) = some (some t) := by
      intro ty
      exact eval_concat.2 ⟨_, t, hev, by rw [concat_ones]; exact congrArg some (tensor_eq hs'.symm hd.symm), rfl⟩
    refine ⟨hc _, ?_, h1.2.1⟩
    rw [typed_op]
    refine ⟨fun u hu ds' hds => ?_, ?_, typedL_iff.2 fun d hd => (ht d hd).1⟩
    · rw [hc] at hu
      cases hu
      cases hds
      rw [hs']
      refine .cons (.inr ?_) .nil
      rw [List.length_cons, List.length_cons, hl]
    · intro a ha
      obtain ⟨b, hb, rfl⟩ := List.mem_map.1 ha
      rw [(ht b hb).2]
      exact h1.2.1

/-! ### Shape -/

theorem dimValue_val {x : Ex V} {ds : List (Option ℕ)} {t : Tensor V} (hx : eval A env x = some (some t))
    (ht : Typed A env x) (hf : FitsDims ds t.shape) {i : ℕ} (hi : i < t.shape.length) :
    OneVal A env i64 (dimValue A x ds i) (A.ofInt (t.shape.getD i 0 : ℕ)) := by
  have hl := fitsDims_length hf
  unfold dimValue
  split
  · rename_i n hn
    refine ⟨typed_const, rfl, ?_⟩
    rw [List.getD_eq_getElem?_getD, List.getElem?_eq_getElem (by omega), Option.getD_some] at hn
    have hg := fits_get hf (k := i) (v := n) (by rw [List.getElem?_eq_getElem (by omega), hn])
    rw [List.getD_eq_getElem?_getD, hg]
    rfl
  · have hv : ∀ ty, eval A env (.op (.dim i) [x] ty) = some (some (one (A.ofInt (t.shape.getD i 0 : ℕ)))) := by
      intro ty
      exact eval_dim.2 ⟨t, i, hx, normAxis_of_nat hi, rfl⟩
    refine ⟨?_, rfl, hv _⟩
    rw [typed_op]
    refine ⟨fun u hu ds' hds => ?_, rfl, typedL_cons.2 ⟨ht, typedL_nil⟩⟩
    rw [hv] at hu
    cases hu
    cases hds
    exact .cons (.inr rfl) .nil

omit [Inhabited V] in
theorem take_drop_range (l : List ℕ) (a b : ℕ) (hb : b ≤ l.length) :
    (l.take b).drop a = (List.range' a (b - a)).map fun i => l.getD i 0 := by
  apply List.ext_getElem
  · simp; omega
  · intro n h1 h2
    have : a + n < l.length := by simp at h1; omega
    simp [List.getD_eq_getElem?_getD, List.getElem?_eq_getElem this]

theorem normalizeClamped_nonneg (r : ℕ) (a : ℤ) : 0 ≤ normalizeClamped a r ∧ normalizeClamped a r ≤ r := by
  unfold normalizeClamped
  simp only
  constructor <;> (split <;> (try split) <;> (try split) <;> omega)

theorem shapeToDims_sound : Sound A (shapeToDims A) := by
  intro env e e' hr ht v hv
  unfold shapeToDims at hr
  split at hr
  · rename_i start stop x ty
    split at hr
    · cases hr
    rename_i ds hds
    simp only at hr
    split at hr
    · cases hr
    rename_i hse
    obtain ⟨x', y, hx, hs, rfl⟩ := eval_op1.1 hv
    obtain ⟨g1, e1⟩ := typed_args1 ht
    cases x' with
    | none => simp [sem] at hs
    | some t =>
      simp only [sem, Option.some.injEq] at hs
      have hf := typed_fits g1 hx ds hds
      have hl := fitsDims_length hf
      have e1 : ty.elt = i64 := e1
      have hfy := typed_fits ht hv
      obtain ⟨b1, b2⟩ := normalizeClamped_nonneg ds.length start
      obtain ⟨b3, b4⟩ := normalizeClamped_nonneg ds.length (stop.getD ds.length)
      rw [← hl] at hr hse b1 b2 b3 b4
      have c1 := normalizeClamped_eq t.shape.length start
      have c2 := normalizeClamped_eq t.shape.length (stop.getD t.shape.length)
      rw [← c1, ← c2, take_drop_range _ _ _ (by omega)] at hs
      have hlen : (normalizeClamped (stop.getD t.shape.length) t.shape.length).toNat -
          (normalizeClamped start t.shape.length).toNat = (normalizeClamped (stop.getD t.shape.length) t.shape.length -
          normalizeClamped start t.shape.length).toNat := by omega
      rw [hlen] at hs
      refine emitConcat_ok (out := ty) (vs := y.data) ?_ hr rfl (.inl ?_) hfy
      · rw [e1, ← hs]
        simp only [ofInts, List.map_map]
        rw [List.forall₂_map_left_iff, List.forall₂_map_right_iff, List.forall₂_same]
        intro i hi
        rw [List.mem_range'_1] at hi
        exact dimValue_val hx g1 hf (by omega)
      · rw [← hs]
        simp [ofInts]
  · cases hr

/-! ### Cast and Concat -/

theorem passCast_sound : Sound A (passCast A) := by
  intro env e e' hr ht v hv
  unfold passCast at hr
  split at hr
  · rename_i s d x ty
    split at hr
    · rename_i hd
      rw [dimsFromConcat, Bool.and_eq_true] at hd
      obtain ⟨t, hx, rfl⟩ := eval_cast.1 hv
      obtain ⟨g1, e1⟩ := typed_args1 ht
      have e1 : ty.elt = d := e1
      obtain ⟨hl, hvs⟩ := dims_vals x hd.1 g1 hx
      refine emitConcat_ok (out := ty) (vs := t.data.map (A.cast d)) ?_ hr rfl (.inl ?_) (typed_fits ht hv)
      · rw [e1, List.forall₂_map_left_iff, List.forall₂_map_right_iff]
        refine hvs.imp fun a b k => ?_
        have hc : ∀ ty, eval A env (.op (.cast 1 d) [a] ty) = some (some (one (A.cast d b))) :=
          fun ty => eval_cast.2 ⟨one b, k.2.2, rfl⟩
        refine ⟨?_, rfl, hc _⟩
        rw [typed_op]
        refine ⟨fun u hu => ?_, rfl, typedL_cons.2 ⟨k.1, typedL_nil⟩⟩
        rw [hc] at hu
        cases hu
        have hk := typed_fits k.1 k.2.2
        exact fun ds hds => hk ds hds
      · obtain ⟨n, hn⟩ := List.length_eq_one_iff.1 hl
        rw [map_shape, List.length_map, t.wf, hn]
        simp
    · cases hr
  · cases hr

theorem passConcat_sound : Sound A (passConcat A) := by
  intro env e e' hr ht v hv
  unfold passConcat at hr
  split at hr
  · rename_i ax args ty
    split at hr
    · rename_i hd
      split at hr
      · cases hr
      rename_i hne
      obtain ⟨ts, y, hts, hc, rfl⟩ := eval_concat.1 hv
      obtain ⟨-, e1, g1⟩ := typed_op.1 ht
      obtain ⟨hl, hvs⟩ := dims_valsL args hd g1 hts
      obtain ⟨s1, s2⟩ := concat_one hc hl
      have e2 : ty.elt = i64 := by
        obtain ⟨a, ha⟩ : ∃ a, a ∈ args := by
          cases args with
          | nil => simp at hne
          | cons a l => exact ⟨a, by simp⟩
        have e1 : ∀ a ∈ args.map Ex.ty, ty.elt = a.elt := e1
        rw [e1 _ (List.mem_map_of_mem ha), dims_eltL args hd g1 hts a ha]
      refine emitConcat_ok (out := ty) (vs := y.data) ?_ hr rfl (.inl ?_) (typed_fits ht hv)
      · rw [e2, s2]; exact hvs
      · rw [s1, s2]
    · cases hr
  · cases hr

/-! ### Gather and Slice -/

omit [Inhabited V] in
theorem mapM_rel {α β : Type} {f : α → Option β} : ∀ {l : List α} {r : List β}, l.mapM f = some r →
    List.Forall₂ (fun a b => f a = some b) l r
  | [], r, h => by
    simp only [List.mapM_nil, Option.pure_def, Option.some.injEq] at h
    subst h; exact .nil
  | a :: l, r, h => by
    simp only [List.mapM_cons, Option.pure_def, Option.bind_eq_bind, Option.bind_eq_some_iff, Option.some.injEq] at h
    obtain ⟨b, hb, bs, hbs, rfl⟩ := h
    exact .cons hb (mapM_rel hbs)

theorem picked {el : DT} {l : List (Ex V)} {vs : List V} (h : List.Forall₂ (OneVal A env el) l vs) {ps : List ℤ}
    {ds : List (Ex V)} (hp : ps.mapM (at? l) = some ds) :
    List.Forall₂ (OneVal A env el) ds (ps.map fun p => vs.getD p.toNat default) := by
  have := mapM_rel hp
  clear hp
  induction this with
  | nil => exact .nil
  | @cons p d ps ds h1 _ ih =>
    refine .cons ?_ ih
    unfold at? at h1
    split at h1
    · cases h1
    · obtain ⟨v, hv, ho⟩ := forall₂_getElem? h h1
      simpa only [List.getD_eq_getElem?_getD, hv, Option.getD_some] using ho

theorem getVec {t : Tensor V} {n : ℕ} (h : t.shape = [n]) (k : ℕ) : t.get [k] = t.data.getD k default := by
  unfold Tensor.get
  rw [h]
  simp [rowMajor]

/-- The indices are not negative, and they are a vector, or a scalar where the rank of the result is recorded. -/
def GatherPlain (A : Alg V) : Ex V → Prop
  | .op (.gather _) [_, .const t _] ty =>
    (∀ j ∈ t.data.map A.toInt, 0 ≤ j) ∧ (t.shape.length = 1 ∨ (t.shape = [] ∧ ty.dims.isSome))
  | _ => True

theorem gather_vec {x : Tensor V} {n : ℕ} (hx : x.shape = [n]) {t y : Tensor V}
    (h : gather x t.shape (fun j => A.toInt (t.get j)) 0 = some y) :
    y.shape = t.shape ∧
      y.data = t.data.map fun j => x.data.getD ((normAxis n (A.toInt j)).getD 0) default := by
  unfold gather at h
  rw [hx] at h
  simp only [List.length_cons, List.length_nil, Option.bind_eq_some_iff] at h
  obtain ⟨ax, ha, h⟩ := h
  have : ax = 0 := by have := normAxis_lt ha; omega
  subst this
  split at h
  · cases h
    refine ⟨by simp, ?_⟩
    have e : t.data = (allIndices t.shape).map t.get := congrArg Tensor.data (build_get t).symm
    rw [e]
    simp only [build, List.map_map, List.take_zero, List.nil_append, List.drop_zero, Nat.zero_add, List.drop_succ_cons,
      List.append_nil, List.drop_nil]
    apply List.map_congr_left
    intro i hi
    have hl : i.length = t.shape.length := (mem_allIndices.1 hi).length_eq
    simp only [Function.comp]
    rw [List.take_of_length_le (by omega), List.drop_of_length_le (by omega), getVec hx]
    simp
  · cases h

theorem eval_gather {axis : ℤ} {x i : Ex V} {ty : STy} {v : Option (Tensor V)} :
    eval A env (.op (.gather axis) [x, i] ty) = some v ↔
      ∃ x' i' y, eval A env x = some (some x') ∧ eval A env i = some (some i') ∧
        gather x' i'.shape (fun j => A.toInt (i'.get j)) axis = some y ∧ v = some y := by
  rw [eval_op2]
  constructor
  · rintro ⟨x', i', y, hx, hi, hs, rfl⟩
    cases x' <;> cases i' <;> simp [sem] at hs
    exact ⟨_, _, y, hx, hi, hs, rfl⟩
  · rintro ⟨x', i', y, hx, hi, hs, rfl⟩
    exact ⟨some x', some i', y, hx, hi, by simpa [sem] using hs, rfl⟩

theorem passGather_sound : SoundOn A (fun _ e => GatherPlain A e) (passGather A) := by
  intro env e e' hr ht hp v hv
  unfold passGather at hr
  split at hr
  · rename_i axis x i ty
    split at hr
    · cases hr
    rename_i hax
    push Not at hax
    subst hax
    split at hr
    · rename_i hd
      rw [dimsFromConcat, Bool.and_eq_true] at hd
      split at hr
      · cases hr
      rename_i l hl
      split at hr
      · cases hr
      rename_i ds hds
      obtain ⟨X, I, y, hX, hI, hg, rfl⟩ := eval_gather.1 hv
      obtain ⟨g1, g2, e1⟩ := typed_args2 ht
      have e1 : ty.elt = x.ty.elt := e1
      obtain ⟨h1, hvs⟩ := dims_vals x hd.1 g1 hX
      obtain ⟨n, hn⟩ := List.length_eq_one_iff.1 h1
      obtain ⟨s1, s2⟩ := gather_vec hn hg
      unfold constInts at hl
      split at hl
      · rename_i t dt
        simp only [eval, Option.some.injEq] at hI
        subst hI
        cases hl
        obtain ⟨p1, p2⟩ := hp
        have hps := picked hvs hds
        have e2 : ty.elt = i64 := e1.trans (dims_elt x hd.1 g1 hX)
        refine emitConcat_ok (out := ty) (vs := y.data) ?_ hr rfl ?_ (typed_fits ht hv)
        · rw [e2]
          convert hps using 1
          rw [s2, List.map_map, List.map_map]
          apply List.map_congr_left
          intro j hj
          have h0 := p1 (A.toInt j) (List.mem_map_of_mem hj)
          simp only [Function.comp]
          rw [gatherPos, if_neg (by omega)]
          cases hk : normAxis n (A.toInt j) with
          | some k =>
            obtain ⟨hk1, -⟩ := normAxis_nonneg hk h0
            rw [Option.getD_some, hk1]
          | none =>
            exfalso
            have := mapM_rel hds
            have hm : gatherPos ((x.ty.dims.map List.length).getD 0 : ℕ) (A.toInt j) ∈
                (t.data.map A.toInt).map (gatherPos ((x.ty.dims.map List.length).getD 0 : ℕ)) :=
              List.mem_map_of_mem (List.mem_map_of_mem hj)
            obtain ⟨q, hq⟩ := List.getElem?_of_mem hm
            obtain ⟨d, -, hd'⟩ := forall₂_getElem? this hq
            rw [gatherPos, if_neg (by omega), at?, if_neg (by omega)] at hd'
            obtain ⟨w, hw, -⟩ := forall₂_getElem? hvs hd'
            have hlt := (List.getElem?_eq_some_iff.1 hw).1
            rw [X.wf, hn] at hlt
            unfold normAxis at hk
            rw [if_pos ⟨h0, by simp at hlt; omega⟩] at hk
            cases hk
        · have hlen : y.data.length = t.data.length := by rw [s2, List.length_map]
          rw [s1, hlen, t.wf]
          rcases p2 with p2 | ⟨p2, p3⟩
          · obtain ⟨m, hm⟩ := List.length_eq_one_iff.1 p2
            rw [hm]
            left; simp
          · right
            refine ⟨p2, ?_⟩
            obtain ⟨ds', hds'⟩ := Option.isSome_iff_exists.1 p3
            have := fitsDims_length (typed_fits ht hv ds' hds')
            rw [s1, p2] at this
            rw [hds', List.length_eq_zero_iff.1 this.symm]
      · cases hl
    · cases hr
  · cases hr

theorem upTo_eq (stop step : ℤ) (hs : 0 < step) : ∀ (k : ℕ) (i : ℤ), (stop - i).toNat ≤ k →
    upTo i stop step = (List.range ((stop - i + step - 1) / step).toNat).map fun (j : ℕ) => i + step * j
  | k, i, hk => by
    rw [upTo]
    split
    · rename_i h
      have hd : (stop - i + step - 1) / step = (stop - (i + step) + step - 1) / step + 1 := by
        rw [show stop - i + step - 1 = (stop - (i + step) + step - 1) + step from by ring,
          Int.add_ediv_of_dvd_right (Int.dvd_refl _), Int.ediv_self (by omega)]
      have hq : 0 ≤ (stop - (i + step) + step - 1) / step := Int.ediv_nonneg (by omega) (by omega)
      cases k with
      | zero => omega
      | succ k =>
        rw [upTo_eq stop step hs k (i + step) (by omega), hd, Int.toNat_add hq (by omega)]
        simp only [Int.toNat_one, List.range_succ_eq_map, List.map_cons, List.map_map, List.cons.injEq]
        refine ⟨by simp, List.map_congr_left fun j _ => ?_⟩
        simp only [Function.comp]
        push_cast
        ring
    · rename_i h
      have : (stop - i + step - 1) / step ≤ 0 := by
        have h1 : stop - i + step - 1 < step := by omega
        have := Int.ediv_lt_of_lt_mul hs (by omega : stop - i + step - 1 < 1 * step)
        omega
      rw [Int.toNat_of_nonpos this]
      rfl

theorem downTo_eq (stop step : ℤ) (hs : step < 0) : ∀ (k : ℕ) (i : ℤ), (i - stop).toNat ≤ k →
    downTo i stop step = (List.range ((i - stop + (-step) - 1) / (-step)).toNat).map fun (j : ℕ) => i + step * j
  | k, i, hk => by
    rw [downTo]
    split
    · rename_i h
      have hd : (i - stop + (-step) - 1) / (-step) = (i + step - stop + (-step) - 1) / (-step) + 1 := by
        rw [show i - stop + (-step) - 1 = (i + step - stop + (-step) - 1) + (-step) from by ring,
          Int.add_ediv_of_dvd_right (Int.dvd_refl _), Int.ediv_self (by omega)]
      have hq : 0 ≤ (i + step - stop + (-step) - 1) / (-step) := Int.ediv_nonneg (by omega) (by omega)
      cases k with
      | zero => omega
      | succ k =>
        rw [downTo_eq stop step hs k (i + step) (by omega), hd, Int.toNat_add hq (by omega)]
        simp only [Int.toNat_one, List.range_succ_eq_map, List.map_cons, List.map_map, List.cons.injEq]
        refine ⟨by simp, List.map_congr_left fun j _ => ?_⟩
        simp only [Function.comp]
        push_cast
        ring
    · rename_i h
      have : (i - stop + (-step) - 1) / (-step) ≤ 0 := by
        have := Int.ediv_lt_of_lt_mul (by omega : 0 < -step) (by omega : i - stop + (-step) - 1 < 1 * (-step))
        omega
      rw [Int.toNat_of_nonpos this]
      rfl

/-- The loop over the positions is what ONNX says about Slice. -/
theorem positions_eq {n : ℕ} (hn : 1 ≤ n) (hb : n < 2147483648) {s e st s' st' : ℤ} {c : ℕ}
    (h : sliceAxis n s e st = some (s', st', c)) :
    slicePositions (sliceFrom n s st, sliceTo n e st, st) = (List.range c).map fun (j : ℕ) => s' + st' * j := by
  unfold sliceAxis at h
  split at h
  · cases h
  rename_i hst
  simp only at h
  split at h
  · rename_i hp
    cases h
    rw [slicePositions, if_pos hp, upTo_eq _ _ hp _ _ le_rfl]
    have e1 : sliceFrom n s st = max 0 (min (if s < 0 then s + n else s) n) := by
      unfold sliceFrom clampIE
      simp only
      rw [if_neg (by omega)]
      split <;> split <;> (try split) <;> omega
    have e2 : sliceTo n e st = max 0 (min (if e < 0 then e + n else e) n) := by
      unfold sliceTo clampIE
      simp only
      rw [if_neg (by omega)]
      split_ifs <;> omega
    simp only [e1, e2]
  · cases h
    have hneg : st < 0 := by omega
    rw [slicePositions, if_neg (by simpa using by omega), downTo_eq _ _ hneg _ _ le_rfl]
    have e1 : sliceFrom n s st = min (max (if s < 0 then s + n else s) 0) (n - 1) := by
      unfold sliceFrom clampIE
      simp only
      rw [if_pos (by omega)]
      split_ifs <;> omega
    simp only [e1]
    by_cases he : sliceTo n e st = n
    · have e3 : min (max (if e < 0 then e + (n : ℤ) else e) (-1)) (n - 1) = n - 1 := by
        revert he
        unfold sliceTo clampIE
        simp only
        rw [if_pos hneg]
        split_ifs <;> intro he <;> first | omega | exact he.elim
      simp only [he, e3]
      have ha : min (max (if s < 0 then s + (n : ℤ) else s) 0) ((n : ℤ) - 1) ≤ n - 1 := min_le_right _ _
      generalize min (max (if s < 0 then s + (n : ℤ) else s) 0) ((n : ℤ) - 1) = a at *
      have h1 := Int.ediv_lt_of_lt_mul (by omega : 0 < -st) (by omega : a - n + (-st) - 1 < 1 * (-st))
      have h2 := Int.ediv_lt_of_lt_mul (by omega : 0 < -st) (by omega : a - (n - 1) + (-st) - 1 < 1 * (-st))
      rw [Int.toNat_of_nonpos (by omega), Int.toNat_of_nonpos (by omega)]
    · have e2 : sliceTo n e st = min (max (if e < 0 then e + n else e) (-1)) (n - 1) := by
        revert he
        unfold sliceTo clampIE
        simp only
        rw [if_pos hneg]
        split_ifs <;> intro he <;> omega
      simp only [e2]

/-- There are fewer dimensions than 2^31. -/
def FewDims : Ex V → Prop
  | .op _ (x :: _) _ => (getDims x).length < 2147483648
  | _ => True

theorem optInts_constOrNone {a : Ex V} {l : Option (List ℤ)} {t : Option (Tensor V)} {al : Option (List ℤ)}
    (h : constOrNone A a = some l) (hv : eval A env a = some t) (ho : optInts A t = some al) : al = l := by
  unfold constOrNone at h
  split at h
  · simp only [eval, Option.some.injEq] at hv
    subst hv
    simp only [optInts, Option.some.injEq] at ho
    cases h
    exact ho.symm
  · unfold constInts at h
    split at h
    · simp only [eval, Option.some.injEq] at hv
      subst hv
      simp only [optInts, Option.map_eq_some_iff] at ho
      obtain ⟨m, hm, rfl⟩ := ho
      rw [ints_const hm]
      simpa using h
    · cases h

theorem ints_constInts {a : Ex V} {l m : List ℤ} {t : Tensor V}
    (h : constInts A a = some l) (hv : eval A env a = some (some t)) (ho : ints A t = some m) : m = l := by
  unfold constInts at h
  split at h
  · simp only [eval, Option.some.injEq] at hv
    subst hv
    rw [ints_const ho]
    simpa using h
  · cases h

omit [Inhabited V] in
theorem axes_rank1 {al : List ℤ} {ax : List ℕ} (h : al.mapM (normAxis 1) = some ax) (hn : ax.Nodup) :
    (al = [] ∧ ax = []) ∨ ∃ a, al = [a] ∧ ax = [0] := by
  have hf := mapM_rel h
  have hz : ∀ k ∈ ax, k = 0 := by
    intro k hk
    obtain ⟨j, hj⟩ := List.getElem?_of_mem hk
    obtain ⟨b, -, hb⟩ := forall₂_getElem? hf.flip hj
    have := normAxis_lt hb
    omega
  cases hf with
  | nil => exact .inl ⟨rfl, rfl⟩
  | @cons a k l ks h1 h2 =>
    right
    have hk0 := hz k (by simp)
    cases h2 with
    | nil => exact ⟨a, rfl, by rw [hk0]⟩
    | @cons b k' _ _ _ _ =>
      have := hz k' (by simp)
      subst hk0 this
      simp at hn

/-- Slice of a vector takes the elements at the positions. -/
theorem slice_vec {x y : Tensor V} {n : ℕ} (hx : x.shape = [n]) (hn : 1 ≤ n) (hb : n < 2147483648)
    {s e st : List ℤ} {a : Option (List ℤ)} {b : ℤ × ℤ × ℤ} (h : slice x s e a (some st) = some y)
    (hm : sliceBounds n a s e st = some b) :
    y.shape = [y.data.length] ∧ y.data = (slicePositions b).map fun p => x.data.getD p.toNat default := by
  obtain ⟨ax, q, h1, ⟨h2, h3, h4, h5⟩, h6, rfl⟩ := slice_some.1 h
  rw [hx] at h1 h6
  simp only [Option.getD_some, List.length_cons, List.length_nil, Nat.zero_add] at h1 h5 h6
  have key : ∃ s' st' c, q = [(s', st', c)] ∧ slicePositions b = (List.range c).map fun (j : ℕ) => s' + st' * j := by
    rcases axes_rank1 h1 h2 with ⟨ha, rfl⟩ | ⟨k, ha, rfl⟩
    · have hs : s = [] := List.length_eq_zero_iff.1 (by simpa using h3.symm)
      subst hs
      have he : e = [] := List.length_eq_zero_iff.1 h4
      have hst : st = [] := List.length_eq_zero_iff.1 h5
      subst he hst
      cases a with
      | none => simp [sliceBounds, sliceLoop] at hm
      | some al =>
        simp only [Option.getD_some] at ha
        subst ha
        simp only [sliceBounds, Option.getD_some, List.all_nil, if_true, List.length_nil, sliceLoop,
          Option.some.injEq] at hm
        subst hm
        simp only [sliceAxes, List.zipIdx_cons, List.zipIdx_nil, List.mapM_cons, List.mapM_nil,
          List.not_mem_nil, if_false, Option.pure_def, Option.bind_eq_bind, Option.bind_some, Option.some.injEq] at h6
        refine ⟨0, 1, n, h6.symm, ?_⟩
        rw [slicePositions, if_pos (by norm_num), upTo_eq _ _ (by norm_num) _ _ le_rfl]
        simp
    · have hs1 : s.length = 1 := by simpa using h3.symm
      rw [hs1] at h4 h5
      obtain ⟨s0, rfl⟩ := List.length_eq_one_iff.1 hs1
      obtain ⟨e0, rfl⟩ := List.length_eq_one_iff.1 h4
      obtain ⟨st0, rfl⟩ := List.length_eq_one_iff.1 h5
      have hb' : sliceLoop n [s0] [e0] [st0] 0 1 (0, n, 1) = some b := by
        unfold sliceBounds at hm
        split at hm
        · have : (a.getD [0]).length = 1 := by
            cases a with
            | none => rfl
            | some al => simp only [Option.getD_some] at ha ⊢; rw [ha]; rfl
          rwa [this] at hm
        · cases hm
      simp only [sliceLoop, List.getElem?_cons_zero] at hb'
      split at hb'
      · cases hb'
      cases hb'
      simp only [sliceAxes, List.zipIdx_cons, List.zipIdx_nil, List.mapM_cons, List.mapM_nil,
        List.mem_singleton, if_true, Option.pure_def, Option.bind_eq_bind, Option.bind_some,
        Option.bind_eq_some_iff, Option.some.injEq] at h6
      obtain ⟨⟨s', st', c⟩, hax, rfl⟩ := h6
      simp only [List.idxOf_cons_self, List.getD_cons_zero] at hax
      exact ⟨s', st', c, rfl, positions_eq hn hb hax⟩
  obtain ⟨s', st', c, rfl, hpos⟩ := key
  rw [hpos]
  refine ⟨?_, ?_⟩
  · rw [(build _ _).wf]
    simp
  · simp only [build, List.map_cons, List.map_nil, allIndices_one, List.map_map]
    apply List.map_congr_left
    intro j _
    simp only [Function.comp, List.zipWith_cons_cons, List.zipWith_nil_left]
    rw [getVec hx]

theorem passSlice_sound : SoundOn A (fun _ e => FewDims e) (passSlice A) := by
  intro env ex e' hr ht hp v hv
  unfold passSlice at hr
  split at hr
  · rename_i x s e a st ty
    split at hr
    · rename_i hd
      rw [dimsFromConcat, Bool.and_eq_true] at hd
      split at hr
      · rename_i sl el stl al k1 k2 k3 k4
        split at hr
        · rename_i n hn
          split at hr
          · cases hr
          rename_i b hb
          split at hr
          · cases hr
          rename_i hne
          split at hr
          · cases hr
          rename_i ds hds
          obtain ⟨X, s', e'', a', st', y, sl', el', al', stl', hX, hs, he, ha, hst, i1, i2, i3, i4, hsl, rfl⟩ :=
            eval_slice.1 hv
          have j1 := ints_constInts k1 hs i1
          have j2 := ints_constInts k2 he i2
          have j3 := optInts_constOrNone k4 ha i3
          have j4 : stl' = some stl := by
            refine optInts_constOrNone (A := A) (env := env) (a := st) ?_ hst i4
            unfold constInts at k3
            split at k3
            · simp only [constOrNone, constInts, Option.map_some]
              exact congrArg some k3
            · cases k3
          subst j1 j2 j3 j4
          have g1 : Typed A env x := (typedL_cons.1 (typed_op.1 ht).2.2).1
          have e1 : ty.elt = x.ty.elt := (typed_op.1 ht).2.1
          obtain ⟨h1, hvs⟩ := dims_vals x hd.1 g1 hX
          have hfx := typed_fits g1 hX _ hn
          have hsh : X.shape = [n] := by
            obtain ⟨m, ms, hm, hms, hh⟩ := List.forall₂_cons_left_iff.1 hfx
            rw [List.forall₂_nil_left_iff] at hms
            subst hms
            rcases hm with hm | hm
            · cases hm
            · cases hm; exact hh
          have hlen : (getDims x).length = n := by
            rw [hvs.length_eq, X.wf, hsh]; simp
          have hn1 : 1 ≤ n := by
            rcases Nat.eq_zero_or_pos n with h0 | h0
            · exfalso
              rw [h0] at hlen
              have hg := List.length_eq_zero_iff.1 hlen
              have := mapM_rel hds
              rw [hg] at this
              cases hpos : slicePositions b with
              | nil => exact hne hpos
              | cons p ps =>
                rw [hpos] at this
                obtain ⟨d, l, hd', -⟩ := List.forall₂_cons_left_iff.1 this
                simp [at?] at hd'
            · exact h0
          have hfew : (getDims x).length < 2147483648 := hp
          obtain ⟨s1, s2⟩ := slice_vec hsh hn1 (by omega) hsl hb
          refine emitConcat_ok (out := ty) (vs := y.data) ?_ hr rfl (.inl s1) (typed_fits ht hv)
          rw [e1, dims_elt x hd.1 g1 hX, s2]
          exact picked hvs hds
        · cases hr
      · cases hr
    · cases hr
  · cases hr

/-! ### The types of Reshape and ConstantOfShape -/

/-- What the compiler knows of an extent is right. -/
theorem dimInts_ok {isInput : ℕ → Bool} {ds : List (Ex V)} {vs : List V} {user : List (Option ℤ)}
    (h : List.Forall₂ (OneVal A env i64) ds vs) (hu : ds.mapM (dimInt A isInput) = some user) :
    List.Forall₂ (fun u n => ∀ k, u = some k → n = k) user (vs.map A.toInt) := by
  have := mapM_rel hu
  clear hu
  induction this generalizing vs with
  | nil => cases h; exact .nil
  | @cons d u ds us h1 _ ih =>
    obtain ⟨v, l, h2, h3, rfl⟩ := List.forall₂_cons_left_iff.1 h
    refine .cons ?_ (ih h3)
    intro k hk
    subst hk
    cases d with
    | const t e =>
      simp only [dimInt, Option.some.injEq] at h1
      have := h2.2.2
      simp only [eval, Option.some.injEq] at this
      subst this
      simpa [one] using h1
    | none => simp [dimInt] at h1
    | arg i ty =>
      simp only [dimInt] at h1
      split at h1 <;> cases h1
    | op o as ty => simp [dimInt] at h1

theorem refine_fits {inf old new : List (Option ℕ)} {s : List ℕ} (h1 : FitsDims inf s) (h2 : FitsDims old s)
    (h : refine inf old = some new) : FitsDims new s := by
  unfold refine at h
  split at h
  · cases h; exact h1
  split at h
  · cases h
  cases h
  rename_i k1 k2
  clear k1 k2
  induction h1 generalizing old with
  | nil => cases h2; exact .nil
  | @cons i n inf s hi _ ih =>
    cases h2 with
    | @cons e _ old _ he hr =>
      rw [List.zipWith_cons_cons]
      refine .cons ?_ (ih hr)
      split
      · exact hi
      · exact he

theorem updateOut_ok {o : Op} {args : List (Ex V)} {ty : STy} {user : List (Option ℤ)} {e' : Ex V} {t : Tensor V}
    (hr : updateOut o args ty user = .into e') (ht : Typed A env (.op o args ty))
    (hv : eval A env (.op o args ty) = some (some t))
    (hu : ∀ inf, user.mapM requested = some inf → FitsDims inf t.shape) :
    eval A env e' = some (some t) ∧ Typed A env e' ∧ e'.ty.elt = ty.elt := by
  unfold updateOut at hr
  split at hr
  · cases hr
  rename_i old hold
  split at hr
  · cases hr
  split at hr
  · cases hr
  rename_i new hnew
  split at hr
  · cases hr
  cases hr
  rw [Option.bind_eq_some_iff] at hnew
  obtain ⟨inf, h1, h2⟩ := hnew
  have hf := refine_fits (hu inf h1) (typed_fits ht hv old hold) h2
  have hev : ∀ ty', eval A env (.op o args ty') = some (some t) := by
    intro ty'
    rw [← hv]
    simp only [eval]
  refine ⟨hev _, ?_, rfl⟩
  obtain ⟨-, g2, g3⟩ := typed_op.1 ht
  rw [typed_op]
  refine ⟨fun u hu' ds hds => ?_, g2, g3⟩
  rw [hev] at hu'
  cases hu'
  cases hds
  exact hf

theorem updateReshape_sound (isInput : ℕ → Bool) : Sound A (updateReshape A isInput) := by
  intro env e e' hr ht v hv
  unfold updateReshape at hr
  split at hr
  · rename_i az x s ty
    split at hr
    · cases hr
    rename_i haz
    push Not at haz
    subst haz
    split at hr
    · rename_i hd
      rw [dimsFromConcat, Bool.and_eq_true] at hd
      split at hr
      · cases hr
      rename_i user huser
      split at hr
      · cases hr
      rename_i h0
      obtain ⟨X, S, l, y, hX, hS, hl, hre, rfl⟩ := eval_reshape.1 hv
      obtain ⟨g1, g2, -⟩ := typed_args2 ht
      obtain ⟨-, hvs⟩ := dims_vals s hd.1 g2 hS
      have hk := dimInts_ok hvs huser
      rw [← ints_const hl] at hk
      refine updateOut_ok hr ht hv fun inf hinf => ?_
      obtain ⟨-, q, hq, hfq, -, -⟩ := reshape_some.1 hre
      obtain ⟨hq1, hq2⟩ := reqDims_getElem?.1 hq
      have hi := mapM_rel hinf
      refine fits_of_get ?_ ?_
      · rw [← hi.length_eq, hk.length_eq, ← hq1, fitsDims_length hfq]
      · intro k v hkv
        obtain ⟨u, hu1, hu2⟩ := forall₂_getElem? hi.flip hkv
        have hu2 : requested u = some (some v) := hu2
        obtain ⟨n, hn1, hn2⟩ := forall₂_getElem? hk hu1
        obtain ⟨z, hz1, hz2⟩ := hq2 k n hn1
        cases u with
        | none => simp [requested] at hu2
        | some d =>
          have hnd := hn2 d rfl
          subst hnd
          simp only [requested] at hu2
          split at hu2
          · simp at hu2
          split at hu2
          · cases hu2
          rename_i hn3 hn4
          have hne : n ≠ 0 := by
            rintro rfl
            exact h0 (List.mem_of_getElem? hu1)
          simp only [reqOne, if_neg hn3, if_neg hne, if_pos (by omega : 0 < n), Option.some.injEq] at hz2
          simp only [Option.some.injEq] at hu2
          subst hz2
          rw [hu2] at hz1
          exact fits_get hfq hz1
    · cases hr
  · cases hr

theorem updateConstantOfShape_sound (isInput : ℕ → Bool) : Sound A (updateConstantOfShape A isInput) := by
  intro env e e' hr ht v hv
  unfold updateConstantOfShape at hr
  split at hr
  · rename_i c d s ty
    split at hr
    · rename_i hd
      rw [dimsFromConcat, Bool.and_eq_true] at hd
      split at hr
      · cases hr
      rename_i user huser
      obtain ⟨s', y, hS, hs, rfl⟩ := eval_op1.1 hv
      cases s' with
      | none => simp [sem] at hs
      | some S =>
        simp only [sem, Option.bind_eq_some_iff] at hs
        obtain ⟨l, hl, hs⟩ := hs
        split at hs
        · rename_i hpos
          cases hs
          obtain ⟨g1, -⟩ := typed_args1 ht
          obtain ⟨-, hvs⟩ := dims_vals s hd.1 g1 hS
          have hk := dimInts_ok hvs huser
          rw [← ints_const hl] at hk
          refine updateOut_ok hr ht hv fun inf hinf => ?_
          have hi := mapM_rel hinf
          refine fits_of_get ?_ ?_
          · rw [← hi.length_eq, hk.length_eq, build_shape, List.length_map]
          · intro k v hkv
            obtain ⟨u, hu1, hu2⟩ := forall₂_getElem? hi.flip hkv
            have hu2 : requested u = some (some v) := hu2
            obtain ⟨n, hn1, hn2⟩ := forall₂_getElem? hk hu1
            rw [build_shape, List.getElem?_map, hn1]
            cases u with
            | none => simp [requested] at hu2
            | some d =>
              have hnd := hn2 d rfl
              subst hnd
              simp only [requested] at hu2
              split at hu2
              · simp at hu2
              split at hu2
              · cases hu2
              simpa using hu2
        · cases hs
    · cases hr
  · cases hr

end Verif.Rewrite
