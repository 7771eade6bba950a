import Verif.Rewrite.ReshapeSem
import Verif.Rewrite.ReshapeRules
import Verif.Rewrite.SqueezeLemmas
import Verif.Rewrite.SwapLemmas

/-! # The Reshape patterns keep results -/

namespace Verif.Rewrite

variable {V : Type} [Inhabited V] {A : Alg V} {env : ℕ → Tensor V}

theorem eval_reshape {az : ℤ} {e u : Ex V} {ty : STy} {v : Option (Tensor V)} :
    eval A env (.op (.reshape az) [e, u] ty) = some v ↔
      ∃ x t l y, eval A env e = some (some x) ∧ eval A env u = some (some t) ∧ ints A t = some l ∧
        reshape x (az != 0) l = some y ∧ v = some y := by
  rw [eval_op2]
  constructor
  · rintro ⟨x, t, y, hx, hu, hs, rfl⟩
    cases x with
    | none => simp [sem] at hs
    | some x =>
      cases t with
      | none => simp [sem] at hs
      | some t =>
        simp only [sem, Option.bind_eq_some_iff] at hs
        obtain ⟨l, hl, hs⟩ := hs
        exact ⟨x, t, l, y, hx, hu, hl, hs, rfl⟩
  · rintro ⟨x, t, l, y, hx, hu, hl, hs, rfl⟩
    exact ⟨some x, some t, y, hx, hu, by simp [sem, hl, hs], rfl⟩

theorem typed_new2 {o o' : Op} {as : List (Ex V)} {a b : Ex V} {ty : STy} {v : Option (Tensor V)}
    (h : Typed A env (.op o as ty)) (he : eval A env (.op o as ty) = some v)
    (he' : eval A env (.op o' [a, b] ty) = some v) (hk : EltOk o' [a.ty, b.ty] ty.elt)
    (ha : Typed A env a) (hb : Typed A env b) : Typed A env (.op o' [a, b] ty) :=
  typed_same h he he' hk (typedL_cons.2 ⟨ha, typedL_cons.2 ⟨hb, typedL_nil⟩⟩)

theorem fuseTwoReshapesAllowZero_sound : Sound A fuseTwoReshapesAllowZero := by
  intro env e e' hr ht v hv
  unfold fuseTwoReshapesAllowZero at hr
  split at hr
  · split at hr
    · rename_i az2 az1 w s1 t1 s2 ty haz
      cases hr
      subst haz
      obtain ⟨y, t2, l2, z, hy, hs2, hl2, hz, rfl⟩ := eval_reshape.1 hv
      obtain ⟨x, t1', l1, y', hx, hs1, hl1, hy', he⟩ := eval_reshape.1 hy
      cases he
      obtain ⟨h1, h2, e1⟩ := typed_args2 ht
      obtain ⟨h3, -, e2⟩ := typed_args2 h1
      have hr := (reshape_some.1 hy').1
      have haz : ((1 : ℤ) != 0) = true := rfl
      have hv' : eval A env (.op (.reshape 1) [w, s2] ty) = some (some z) := by
        refine eval_reshape.2 ⟨x, t2, l2, z, hx, hs2, hl2, ?_, rfl⟩
        rw [haz] at hz ⊢
        rw [← reshape_allowzero l2 hr]
        exact hz
      exact ⟨hv', typed_new2 ht hv hv' ⟨e1.1.trans e2.1, e1.2⟩ h3 h2, rfl⟩
    · cases hr
  · cases hr

/-- Two shapes with the same number of elements that agree on all extents but one, which are not zero. -/
theorem shape_unique : ∀ {ds : List (Option ℕ)} {a b : List ℕ}, FitsDims ds a → FitsDims ds b →
    a.prod = b.prod → ds.length - 1 ≤ (ds.filter (· ≠ none)).length → some 0 ∉ ds → a = b := by
  intro ds a b ha hb hp hc hz
  have hcount : ds.count none ≤ 1 := by
    have h1 := List.length_eq_countP_add_countP (· == (none : Option ℕ)) (l := ds)
    rw [← List.countP_eq_length_filter] at hc
    have h2 : ds.countP (fun a => decide ¬(a == none) = true) =
        ds.countP (fun x => decide (x ≠ none)) := by
      refine List.countP_congr fun x _ => ?_
      simp
    have h3 : ds.count none = ds.countP (· == none) := rfl
    rw [h2] at h1
    omega
  by_cases h0 : ds.count none = 0
  · rw [fits_count0 ha h0 0, fits_count0 hb h0 0]
  · have h1 : ds.count none = 1 := by omega
    obtain ⟨m, e1, p1⟩ := fits_count1 ha h1
    obtain ⟨n, e2, p2⟩ := fits_count1 hb h1
    have hne : (ds.map fun x => x.getD 1).prod ≠ 0 := prod_getD_ne.2 fun v hv h => hz (h ▸ hv)
    have : m = n := by
      rw [p1, p2] at hp
      exact Nat.eq_of_mul_eq_mul_right (Nat.pos_of_ne_zero hne) hp
    rw [e1, e2, this]

/-- No extent is recorded as 0. -/
def NoZeroDim (e : Ex V) : Prop := ∀ ds, e.ty.dims = some ds → some 0 ∉ ds

theorem removeIdentityReshape_sound :
    SoundOn A (fun _ e => NoZeroDim e) removeIdentityReshape := by
  intro env e e' hr ht hp v hv
  unfold removeIdentityReshape at hr
  split at hr
  · split at hr
    · rename_i az w s ty hid
      cases hr
      obtain ⟨x, t, l, y, hx, hs, hl, hy, rfl⟩ := eval_reshape.1 hv
      obtain ⟨h1, h2, e1⟩ := typed_args2 ht
      unfold isIdentityReshape at hid
      split at hid
      · rename_i a b ha hb
        obtain ⟨rfl, hc⟩ := of_decide_eq_true hid
        have hr := (reshape_some.1 hy).1
        have hxy : x.shape = y.shape :=
          shape_unique (typed_fits h1 hx _ hb) (typed_fits ht hv _ ha) (retag_prod hr) hc (hp _ ha)
        rw [← hxy, retag_self] at hr
        cases hr
        exact ⟨hx, h1, e1.1.symm⟩
      · cases hid
    · cases hr
  · cases hr

/-- The data operand is not empty. -/
def NonEmptyData (A : Alg V) (env : ℕ → Tensor V) : Ex V → Prop
  | .op _ (v :: _) _ => ∀ x, eval A env v = some (some x) → x.shape.prod ≠ 0
  | _ => True

theorem fits_nonzero {q : List (Option ℕ)} {d : List ℕ} (h : FitsDims q d) (hd : d.prod ≠ 0) :
    some 0 ∉ q := by
  intro hm
  obtain ⟨k, hk⟩ := List.getElem?_of_mem hm
  have := fits_get h hk
  exact hd (List.prod_eq_zero_iff.2 (List.mem_of_getElem? this))

theorem reshape_nonzero {x y : Tensor V} {s : List ℤ} (h : reshape x true s = some y)
    (hx : x.shape.prod ≠ 0) : reshape x false s = some y := by
  obtain ⟨hr, q, hq, hf, hc, hn⟩ := reshape_some.1 h
  refine reshape_some.2 ⟨hr, q, ?_, hf, hc, hn⟩
  have hy : y.shape.prod ≠ 0 := by rw [← retag_prod hr]; exact hx
  have h0 := fits_nonzero hf hy
  rw [reqDims_getElem?] at hq ⊢
  refine ⟨hq.1, fun j a ha => ?_⟩
  obtain ⟨c, hc, ho⟩ := hq.2 j a ha
  refine ⟨c, hc, ?_⟩
  unfold reqOne at ho ⊢
  by_cases h1 : a = -1
  · simpa [h1] using ho
  · by_cases h2 : a = 0
    · simp [h2] at ho
      subst ho
      exact absurd (List.mem_of_getElem? hc) h0
    · rw [if_neg h1, if_neg h2] at ho ⊢
      exact ho

theorem rewriteReshapeAllowZero_sound :
    SoundOn A (NonEmptyData A) rewriteReshapeAllowZero := by
  intro env e e' hr ht hp v hv
  have key : ∀ az w s ty, e = .op (.reshape az) [w, s] ty → ¬ az ≠ 1 →
      e' = .op (.reshape 0) [w, s] ty →
      eval A env e' = some v ∧ Typed A env e' ∧ e'.ty.elt = e.ty.elt := by
    rintro az w s ty rfl haz rfl
    have haz : az = 1 := not_not.1 haz
    subst haz
    obtain ⟨x, t, l, y, hx, hs, hl, hy, rfl⟩ := eval_reshape.1 hv
    obtain ⟨h1, h2, e1⟩ := typed_args2 ht
    have haz : ((1 : ℤ) != 0) = true := rfl
    rw [haz] at hy
    have hv' : eval A env (.op (.reshape 0) [w, s] ty) = some (some y) :=
      eval_reshape.2 ⟨x, t, l, y, hx, hs, hl, reshape_nonzero hy (hp x hx), rfl⟩
    exact ⟨hv', typed_new2 ht hv hv' e1 h1 h2, rfl⟩
  unfold rewriteReshapeAllowZero at hr
  split at hr
  · split at hr
    · cases hr
    · rename_i haz
      split at hr
      · split at hr
        · cases hr; exact key _ _ _ _ rfl haz rfl
        · split at hr
          · split at hr
            · cases hr; exact key _ _ _ _ rfl haz rfl
            · cases hr
          · cases hr
      · cases hr
  · cases hr

/-! ### Shapes given by a Concat of values -/

theorem get_one {t : Tensor V} {n i : ℕ} (h : t.shape = [n]) : t.get [i] = t.data.getD i default := by
  unfold Tensor.get
  rw [h]
  simp [rowMajor]

theorem concatGet_one : ∀ (ts : List (Tensor V)) (i : ℕ),
    (∀ t ∈ ts, t.shape.length = 1) → i < (ts.flatMap fun t => t.data).length →
    concatGet 0 ts [i] = (ts.flatMap fun t => t.data).getD i default
  | [], i, _, h => by simp at h
  | t :: ts, i, hs, h => by
    have hl := hs t (by simp)
    obtain ⟨n, hn⟩ := List.length_eq_one_iff.1 hl
    have hd : t.data.length = n := by rw [t.wf, hn]; simp
    unfold concatGet
    simp only [List.getD_cons_zero, hn, List.set_cons_zero]
    by_cases hi : i < n
    · rw [if_pos hi, get_one hn, List.flatMap_cons, List.getD_append _ _ _ _ (by omega)]
    · rw [if_neg hi, concatGet_one ts (i - n) (fun u hu => hs u (by simp [hu])), List.flatMap_cons,
        List.getD_append_right _ _ _ _ (by omega), hd]
      rw [List.flatMap_cons, List.length_append] at h
      omega

theorem allIndices_one (n : ℕ) : allIndices [n] = (List.range n).map fun i => [i] := by
  apply List.ext_getElem
  · simp [length_allIndices]
  · intro k h1 h2
    rw [getElem_allIndices]
    simp [unrank]

/-- Concatenating one-dimensional tensors. -/
theorem concat_one {ts : List (Tensor V)} {axis : ℤ} {y : Tensor V} (h : concat ts axis = some y)
    (hs : ∀ t ∈ ts, t.shape.length = 1) :
    y.shape = [(ts.flatMap fun t => t.data).length] ∧ y.data = ts.flatMap fun t => t.data := by
  obtain ⟨t, us, ax, rfl, hn, hu, rfl⟩ := concat_some.1 h
  have hl := hs t (by simp)
  have hax : ax = 0 := by have := normAxis_lt hn; omega
  subst hax
  have hsum : ∀ us : List (Tensor V), (∀ t ∈ us, t.shape.length = 1) →
      (us.map fun u => u.shape.getD 0 0).sum = (us.flatMap fun t => t.data).length := by
    intro us
    induction us with
    | nil => intro _; rfl
    | cons a us ih =>
      intro hs
      obtain ⟨n, hn⟩ := List.length_eq_one_iff.1 (hs a (by simp))
      rw [List.map_cons, List.sum_cons, List.flatMap_cons, List.length_append,
        ih fun t ht => hs t (by simp [ht]), a.wf, hn]
      simp
  obtain ⟨n, hn⟩ := List.length_eq_one_iff.1 hl
  have hsh : t.shape.set 0 ((t :: us).map fun u => u.shape.getD 0 0).sum =
      [((t :: us).flatMap fun t => t.data).length] := by
    rw [hsum _ hs, hn]; rfl
  rw [hsh]
  refine ⟨rfl, ?_⟩
  unfold build
  simp only
  rw [allIndices_one, List.map_map]
  apply List.ext_getElem
  · simp
  · intro k h1 h2
    simp only [List.getElem_map, List.getElem_range, Function.comp]
    rw [concatGet_one _ _ hs h2, List.getD_eq_getElem _ _ h2]

/-- A value that stands for one integer of a shape. -/
def DimVal (A : Alg V) (env : ℕ → Tensor V) (d : Ex V) (n : ℤ) : Prop :=
  Typed A env d ∧ d.ty.elt = i64 ∧
    ∃ t, eval A env d = some (some t) ∧ t.shape = [1] ∧ t.data.map A.toInt = [n]

theorem dimVal_of {d : Ex V} {t : Tensor V} (h : Typed A env d) (he : d.ty.elt = i64)
    (hd : d.ty.dims = some [some 1]) (hv : eval A env d = some (some t)) :
    t.shape.length = 1 ∧ ∃ n, DimVal A env d n ∧ t.data.map A.toInt = [n] := by
  have hf := typed_fits h hv _ hd
  have hs : t.shape = [1] := by
    obtain ⟨b, bs, hb, hbs, hh⟩ := List.forall₂_cons_left_iff.1 hf
    rw [List.forall₂_nil_left_iff] at hbs
    subst hbs
    rcases hb with hb | hb
    · cases hb
    · cases hb; exact hh
  have hl : t.data.length = 1 := by rw [t.wf, hs]; rfl
  obtain ⟨v, hv'⟩ := List.length_eq_one_iff.1 hl
  refine ⟨by rw [hs]; rfl, A.toInt v, ⟨h, he, t, hv, hs, by rw [hv']; rfl⟩, by rw [hv']; rfl⟩

mutual
theorem dims_eval : ∀ (e : Ex V), areDims e = true → Typed A env e → ∀ {t : Tensor V},
    eval A env e = some (some t) →
    t.shape.length = 1 ∧ List.Forall₂ (DimVal A env) (getDims e) (t.data.map A.toInt)
  | .none, h, _, _, _ => by simp [areDims] at h
  | .arg i ty, h, ht, t, hv => by
    simp only [areDims, Bool.and_eq_true, decide_eq_true_eq] at h
    obtain ⟨h1, n, h2, h3⟩ := dimVal_of (d := .arg i ty) ht h.2 h.1 hv
    refine ⟨h1, ?_⟩
    rw [h3, getDims]
    · exact .cons h2 .nil
    · intro a b c hc; cases hc
  | .const c d, h, ht, t, hv => by
    simp only [areDims, Bool.and_eq_true, decide_eq_true_eq] at h
    obtain ⟨h1, n, h2, h3⟩ := dimVal_of (d := .const c d) ht h.2
      (by simp [Ex.ty, STy.static, h.1]) hv
    refine ⟨h1, ?_⟩
    rw [h3, getDims]
    · exact .cons h2 .nil
    · intro a b c hc; cases hc
  | .op o args ty, h, ht, t, hv => by
    by_cases hc : ∃ ax, o = .concat ax
    · obtain ⟨ax, rfl⟩ := hc
      rw [areDims, Bool.and_eq_true] at h
      obtain ⟨ts, y, hts, hcat, he⟩ := eval_concat.1 hv
      cases he
      obtain ⟨g1, g2⟩ := dims_evalL args h.2 (typed_op.1 ht).2.2 hts
      obtain ⟨s1, s2⟩ := concat_one hcat g1
      refine ⟨by rw [s1]; rfl, ?_⟩
      rw [s2, getDims, List.map_flatMap]
      exact g2
    · have hg : getDims (.op o args ty) = [.op o args ty] := by
        cases o <;> first | rfl | exact absurd ⟨_, rfl⟩ hc
      have ha : areDims (.op o args ty) = (decide (ty.dims = some [some 1]) && decide (ty.elt = i64)) := by
        cases o <;> first | rfl | exact absurd ⟨_, rfl⟩ hc
      rw [ha, Bool.and_eq_true, decide_eq_true_eq, decide_eq_true_eq] at h
      obtain ⟨h1, n, h2, h3⟩ := dimVal_of (d := .op o args ty) ht h.2 h.1 hv
      refine ⟨h1, ?_⟩
      rw [h3, hg]
      exact .cons h2 .nil
theorem dims_evalL : ∀ (es : List (Ex V)), areDimsL es = true → TypedL A env es →
    ∀ {ts : List (Tensor V)}, List.Forall₂ (fun e t => eval A env e = some (some t)) es ts →
    (∀ t ∈ ts, t.shape.length = 1) ∧
      List.Forall₂ (DimVal A env) (getDimsL es) (ts.flatMap fun t => t.data.map A.toInt)
  | [], _, _, ts, h => by
    cases h
    refine ⟨by simp, ?_⟩
    rw [getDimsL]; exact .nil
  | e :: es, h, ht, ts, hts => by
    rw [areDimsL, Bool.and_eq_true] at h
    rw [typedL_cons] at ht
    obtain ⟨t, us, h1, h2, rfl⟩ := List.forall₂_cons_left_iff.1 hts
    obtain ⟨a1, a2⟩ := dims_eval e h.1 ht.1 h1
    obtain ⟨b1, b2⟩ := dims_evalL es h.2 ht.2 h2
    refine ⟨?_, ?_⟩
    · intro u hu
      rcases List.mem_cons.1 hu with rfl | hu
      · exact a1
      · exact b1 u hu
    · rw [getDimsL, List.flatMap_cons]
      exact List.rel_append a2 b2
end

theorem shapeVals_eval {e : Ex V} {ds : List (Ex V)} {t : Tensor V} {l : List ℤ}
    (hs : shapeVals A e = some ds) (ht : Typed A env e) (hv : eval A env e = some (some t))
    (hl : ints A t = some l) : List.Forall₂ (DimVal A env) ds l := by
  unfold shapeVals at hs
  rw [ints_const hl]
  split at hs
  · rename_i hd
    rw [Bool.and_eq_true] at hd
    cases hs
    exact (dims_eval e hd.1 ht hv).2
  · unfold constI64 at hs
    split at hs
    · simp only [eval, Option.some.injEq] at hv
      subst hv
      split at hs
      · simp only [Option.map_some, Option.some.injEq] at hs
        subst hs
        rw [List.forall₂_map_left_iff, List.forall₂_same]
        intro n _
        refine ⟨typed_const, rfl, ofInts A [n], rfl, rfl, ?_⟩
        simp [ofInts, A.toInt_ofInt]
      · cases hs
    · cases hs

/-- Every extent of the two shapes that is computed at run time is positive. -/
def RunTimeExtentsPositive (A : Alg V) (env : ℕ → Tensor V) : Ex V → Prop
  | .op _ [.op _ [_, s1] _, s2] _ => ∀ d ∈ getDims s1 ++ getDims s2, constInts A d = none →
      ∀ t, eval A env d = some (some t) → ∀ n ∈ t.data.map A.toInt, 0 < n
  | _ => True

/-- A dimension value that is not a literal constant is positive. -/
def PosVal (A : Alg V) (d : Ex V) (n : ℤ) : Prop := constI64 A d = none → 0 < n

theorem isConstVal_iff {d : Ex V} {n m : ℤ} (h : DimVal A env d n) (hp : PosVal A d n) (hm : m ≤ 0) :
    isConstVal A m d = true ↔ n = m := by
  obtain ⟨-, he, t, hv, -, hd⟩ := h
  unfold isConstVal
  cases hc : constI64 A d with
  | none =>
    have := hp hc
    simp
    omega
  | some l =>
    unfold constI64 at hc
    split at hc
    · simp only [eval, Option.some.injEq] at hv
      subst hv
      split at hc
      · cases hc
        simp [hd]
      · cases hc
    · cases hc

theorem shapeVals_pos {e : Ex V} {ds : List (Ex V)} {l : List ℤ}
    (hs : shapeVals A e = some ds)
    (hd : List.Forall₂ (DimVal A env) ds l)
    (hp : ∀ d ∈ getDims e, constInts A d = none → ∀ t, eval A env d = some (some t) →
      ∀ n ∈ t.data.map A.toInt, 0 < n) : List.Forall₂ (fun d n => DimVal A env d n ∧ PosVal A d n) ds l := by
  have hmem : ∀ d ∈ ds, ∀ n, DimVal A env d n → PosVal A d n := by
    intro d hdm n hdv hc
    obtain ⟨-, he, t, hv, -, hda⟩ := hdv
    unfold shapeVals at hs
    split at hs
    · cases hs
      refine hp d hdm ?_ t hv n (by rw [hda]; simp)
      unfold constI64 at hc
      unfold constInts
      split at hc
      · split at hc
        · cases hc
        · rename_i h1; exact absurd he h1
      · rename_i h1
        split
        · exact absurd rfl (h1 _ _)
        · rfl
    · rw [Option.map_eq_some_iff] at hs
      obtain ⟨l', -, rfl⟩ := hs
      obtain ⟨k, -, rfl⟩ := List.mem_map.1 hdm
      simp [constI64] at hc
  rw [List.forall₂_iff_get] at hd ⊢
  exact ⟨hd.1, fun i h1 h2 => ⟨hd.2 i h1 h2, hmem _ (List.get_mem _ _) _ (hd.2 i h1 h2)⟩⟩

theorem fuseDims_eval : ∀ {d1 d2 : List (Ex V)} {l1 l2 : List ℤ},
    List.Forall₂ (fun d n => DimVal A env d n ∧ PosVal A d n) d1 l1 →
    List.Forall₂ (fun d n => DimVal A env d n ∧ PosVal A d n) d2 l2 →
    List.Forall₂ (fun d n => DimVal A env d n ∧ PosVal A d n) (fuseDims A d1 d2) (fuseReq l1 l2)
  | _, [], _, _, _, h2 => by cases h2; rw [fuseDims, fuseReq]; exact .nil
  | [], c :: d2, _, _, h1, h2 => by
    cases h1
    obtain ⟨b, bs, hb, hbs, rfl⟩ := List.forall₂_cons_left_iff.1 h2
    rw [fuseDims, fuseReq]
    exact .cons hb (fuseDims_eval .nil hbs)
  | a :: d1, c :: d2, _, _, h1, h2 => by
    obtain ⟨x, xs, hx, hxs, rfl⟩ := List.forall₂_cons_left_iff.1 h1
    obtain ⟨b, bs, hb, hbs, rfl⟩ := List.forall₂_cons_left_iff.1 h2
    rw [fuseDims, fuseReq]
    refine .cons ?_ (fuseDims_eval hxs hbs)
    have := isConstVal_iff hb.1 hb.2 (le_refl 0)
    by_cases hz : b = 0
    · rw [if_pos (this.2 hz), if_pos hz]; exact hx
    · rw [if_neg (fun hc => hz (this.1 hc)), if_neg hz]; exact hb

theorem count_minus {ds : List (Ex V)} {l : List ℤ}
    (h : List.Forall₂ (fun d n => DimVal A env d n ∧ PosVal A d n) ds l) :
    l.count (-1) = (ds.filter (isConstVal A (-1))).length := by
  induction h with
  | nil => rfl
  | @cons d n ds l hd _ ih =>
    have := isConstVal_iff hd.1 hd.2 (m := -1) (by decide)
    rw [List.filter_cons]
    by_cases hn : n = -1
    · rw [if_pos (this.2 hn), hn, List.count_cons_self, List.length_cons, ih]
    · rw [if_neg (fun hc => hn (this.1 hc)), List.count_cons_of_ne hn, ih]

/-- A Concat of single integers holds these integers. -/
theorem dimConcat_eval {ds : List (Ex V)} {l : List ℤ} (h : List.Forall₂ (DimVal A env) ds l) (hne : ds ≠ []) :
    Typed A env (.op (.concat 0) ds ⟨some [some ds.length], i64⟩) ∧
      ∃ t, eval A env (.op (.concat 0) ds ⟨some [some ds.length], i64⟩) = some (some t) ∧ ints A t = some l := by
  obtain ⟨ts, hts⟩ : ∃ ts, List.Forall₂ (fun e t => eval A env e = some (some t)) ds ts ∧
      (∀ t ∈ ts, t.shape = [1]) ∧ (ts.flatMap fun t => t.data.map A.toInt) = l := by
    clear hne
    induction h with
    | nil => exact ⟨[], .nil, by simp, rfl⟩
    | cons hd _ ih =>
      obtain ⟨ts, i1, i2, i3⟩ := ih
      obtain ⟨-, -, t, hv, hsh, hda⟩ := hd
      refine ⟨t :: ts, .cons hv i1, ?_, ?_⟩
      · intro u hu
        rcases List.mem_cons.1 hu with rfl | hu
        · exact hsh
        · exact i2 u hu
      · rw [List.flatMap_cons, hda, i3]; rfl
  obtain ⟨h1, h2, h3⟩ := hts
  cases hts' : ts with
  | nil =>
    subst hts'
    cases h1
    exact absurd rfl hne
  | cons t us =>
    obtain ⟨y, hy⟩ : ∃ y, concat ts 0 = some y := by
      rw [hts']
      refine ⟨_, concat_some.2 ⟨t, us, 0, rfl, ?_, ?_, rfl⟩⟩
      · have := h2 t (by simp [hts'])
        rw [this]; rfl
      · intro u hu
        rw [h2 u (hts' ▸ hu), h2 t (by simp [hts'])]
    have hone : ∀ t ∈ ts, t.shape.length = 1 := fun t ht => by rw [h2 t ht]; rfl
    obtain ⟨s1, s2⟩ := concat_one hy hone
    have hlen : (ts.flatMap fun t => t.data).length = ds.length := by
      have : (ts.flatMap fun t => t.data.map A.toInt).length = l.length := by rw [h3]
      rw [← List.map_flatMap, List.length_map] at this
      rw [this, h.length_eq]
    have hev : ∀ ty, eval A env (.op (.concat 0) ds ty) = some (some y) := fun ty =>
      eval_concat.2 ⟨ts, y, h1, hy, rfl⟩
    refine ⟨?_, y, hev _, ?_⟩
    · rw [typed_op]
      refine ⟨?_, ?_, ?_⟩
      · intro t ht
        rw [hev] at ht
        cases ht
        intro dd hdd
        cases hdd
        rw [s1, hlen]
        exact .cons (.inr rfl) .nil
      · intro a ha
        obtain ⟨d, hd, rfl⟩ := List.mem_map.1 ha
        obtain ⟨k, hk⟩ := List.getElem?_of_mem hd
        obtain ⟨n, -, hn⟩ := forall₂_getElem? h hk
        exact hn.2.1.symm
      · rw [typedL_iff]
        intro d hd
        obtain ⟨k, hk⟩ := List.getElem?_of_mem hd
        obtain ⟨n, -, hn⟩ := forall₂_getElem? h hk
        exact hn.1
    · unfold ints
      rw [s1, s2]
      simp only [List.length_cons, List.length_nil, Nat.zero_add, if_true, Option.some.injEq]
      rw [List.map_flatMap, h3]

theorem fusedShape_eval {ds : List (Ex V)} {l : List ℤ} (h : List.Forall₂ (DimVal A env) ds l) :
    Typed A env (fusedShape A ds) ∧ (fusedShape A ds).ty.elt = i64 ∧ ∃ t, eval A env (fusedShape A ds) = some (some t) ∧
      ints A t = some l := by
  unfold fusedShape
  split
  · rename_i hall
    refine ⟨typed_const, rfl, _, rfl, ?_⟩
    have hfl : (ds.flatMap fun d => (constI64 A d).getD []) = l := by
      induction h with
      | nil => rfl
      | @cons d n ds l hd _ ih =>
        rw [List.all_cons, Bool.and_eq_true] at hall
        rw [List.flatMap_cons, ih hall.2]
        obtain ⟨-, he, t, hv, -, hda⟩ := hd
        have hsc := hall.1
        unfold isScalarConst at hsc
        split at hsc
        · simp only [eval, Option.some.injEq] at hv
          subst hv
          unfold constI64
          simp only
          have : ∀ (e : DT) (t : Tensor V), (Ex.const t e).ty.elt = e := fun _ _ => rfl
          rw [this] at he
          rw [if_pos he, hda]
          rfl
        · cases hsc
    rw [hfl]
    simp only [ints, ofInts, List.length_cons, List.length_nil, Nat.zero_add, if_true, List.map_map]
    congr 1
    conv_rhs => rw [← List.map_id l]
    exact List.map_congr_left fun n _ => A.toInt_ofInt n
  · rename_i hall
    obtain ⟨h1, h2⟩ := dimConcat_eval h (by rintro rfl; simp at hall)
    exact ⟨h1, rfl, h2⟩

theorem fuseTwoReshapes_sound :
    SoundOn A (RunTimeExtentsPositive A) (fuseTwoReshapes A) := by
  intro env e e' hr ht hp v hv
  unfold fuseTwoReshapes at hr
  split at hr
  · rename_i az2 az1 w s1 t1 s2 ty
    split at hr
    · cases hr
    · rename_i haz
      push Not at haz
      obtain ⟨rfl, rfl⟩ := haz
      split at hr
      · rename_i d1 d2 hd1 hd2
        split at hr
        · cases hr
        · rename_i hcount
          cases hr
          obtain ⟨y, t2, l2, z, hy, hs2, hl2, hz, rfl⟩ := eval_reshape.1 hv
          obtain ⟨x, t1', l1, y', hx, hs1, hl1, hy', he⟩ := eval_reshape.1 hy
          cases he
          obtain ⟨h1, h2, e1⟩ := typed_args2 ht
          obtain ⟨h3, h4, e2⟩ := typed_args2 h1
          have f1 := shapeVals_pos hd1 (shapeVals_eval hd1 h4 hs1 hl1)
            (fun d hd => hp d (by simp [hd]))
          have f2 := shapeVals_pos hd2 (shapeVals_eval hd2 h2 hs2 hl2)
            (fun d hd => hp d (by simp [hd]))
          have f3 := fuseDims_eval f1 f2
          have hm : (fuseReq l1 l2).count (-1) ≤ 1 := by rw [count_minus f3]; omega
          obtain ⟨g1, g4, t, g2, g3⟩ := fusedShape_eval (f3.imp fun _ _ h => h.1)
          have hv' : eval A env (.op (.reshape 0) [w, fusedShape A (fuseDims A d1 d2)] ty) =
              some (some z) :=
            eval_reshape.2 ⟨x, t, _, z, hx, g2, g3, reshape_reshape hy' hz hm, rfl⟩
          exact ⟨hv', typed_new2 ht hv hv' ⟨e1.1.trans e2.1, g4⟩ h3 g1, rfl⟩
      · cases hr
  · cases hr

end Verif.Rewrite
