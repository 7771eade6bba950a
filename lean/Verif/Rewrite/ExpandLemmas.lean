import Verif.Rewrite.WhereLemmas

/-! # The patterns of Expand keep results -/

namespace Verif.Rewrite

variable {V : Type} [Inhabited V] {A : Alg V} {env : ℕ → Tensor V}

theorem eval_expand {x s : Ex V} {ty : STy} {v : Option (Tensor V)} :
    eval A env (.op .expand [x, s] ty) = some v ↔
      ∃ x' t l y, eval A env x = some (some x') ∧ eval A env s = some (some t) ∧ ints A t = some l ∧
        (∀ d ∈ l, 0 ≤ d) ∧ expand x' (l.map Int.toNat) = some y ∧ v = some y := by
  rw [eval_op2]
  constructor
  · rintro ⟨s, t, z, h1, h2, h3, h4⟩
    match s, t with
    | some s, some t =>
      rw [sem] at h3
      obtain ⟨l, h5, h6⟩ := Option.bind_eq_some_iff.1 h3
      split at h6
      · rename_i h7
        exact ⟨s, t, l, z, h1, h2, h5, h7, h6, h4⟩
      · cases h6
    | none, _ => simp [sem] at h3
    | some _, none => simp [sem] at h3
  · rintro ⟨x', t, l, y, h1, h2, h3, h4, h5, h6⟩
    refine ⟨some x', some t, y, h1, h2, ?_, h6⟩
    rw [sem, h3, Option.bind_some, if_pos h4]
    exact h5

theorem expand_nil {t : Tensor V} (h : IsSc t.shape) : expand t [] = some t := by
  unfold expand
  rw [bshape_sc_nil h, Option.map_some]
  congr 1
  refine (eq_build rfl fun i hi => ?_).symm
  rw [bidx_self hi]

theorem binary_sc_left {f : V → V → V} {a r : Tensor V} (h : IsSc r.shape) (ha : r.shape = [] ∨ a.shape ≠ []) :
    binary f r a = some (a.map fun v => f r.one v) := by
  unfold binary
  rw [bshape_sc h ha]
  simp only [Option.map_some, Option.some.injEq]
  refine Eq.symm (eq_build (t := a.map fun v => f r.one v) rfl fun i hi => ?_)
  have hi' : InBounds a.shape i := hi
  rw [get_map _ _ hi', sc_get h, bidx_self hi']

theorem one_map {t : Tensor V} (h : IsSc t.shape) (f : V → V) : (t.map f).one = f t.one := by
  have := sc_data h
  unfold Tensor.one Tensor.map
  simp only
  rw [this]
  rfl

/-- Element-wise operators on scalars give scalars. -/
theorem binary_sc {f : V → V → V} {a b : Tensor V} (ha : IsSc a.shape) (hb : IsSc b.shape) :
    ∃ t, binary f a b = some t ∧ IsSc t.shape ∧ t.one = f a.one b.one := by
  by_cases h : b.shape = [] ∨ a.shape ≠ []
  · exact ⟨_, binary_sc_right hb h, ha, one_map ha _⟩
  · push Not at h
    exact ⟨_, binary_sc_left ha (.inl h.2), hb, one_map hb _⟩

theorem fill_map (s : List ℕ) (v : V) (f : V → V) : (fill s v).map f = fill s (f v) := by
  unfold fill
  rw [map_build]

omit [Inhabited V] in
theorem isScalarConst_const {e : Ex V} (h : isScalarConst e = true) : ∃ t d, e = .const t d ∧ IsSc t.shape := by
  cases e with
  | const t d =>
    simp only [isScalarConst, Bool.or_eq_true, decide_eq_true_eq] at h
    exact ⟨t, d, rfl, h⟩
  | none => simp [isScalarConst] at h
  | arg _ _ => simp [isScalarConst] at h
  | op _ _ _ => simp [isScalarConst] at h

/-- Expand of scalars commutes with element-wise operators. -/
theorem expand_binary_right {f : V → V → V} {l r y z : Tensor V} {s : List ℕ} (hl : IsSc l.shape) (hr : IsSc r.shape)
    (h : expand l s = some y) (hz : binary f y r = some z) :
    ∃ t, binary f l r = some t ∧ expand t s = some z := by
  obtain ⟨t, h1, h2, h3⟩ := binary_sc (f := f) hl hr
  refine ⟨t, h1, ?_⟩
  by_cases hs : s = []
  · subst hs
    rw [expand_nil hl] at h
    cases h
    rw [h1] at hz
    cases hz
    exact expand_nil h2
  · rw [expand_sc hl hs] at h
    cases h
    rw [binary_sc_right hr (.inr hs), fill_map] at hz
    cases hz
    rw [expand_sc h2 hs, h3]

theorem expand_binary_left {f : V → V → V} {l r y z : Tensor V} {s : List ℕ} (hl : IsSc l.shape) (hr : IsSc r.shape)
    (h : expand r s = some y) (hz : binary f l y = some z) :
    ∃ t, binary f l r = some t ∧ expand t s = some z := by
  obtain ⟨t, h1, h2, h3⟩ := binary_sc (f := f) hl hr
  refine ⟨t, h1, ?_⟩
  by_cases hs : s = []
  · subst hs
    rw [expand_nil hr] at h
    cases h
    rw [h1] at hz
    cases hz
    exact expand_nil h2
  · rw [expand_sc hr hs] at h
    cases h
    rw [binary_sc_left hl (.inr hs), fill_map] at hz
    cases hz
    rw [expand_sc h2 hs, h3]

omit [Inhabited V] in
theorem eltOk_arith {b : Bin} (h : isArith b = true) {x y : STy} {r : DT} :
    EltOk (.binary b) [x, y] r ↔ x.elt = y.elt ∧ r = x.elt := by
  unfold isArith at h
  simp only [Bool.or_eq_true, decide_eq_true_eq] at h
  rcases h with ((rfl | rfl) | rfl) | rfl <;> rfl

theorem propagateScalarExpand_sound : Sound A propagateScalarExpand := by
  intro env e e' hr ht v hv
  unfold propagateScalarExpand at hr
  split at hr
  · rename_i b l r ty
    split at hr
    · rename_i hb
      split at hr
      · rename_i l' s ety
        unfold expandOf at hr
        split at hr
        · rename_i hc
          rw [Bool.and_eq_true] at hc
          obtain ⟨lt, ld, rfl, hls⟩ := isScalarConst_const hc.1
          obtain ⟨rt, rd, rfl, hrs⟩ := isScalarConst_const hc.2
          split at hr
          · cases hr
          split at hr
          · cases hr
          cases hr
          obtain ⟨x, y, z, h1, h2, h3, rfl⟩ := eval_binary.1 hv
          obtain ⟨x', t, q, w, g1, g2, g3, g4, g5, g6⟩ := eval_expand.1 h1
          cases g6
          rw [eval] at g1 h2
          cases g1
          cases h2
          obtain ⟨u, hu1, hu2⟩ := expand_binary_right hls hrs g5 h3
          have hty := ht
          rw [typed_op] at ht
          obtain ⟨-, hek, htl⟩ := ht
          have hek := (eltOk_arith hb).1 hek
          simp only [typedL_cons] at htl
          have hexp := htl.1
          rw [typed_op] at hexp
          have hnew : eval A env (.op .expand [.op (.binary b) [.const lt ld, .const rt rd]
              (.unranked (Ex.const lt ld).ty.elt), s] ty) = some (some z) :=
            eval_expand.2 ⟨u, t, q, z, eval_binary.2 ⟨lt, rt, u, rfl, rfl, hu1, rfl⟩, g2, g3, g4, hu2, rfl⟩
          have h4 : ety.elt = ld := hexp.2.1
          have h5 : ety.elt = rd := hek.1
          have h6 : ty.elt = ety.elt := hek.2
          refine ⟨hnew, typed_same hty hv hnew ?_ ?_, rfl⟩
          · change ty.elt = ld
            rw [h6, h4]
          · have hs := hexp.2.2
            simp only [typedL_cons] at hs ⊢
            refine ⟨typed_unranked ?_ ?_, hs.2.1, typedL_nil⟩
            · simp only [typedL_cons]
              exact ⟨typed_const, typed_const, typedL_nil⟩
            · refine (eltOk_arith hb).2 ⟨?_, rfl⟩
              change ld = rd
              rw [← h4, h5]
        · cases hr
      · rename_i r' s ety hne
        unfold expandOf at hr
        split at hr
        · rename_i hc
          rw [Bool.and_eq_true] at hc
          obtain ⟨lt, ld, rfl, hls⟩ := isScalarConst_const hc.1
          obtain ⟨rt, rd, rfl, hrs⟩ := isScalarConst_const hc.2
          split at hr
          · cases hr
          split at hr
          · cases hr
          cases hr
          obtain ⟨x, y, z, h1, h2, h3, rfl⟩ := eval_binary.1 hv
          obtain ⟨x', t, q, w, g1, g2, g3, g4, g5, g6⟩ := eval_expand.1 h2
          cases g6
          rw [eval] at g1 h1
          cases g1
          cases h1
          obtain ⟨u, hu1, hu2⟩ := expand_binary_left hls hrs g5 h3
          have hty := ht
          rw [typed_op] at ht
          obtain ⟨-, hek, htl⟩ := ht
          have hek := (eltOk_arith hb).1 hek
          simp only [typedL_cons] at htl
          have hexp := htl.2.1
          rw [typed_op] at hexp
          have hnew : eval A env (.op .expand [.op (.binary b) [.const lt ld, .const rt rd]
              (.unranked (Ex.const lt ld).ty.elt), s] ty) = some (some z) :=
            eval_expand.2 ⟨u, t, q, z, eval_binary.2 ⟨lt, rt, u, rfl, rfl, hu1, rfl⟩, g2, g3, g4, hu2, rfl⟩
          have h4 : ety.elt = rd := hexp.2.1
          have h5 : ld = ety.elt := hek.1
          have h6 : ty.elt = ld := hek.2
          refine ⟨hnew, typed_same hty hv hnew h6 ?_, rfl⟩
          have hs := hexp.2.2
          simp only [typedL_cons] at hs ⊢
          refine ⟨typed_unranked ?_ ?_, hs.2.1, typedL_nil⟩
          · simp only [typedL_cons]
            exact ⟨typed_const, typed_const, typedL_nil⟩
          · refine (eltOk_arith hb).2 ⟨?_, rfl⟩
            change ld = rd
            rw [h5, h4]
        · cases hr
      · cases hr
    · cases hr
  · cases hr

/-! ### Reshape before an element-wise operator -/

theorem reshape_map {x y : Tensor V} {az : Bool} {l : List ℤ} (f : V → V) (h : reshape x az l = some y) :
    reshape (x.map f) az l = some (y.map f) := by
  unfold reshape at h ⊢
  obtain ⟨q, h1, h2⟩ := Option.bind_eq_some_iff.1 h
  obtain ⟨d, h3, h4⟩ := Option.bind_eq_some_iff.1 h2
  have hs : (x.map f).shape = x.shape := rfl
  rw [hs, h1, Option.bind_some, h3, Option.bind_some, retag_map, h4]
  rfl

/-- A Reshape of a scalar is also the Reshape of the vector with this element. -/
theorem reshape_one {x y u : Tensor V} {az : Bool} {l : List ℤ} (hx : x.shape = []) (hu : u.shape = [1])
    (hd : u.data = x.data) (h : reshape x az l = some y) : reshape u az l = some y := by
  unfold reshape at h ⊢
  obtain ⟨q, h1, h2⟩ := Option.bind_eq_some_iff.1 h
  obtain ⟨d, h3, h4⟩ := Option.bind_eq_some_iff.1 h2
  have hq : reqDims u.shape az 0 l = some q := by
    rw [hu]
    rw [hx] at h1
    rw [reqDims_getElem?] at h1 ⊢
    refine ⟨h1.1, fun j a hj => ?_⟩
    obtain ⟨b, hb1, hb2⟩ := h1.2 j a hj
    refine ⟨b, hb1, ?_⟩
    unfold reqOne at hb2 ⊢
    split at hb2
    · rename_i ha; rw [if_pos ha]; exact hb2
    · rename_i ha
      rw [if_neg ha]
      split at hb2
      · rename_i ha0
        rw [if_pos ha0]
        split at hb2
        · rename_i haz
          rw [if_pos haz]; exact hb2
        · simp at hb2
      · rename_i ha0
        rw [if_neg ha0]
        exact hb2
  have hp : u.shape.prod = x.shape.prod := by rw [hu, hx]; rfl
  rw [hq, Option.bind_some, hp, h3, Option.bind_some]
  unfold Tensor.retag at h4 ⊢
  split at h4
  · rename_i hd'
    cases h4
    rw [dif_pos (hp.trans hd')]
    congr 1
    exact tensor_ext rfl hd
  · cases h4

/-- The operand that is not reshaped has rank 0, or the result has rank 1 or more. -/
def ScalarKeepsRank (A : Alg V) (env : ℕ → Tensor V) : Ex V → Prop
  | .op (.binary _) [y, r] _ => ∀ y' r', eval A env y = some (some y') → eval A env r = some (some r') →
      r'.shape = [] ∨ y'.shape ≠ []
  | _ => True

omit [Inhabited V] in
theorem isScalarTy_isSc {ty : STy} {s : List ℕ} (h : isScalarTy ty = true) (hf : ty.Fits s) : IsSc s := by
  unfold isScalarTy at h
  simp only [Bool.or_eq_true, decide_eq_true_eq] at h
  rcases h with h | h
  · have := hf _ h
    unfold FitsDims at this
    rw [List.forall₂_nil_left_iff] at this
    exact .inl this
  · obtain ⟨b, bs, hb, hbs, hh⟩ := List.forall₂_cons_left_iff.1 (hf _ h)
    rw [List.forall₂_nil_left_iff] at hbs
    subst hbs
    rcases hb with hb | hb
    · cases hb
    · cases hb; exact .inr hh

theorem propagateReshapeBinary_sound : SoundOn A (ScalarKeepsRank A) propagateReshapeBinary := by
  intro env e e' hr ht hp v hv
  unfold propagateReshapeBinary at hr
  split at hr
  · rename_i b az x s rty r ty
    split at hr
    · rename_i hc
      cases hr
      rw [Bool.and_eq_true] at hc
      obtain ⟨y, r', z, h1, h2, h3, rfl⟩ := eval_binary.1 hv
      have hp := hp y r' h1 h2
      obtain ⟨x', t, l, y', g1, g2, g3, g4, g5⟩ := eval_reshape.1 h1
      cases g5
      have hty := ht
      rw [typed_op] at ht
      obtain ⟨-, hek, htl⟩ := ht
      have hek := (eltOk_arith hc.1).1 hek
      simp only [typedL_cons] at htl
      obtain ⟨htr, htr', -⟩ := htl
      rw [typed_op] at htr
      have hsc := isScalarTy_isSc hc.2 (typed_fits htr' h2)
      rw [binary_sc_right hsc hp] at h3
      cases h3
      obtain ⟨u, hu1, hu2⟩ : ∃ u, binary (A.bin b) x' r' = some u ∧
          reshape u (az != 0) l = some (y.map fun v => A.bin b v r'.one) := by
        by_cases hx : r'.shape = [] ∨ x'.shape ≠ []
        · exact ⟨_, binary_sc_right hsc hx, reshape_map _ g4⟩
        · push Not at hx
          have hxs : IsSc x'.shape := .inl hx.2
          refine ⟨_, binary_sc_left hxs (.inl hx.2), ?_⟩
          refine reshape_one (x := x'.map fun v => A.bin b v r'.one) hx.2 ?_ ?_ (reshape_map _ g4)
          · rcases hsc with h | h
            · exact absurd h hx.1
            · exact h
          · simp [Tensor.map, sc_data hxs, sc_data hsc]
      have hs := htr.2.2
      simp only [typedL_cons] at hs
      have hnew : eval A env (.op (.reshape az) [.op (.binary b) [x, r] (.unranked x.ty.elt), s] ty) =
          some (some (y.map fun v => A.bin b v r'.one)) :=
        eval_reshape.2 ⟨u, t, l, _, eval_binary.2 ⟨x', r', u, g1, h2, hu1, rfl⟩, g2, g3, hu2, rfl⟩
      have e1 : rty.elt = x.ty.elt ∧ s.ty.elt = i64 := htr.2.1
      have e2 : rty.elt = r.ty.elt := hek.1
      have e3 : ty.elt = rty.elt := hek.2
      refine ⟨hnew, typed_same hty hv hnew ?_ ?_, rfl⟩
      · exact ⟨e3.trans e1.1, e1.2⟩
      · simp only [typedL_cons]
        refine ⟨typed_unranked ?_ ?_, hs.2.1, typedL_nil⟩
        · simp only [typedL_cons]
          exact ⟨hs.1, htr', typedL_nil⟩
        · exact (eltOk_arith hc.1).2 ⟨e1.1.symm.trans e2, rfl⟩
    · cases hr
  · cases hr

/-! ### Unsqueeze and Slice of an Expand -/

mutual
/-- The list of extents of a value that has one is not empty. -/
theorem getDims_ne : ∀ (e : Ex V), ∀ {t : Tensor V}, eval A env e = some (some t) → getDims e ≠ []
  | .none, _, _ => by simp [getDims]
  | .arg _ _, _, _ => by simp [getDims]
  | .const _ _, _, _ => by simp [getDims]
  | .op o as ty, t, h => by
    by_cases ho : ∃ a, o = .concat a
    · obtain ⟨a, rfl⟩ := ho
      obtain ⟨ts, y, h1, h2, h3⟩ := eval_concat.1 h
      rw [getDims]
      cases h1 with
      | nil => simp [concat] at h2
      | cons h4 h5 => exact getDimsL_ne _ ⟨_, h4⟩
    · cases o <;> first | (exact absurd ⟨_, rfl⟩ ho) | (simp [getDims])
theorem getDimsL_ne : ∀ (es : List (Ex V)), (∃ t, (es.head?.bind fun e => eval A env e) = some (some t)) →
    getDimsL es ≠ []
  | [], h => by simp at h
  | e :: es, h => by
    obtain ⟨t, h⟩ := h
    rw [getDimsL]
    intro h0
    exact getDims_ne e h (List.append_eq_nil_iff.1 h0).1
end

theorem dimVal_const (n : ℤ) : DimVal A env (.const (ofInts A [n]) i64) n :=
  ⟨typed_const, rfl, ofInts A [n], rfl, rfl, by simp [ofInts, A.toInt_ofInt]⟩

/-- The loop over the positions inserts ones at the axes. -/
theorem unsqueezeLoop_eval {ax : List ℕ} {axes : List ℤ} (hax : ∀ k : ℕ, (k : ℤ) ∈ axes ↔ k ∈ ax) {n : ℕ} :
    ∀ {fuel i k : ℕ} {ds out : List (Ex V)} {l : List ℤ}, unsqueezeLoop A axes n fuel i ds = some out →
    List.Forall₂ (DimVal A env) ds l → (∀ d ∈ l, 0 ≤ d) → i + k = n →
    ds.length = free ax i k →
    ∃ l', List.Forall₂ (DimVal A env) out l' ∧ (∀ d ∈ l', 0 ≤ d) ∧
      l'.map Int.toNat = insertOnes ax i k (l.map Int.toNat)
  | 0, i, k, ds, out, l, h, _, _, _, _ => by simp [unsqueezeLoop] at h
  | fuel + 1, i, k, ds, out, l, h, hd, hl, hk, hc => by
    unfold unsqueezeLoop at h
    cases k with
    | zero =>
      have h0 : ds = [] := List.length_eq_zero_iff.1 hc
      subst h0
      rw [if_pos ⟨by omega, rfl⟩] at h
      cases h
      exact ⟨[], .nil, by simp, by simp [insertOnes]⟩
    | succ k =>
      rw [if_neg (by omega)] at h
      rw [free_succ] at hc
      split at h
      · rename_i hi
        have hi := (hax i).1 hi
        rw [if_pos hi] at hc
        obtain ⟨out', h1, rfl⟩ := Option.map_eq_some_iff.1 h
        obtain ⟨l', g1, g2, g3⟩ := unsqueezeLoop_eval (k := k) hax h1 hd hl (by omega) (by omega)
        refine ⟨1 :: l', .cons (dimVal_const 1) g1, ?_, ?_⟩
        · intro d hd'
          rcases List.mem_cons.1 hd' with rfl | hd'
          · decide
          · exact g2 d hd'
        · unfold insertOnes
          rw [if_pos hi, List.map_cons, g3]
          rfl
      · rename_i hi
        have hi := fun h => hi ((hax i).2 h)
        rw [if_neg hi] at hc
        split at h
        · cases h
        · rename_i d ds'
          obtain ⟨out', h1, rfl⟩ := Option.map_eq_some_iff.1 h
          cases hd with
          | @cons _ m _ l hm hd =>
            obtain ⟨l', g1, g2, g3⟩ := unsqueezeLoop_eval (k := k) hax h1 hd (fun d hd' => hl d (List.mem_cons_of_mem _ hd'))
              (by omega) (by rw [List.length_cons] at hc; omega)
            refine ⟨m :: l', .cons hm g1, ?_, ?_⟩
            · intro d hd'
              rcases List.mem_cons.1 hd' with rfl | hd'
              · exact hl d (by simp)
              · exact g2 d hd'
            · unfold insertOnes
              rw [if_neg hi, List.map_cons, List.map_cons, g3]

/-- The constant axes are not negative. -/
def NonNegAxes (A : Alg V) : Ex V → Prop
  | .op .unsqueeze [_, axes] _ => ∀ l, constInts A axes = some l → ∀ a ∈ l, 0 ≤ a
  | _ => True

theorem unsqueezeOfExpand_sound : SoundOn A (fun _ e => NonNegAxes A e) (unsqueezeOfExpand A) := by
  intro env e e' hr ht hp v hv
  unfold unsqueezeOfExpand at hr
  split at hr
  · rename_i x s ety axes ty
    split at hr
    · cases hr
    rename_i ax hax
    have hp := hp ax hax
    split at hr
    · rename_i hc
      rw [Bool.and_eq_true] at hc
      split at hr
      · cases hr
      rename_i out hout
      cases hr
      have hty := ht
      rw [typed_op] at ht
      obtain ⟨-, hek, htl⟩ := ht
      simp only [typedL_cons] at htl
      obtain ⟨hexp, -, -⟩ := htl
      rw [typed_op] at hexp
      obtain ⟨-, hek2, hexpL⟩ := hexp
      simp only [typedL_cons] at hexpL
      obtain ⟨y, ta, la, z, h1, h2, h3, h4, rfl⟩ := eval_unsqueeze.1 hv
      obtain ⟨x', t, l, y', g1, g2, g3, g4, g5, g6⟩ := eval_expand.1 h1
      cases g6
      have hsc := isScalarTy_isSc hc.1 (typed_fits hexpL.1 g1)
      obtain ⟨d1, d2⟩ := dims_eval s hc.2 hexpL.2.1 g2
      have hne := getDims_ne s g2
      have hl : l = t.data.map A.toInt := by
        unfold ints at g3
        rw [if_pos d1] at g3
        exact (Option.some.inj g3).symm
      rw [← hl] at d2
      have hlen := d2.length_eq
      have hlne : l.map Int.toNat ≠ [] := by
        intro h0
        rw [List.map_eq_nil_iff] at h0
        subst h0
        exact hne (List.length_eq_zero_iff.1 hlen)
      rw [expand_sc hsc hlne] at g5
      cases g5
      -- the axes
      have hla : la = ax := by
        cases axes with
        | const ca cd =>
          rw [eval] at h2
          cases h2
          simp only [constInts, Option.some.injEq] at hax
          unfold ints at h3
          split at h3
          · rw [← hax]; exact (Option.some.inj h3).symm
          · cases h3
        | none => simp [constInts] at hax
        | arg _ _ => simp [constInts] at hax
        | op _ _ _ => simp [constInts] at hax
      subst hla
      unfold unsqueeze at h4
      obtain ⟨nax, n1, n2⟩ := Option.bind_eq_some_iff.1 h4
      split at n2
      · rename_i hnd
        have hz := retag_fill n2
        subst hz
        have hfl : (fill (l.map Int.toNat) x'.one).shape.length = (getDims s).length := by
          change (l.map Int.toNat).length = _
          rw [List.length_map, hlen]
        rw [hfl] at n1 hv ⊢
        have hmem : ∀ k : ℕ, (k : ℤ) ∈ (la.map fun (a : ℤ) => if a < 0 then a + ((getDims s).length : ℤ) else a) ↔ k ∈ nax := by
          intro k
          rw [axes_mem n1, List.mem_map]
          constructor
          · rintro ⟨a, ha, hak⟩
            rw [if_neg (by have := hp a ha; omega)] at hak
            subst hak
            obtain ⟨m, -, hm⟩ := forall₂_getElem? (mapM_forall₂.1 n1) (List.getElem?_of_mem ha).choose_spec
            have := (normAxis_nonneg hm (by omega)).1
            refine ⟨_, ha, ?_⟩
            rw [hm, this]
            rfl
          · rintro ⟨a, ha, hak⟩
            have h0 := hp a ha
            have := (normAxis_nonneg hak h0).1
            refine ⟨a, ha, ?_⟩
            rw [if_neg (by omega)]
            omega
        have hcount : (getDims s).length = free nax 0 ((getDims s).length + la.length) := by
          have := free_add nax _ (axes_lt n1)
          rw [nodup_axes_length n1 hnd] at this
          omega
        obtain ⟨l', o1, o2, o3⟩ := unsqueezeLoop_eval hmem hout d2 g4 (by omega) hcount
        have hol : out.length = (getDims s).length + la.length := by
          have := congrArg List.length o3
          rw [List.length_map, insertOnes_length] at this
          rw [o1.length_eq, this]
        have hone : out ≠ [] := by
          rintro rfl
          have := List.length_pos_iff.2 hne
          simp at hol
          omega
        obtain ⟨c1, t', c2, c3⟩ := dimConcat_eval o1 hone
        rw [hol] at c1 c2
        have hl'ne : l'.map Int.toNat ≠ [] := by
          intro h0
          rw [List.map_eq_nil_iff] at h0
          subst h0
          exact hone (List.length_eq_zero_iff.1 o1.length_eq)
        have hnew := (eval_expand (ty := ty)).2 ⟨x', t', l', _, g1, c2, c3, o2, expand_sc hsc hl'ne, rfl⟩
        rw [o3] at hnew
        refine ⟨hnew, typed_same hty hv hnew ?_ ?_, rfl⟩
        · have e1 : ty.elt = ety.elt := hek
          have e2 : ety.elt = x.ty.elt := hek2
          exact e1.trans e2
        · simp only [typedL_cons]
          exact ⟨hexpL.1, c1, typedL_nil⟩
      · cases n2
    · cases hr
  · cases hr

/-- The extents of the sliced axes are recorded in the type of the result. -/
def SlicedStatic (A : Alg V) : Ex V → Prop
  | .op .slice [_, starts, _, axes, _] ty => ∀ out ax, ty.dims = some out →
      sliceAxesI64 A axes starts out.length = some ax → ∀ a ∈ ax, out.getD a.toNat none ≠ none
  | _ => True

theorem sliceAxes_rest {dims ax : List ℕ} {s e st : List ℤ} {q : List (ℤ × ℤ × ℕ)}
    (h : sliceAxes dims ax s e st = some q) {k : ℕ} {a : ℤ × ℤ × ℕ} (hk : q[k]? = some a) (hn : k ∉ ax) :
    dims[k]? = some a.2.2 := by
  unfold sliceAxes at h
  rw [mapM_forall₂] at h
  obtain ⟨⟨d, k'⟩, h1, h2⟩ := forall₂_getElem? h.flip hk
  rw [List.getElem?_zipIdx, Option.map_eq_some_iff] at h1
  obtain ⟨d', h3, h4⟩ := h1
  simp only [Prod.mk.injEq, Nat.zero_add] at h4
  obtain ⟨rfl, rfl⟩ := h4
  simp only at h2
  rw [if_neg hn] at h2
  cases h2
  exact h3

/-- A Slice of a tensor of equal elements. -/
theorem slice_fill {d : List ℕ} {v : V} {y : Tensor V} {s e : List ℤ} {axes steps : Option (List ℤ)}
    (h : slice (fill d v) s e axes steps = some y) : y = fill y.shape v := by
  obtain ⟨ax, q, h1, h2, h3, rfl⟩ := slice_some.1 h
  obtain ⟨g1, g2⟩ := sliceAxes_get h3
  rw [build_shape]
  refine build_congr fun i hi => ?_
  have := slice_inBounds g1 g2 hi
  exact get_build _ this

omit [Inhabited V] in
theorem axes_norm_mem {l : List ℤ} {nax : List ℕ} {r : ℕ} (h : l.mapM (normAxis r) = some nax) (k : ℕ) :
    (k : ℤ) ∈ (l.map fun (v : ℤ) => if 0 ≤ v then v else v + (r : ℤ)) ↔ k ∈ nax := by
  have key : ∀ (a : ℤ) (m : ℕ), normAxis r a = some m → (if 0 ≤ a then a else a + (r : ℤ)) = m := by
    intro a m hm
    unfold normAxis at hm
    split at hm
    · cases hm
      rw [if_pos (by omega)]
      omega
    · split at hm
      · cases hm
        rw [if_neg (by omega)]
        omega
      · cases hm
  rw [axes_mem h, List.mem_map]
  constructor
  · rintro ⟨a, ha, hak⟩
    obtain ⟨m, -, hm⟩ := forall₂_getElem? (mapM_forall₂.1 h) (List.getElem?_of_mem ha).choose_spec
    have := key a m hm
    rw [hak] at this
    exact ⟨a, ha, by rw [hm]; congr 1; omega⟩
  · rintro ⟨a, ha, hak⟩
    exact ⟨a, ha, key a k hak⟩

theorem sliceOfExpand_sound : SoundOn A (fun _ e => SlicedStatic A e) (sliceOfExpand A) := by
  intro env e e' hr ht hp v hv
  unfold sliceOfExpand at hr
  split at hr
  · rename_i x s ety starts stops axes steps ty
    split at hr
    · rename_i ds out hds hout
      split at hr
      · rename_i hc
        rw [Bool.and_eq_true] at hc
        split at hr
        · cases hr
        rename_i ax hax
        have hp := hp out ax hout hax
        split at hr
        · cases hr
        rename_i hbad
        split at hr
        · cases hr
        split at hr
        · cases hr
        rename_i nd hnd
        cases hr
        have hty := ht
        rw [typed_op] at ht
        obtain ⟨hfit, hek, htl⟩ := ht
        simp only [typedL_cons] at htl
        obtain ⟨hexp, hstarts, -⟩ := htl
        rw [typed_op] at hexp
        obtain ⟨-, hek2, hexpL⟩ := hexp
        simp only [typedL_cons] at hexpL
        obtain ⟨y, s', e', a', st', z, sl, el, al, stl, h1, h2, h3, h4, h5, h6, h7, h8, h9, h10, rfl⟩ := eval_slice.1 hv
        obtain ⟨x', t, l, y', g1, g2, g3, g4, g5, g6⟩ := eval_expand.1 h1
        cases g6
        have hsc := isScalarTy_isSc hc.1 (typed_fits hexpL.1 g1)
        obtain ⟨d1, d2⟩ := dims_eval s hc.2 hexpL.2.1 g2
        have hne := getDims_ne s g2
        have hl : l = t.data.map A.toInt := by
          unfold ints at g3
          rw [if_pos d1] at g3
          exact (Option.some.inj g3).symm
        rw [← hl] at d2
        have hlen := d2.length_eq
        have hlne : l.map Int.toNat ≠ [] := by
          intro h0
          rw [List.map_eq_nil_iff] at h0
          subst h0
          exact hne (List.length_eq_zero_iff.1 hlen)
        rw [expand_sc hsc hlne] at g5
        cases g5
        have hz := slice_fill h10
        have hfz := hfit z hv out hout
        obtain ⟨nax, q, n1, n2, n3, n4⟩ := slice_some.1 h10
        obtain ⟨q1, q2⟩ := sliceAxes_get n3
        have hzs : z.shape = q.map fun a => a.2.2 := by rw [n4]; rfl
        have hrank : (fill (l.map Int.toNat) x'.one).shape.length = out.length := by
          rw [hfz.length_eq, hzs, List.length_map, q1]
        -- the axes
        have hmem : ∀ k : ℕ, (k : ℤ) ∈ ax ↔ k ∈ nax := by
          intro k
          rw [hrank] at n1
          unfold sliceAxesI64 at hax
          split at hax
          · rename_i n _ hsd
            split at hax
            · cases hax
              rw [eval] at h4
              cases h4
              cases h8
              have hsn : sl.length = n := by
                unfold ints at h6
                split at h6
                · rename_i hs1
                  cases h6
                  obtain ⟨m, ms, hm, hms, hs'⟩ := List.forall₂_cons_left_iff.1 (typed_fits hstarts h2 _ hsd)
                  rw [hs'] at hs1
                  have : ms = [] := by simpa using hs1
                  subst this
                  rw [List.length_map, s'.wf, hs']
                  rcases hm with hm | hm
                  · cases hm
                  · cases hm; simp
                · cases h6
              subst hsn
              rw [Option.getD_none] at n1
              rw [← axes_norm_mem n1 k]
              have : (((List.range sl.length).map fun (k : ℕ) => (k : ℤ)).map fun (v : ℤ) =>
                  if 0 ≤ v then v else v + (out.length : ℤ)) = (List.range sl.length).map fun (k : ℕ) => (k : ℤ) := by
                rw [List.map_map]
                exact List.map_congr_left fun a _ => by simp
              rw [this]
            · rename_i hnone
              obtain ⟨l', hl', rfl⟩ := Option.map_eq_some_iff.1 hax
              cases axes with
              | const ca cd =>
                rw [eval] at h4
                cases h4
                simp only [constInts, Option.some.injEq] at hl'
                simp only [optInts, Option.map_eq_some_iff] at h8
                obtain ⟨l'', h8, rfl⟩ := h8
                unfold ints at h8
                split at h8
                · rw [hl'] at h8
                  cases h8
                  exact axes_norm_mem n1 k
                · cases h8
              | none => simp [constInts] at hl'
              | arg _ _ => simp [constInts] at hl'
              | op _ _ _ => simp [constInts] at hl'
          · cases hax
        -- the new extents
        unfold sliceDims at hnd
        have hnd := mapM_forall₂.1 hnd
        have hdim : List.Forall₂ (DimVal A env) nd (z.shape.map fun (n : ℕ) => (n : ℤ)) := by
          refine List.forall₂_iff_get.2 ⟨?_, fun k k1 k2 => ?_⟩
          · rw [← hnd.length_eq, List.length_map, List.length_zipIdx, hfz.length_eq]
          · have kz : k < z.shape.length := by simpa using k2
            have ko : k < out.length := by rw [hfz.length_eq]; exact kz
            obtain ⟨b, b1, b2⟩ := forall₂_getElem? hnd (k := k) (a := (out[k], k)) (by
              rw [List.getElem?_zipIdx, List.getElem?_eq_getElem ko]; simp)
            rw [List.getElem?_eq_getElem k1] at b1
            cases b1
            simp only [List.get_eq_getElem, List.getElem_map]
            simp only at b2
            split at b2
            · rename_i hk
              have h0 := hp _ hk
              rw [Int.toNat_natCast, List.getD_eq_getElem _ _ ko] at h0
              obtain ⟨n, hn⟩ := Option.ne_none_iff_exists'.1 h0
              have hzk := fits_get hfz (k := k) (v := n) (by rw [List.getElem?_eq_getElem ko, hn])
              rw [List.getElem?_eq_getElem kz] at hzk
              cases hzk
              rw [hn] at b2
              have hb := Option.some.inj b2
              simp only [List.get_eq_getElem] at hb
              rw [← hb]
              exact dimVal_const _
            · rename_i hk
              obtain ⟨m, m1, m2⟩ := forall₂_getElem? d2 b2
              have kq : k < q.length := by rw [hzs] at kz; simpa using kz
              have := sliceAxes_rest n3 (List.getElem?_eq_getElem kq) (fun h => hk ((hmem k).2 h))
              have h0 : (l.map Int.toNat)[k]? = some m.toNat := by rw [List.getElem?_map, m1]; rfl
              have h9 : (fill (l.map Int.toNat) x'.one).shape[k]? = some m.toNat := h0
              rw [h9] at this
              have hzk : z.shape[k] = m.toNat := by
                simp only [hzs, List.getElem_map]
                exact (Option.some.inj this).symm
              rw [hzk]
              have := g4 m (List.mem_of_getElem? m1)
              rw [Int.toNat_of_nonneg this]
              exact m2
        have hndl : nd.length = out.length := by
          rw [hdim.length_eq, List.length_map, hfz.length_eq]
        have hone : nd ≠ [] := by
          rintro rfl
          have : (fill (l.map Int.toNat) x'.one).shape = [] := List.length_eq_zero_iff.1 (by rw [hrank, ← hndl]; rfl)
          exact hlne this
        obtain ⟨c1, t', c2, c3⟩ := dimConcat_eval hdim hone
        rw [hndl] at c1 c2
        have hzn : (z.shape.map fun (n : ℕ) => (n : ℤ)).map Int.toNat = z.shape := by
          rw [List.map_map]
          conv_rhs => rw [← List.map_id z.shape]
          exact List.map_congr_left fun a _ => by simp
        have hzne : z.shape ≠ [] := by
          intro h0
          apply hone
          rw [h0] at hdim
          exact List.length_eq_zero_iff.1 hdim.length_eq
        have hnew := (eval_expand (ty := ty)).2 ⟨x', t', _, fill z.shape x'.one, g1, c2, c3, by simp,
          by rw [hzn]; exact expand_sc hsc hzne, rfl⟩
        rw [← hz] at hnew
        refine ⟨hnew, typed_same hty hv hnew ?_ ?_, rfl⟩
        · have e1 : ty.elt = ety.elt := hek
          have e2 : ety.elt = x.ty.elt := hek2
          exact e1.trans e2
        · simp only [typedL_cons]
          exact ⟨hexpL.1, c1, typedL_nil⟩
      · cases hr
    · cases hr
  · cases hr

end Verif.Rewrite
