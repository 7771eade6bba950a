import Verif.Rewrite.ElementLemmas

/-! # The patterns for a MatMul of a Reshape and for the normalizations keep results -/

namespace Verif.Rewrite

variable {V : Type} [Inhabited V] {A : Alg V} {env : ℕ → Tensor V}

/-! ### Reshape to given extents -/

/-- The element of a reshaped tensor at the same position. -/
theorem retag_get {t u : Tensor V} {s i j : List ℕ} (h : t.retag s = some u)
    (hp : rowMajor s j = rowMajor t.shape i) : u.get j = t.get i := by
  unfold Tensor.get
  rw [retag_shape h, retag_data h, hp]

omit [Inhabited V] in
theorem retag_exists {t : Tensor V} {s : List ℕ} (h : t.shape.prod = s.prod) : ∃ u, t.retag s = some u := by
  unfold Tensor.retag
  rw [dif_pos h]
  exact ⟨_, rfl⟩

/-- A request of positive extents and -1. -/
def request (l : List (Option ℕ)) : List ℤ := l.map fun o => o.elim (-1) fun v => (v : ℤ)

theorem reqDims_request {d : List ℕ} {az : Bool} : ∀ {l : List (Option ℕ)} {k : ℕ}, (∀ v, some v ∈ l → 0 < v) →
    reqDims d az k (request l) = some l
  | [], _, _ => rfl
  | o :: l, k, h => by
    have ih := reqDims_request (d := d) (az := az) (l := l) (k := k + 1) fun v hv => h v (by simp [hv])
    unfold request at ih ⊢
    rw [List.map_cons, reqDims, ih]
    cases o with
    | none => rfl
    | some v =>
      have hv := h v (by simp)
      have h1 : ¬ ((v : ℤ) = -1) := by omega
      have h4 : v ≠ 0 := by omega
      simp [h1, h4, hv, Option.elim]

theorem reshape_request {x : Tensor V} {az : Bool} {l : List (Option ℕ)} {s : List ℕ} (hp : x.shape.prod = s.prod)
    (hf : FitsDims l s) (h : ∀ v, some v ∈ l → 0 < v) (hc : l.count none ≤ 1) :
    ∃ y, reshape x az (request l) = some y ∧ x.retag s = some y := by
  obtain ⟨y, hy⟩ := retag_exists hp
  have hs := retag_shape hy
  refine ⟨y, reshape_some.2 ⟨by rw [hs]; exact hy, l, reqDims_request h, by rw [hs]; exact hf, hc, fun _ v hv => ?_⟩, hy⟩
  have := h v hv
  omega

theorem fits_some (s : List ℕ) : FitsDims (s.map some) s := by
  induction s with
  | nil => exact .nil
  | cons d s ih => exact .cons (.inr rfl) ih

/-- Reshape to positive extents. -/
theorem reshape_to {x : Tensor V} {az : Bool} {s : List ℕ} (hp : x.shape.prod = s.prod) (h : ∀ d ∈ s, 0 < d) :
    ∃ y, reshape x az (s.map fun (d : ℕ) => (d : ℤ)) = some y ∧ x.retag s = some y := by
  have := reshape_request (az := az) hp (fits_some s) (by simpa using h) (by
    rw [List.count_eq_zero.2 (by simp)]; omega)
  have e : request (s.map some) = s.map fun (d : ℕ) => (d : ℤ) := by
    unfold request
    rw [List.map_map]
    rfl
  rwa [e] at this

/-! ### MatMul of a Reshape -/

/-- The product of a stack of matrices and a matrix. -/
theorem matmul_stack {a b : Tensor V} {bt : List ℕ} {m K N : ℕ} (ha : a.shape = bt ++ [m, K]) (hb : b.shape = [K, N]) :
    ∃ z, matmul A a b = some z ∧ z.shape = bt ++ [m, N] ∧ ∀ i n, InBounds (bt ++ [m]) i → n < N →
      z.get (i ++ [n]) = sumOver A (List.range K) fun k => A.bin .mul (a.get (i ++ [k])) (b.get [k, n]) := by
  have e1 : batchOf a.shape = bt := by rw [ha]; simp [batchOf]
  have e2 : matOf a.shape = [m, K] := by rw [ha]; simp [matOf]
  have e3 : batchOf b.shape = [] := by rw [hb]; rfl
  have e4 : matOf b.shape = [K, N] := by rw [hb]; rfl
  have hbs : bshape bt [] = some bt := by rw [bshape_comm]; exact bshape_of_bto ⟨by simp, fun k hk => by simp at hk⟩
  refine ⟨_, matmul_some.2 ⟨⟨by rw [ha]; simp, by rw [hb]; simp, by rw [e2, e4]; rfl⟩, bt, by rw [e1, e3]; exact hbs, rfl⟩,
    ?_, ?_⟩
  · rw [e2, e4]
    simp
  · intro i n hi hn
    have hin : InBounds (bt ++ (matOf a.shape).dropLast ++ (matOf b.shape).tail) (i ++ [n]) := by
      rw [e2, e4]
      have : bt ++ [m, K].dropLast ++ [K, N].tail = (bt ++ [m]) ++ [N] := by simp
      rw [this, inBounds_append hi.length]
      exact ⟨hi, by simpa using hn⟩
    rw [get_build _ hin, e1, e2, e3]
    have hil := hi.length
    simp only [List.length_append, List.length_singleton] at hil
    have hsplit : ∃ p r, i = p ++ [r] ∧ p.length = bt.length := by
      refine ⟨i.take bt.length, i.getD bt.length 0, ?_, by simp [hil]⟩
      have : i.drop bt.length = [i.getD bt.length 0] := by
        rw [List.getD_eq_getElem _ _ (by omega), List.drop_eq_getElem_cons (by omega)]
        simp [List.drop_eq_nil_iff.2 (show i.length ≤ bt.length + 1 by omega)]
      rw [← this, List.take_append_drop]
    obtain ⟨p, r, rfl, hpl⟩ := hsplit
    have hpi : InBounds bt p := ((inBounds_append hpl).1 hi).1
    refine sumOver_congr fun k _ => ?_
    have t1 : (p ++ [r] ++ [n]).take bt.length = p := by simp [← hpl]
    have t2 : ((p ++ [r] ++ [n]).drop bt.length).take ([m, K].length - 1) = [r] := by simp [← hpl]
    have t3 : (p ++ [r] ++ [n]).drop (bt.length + ([m, K].length - 1)) = [n] := by
      rw [← hpl]
      have : p.length + ([m, K].length - 1) = (p ++ [r]).length := by simp
      rw [this, List.drop_left]
    rw [t1, t2, t3, bidx_self hpi]
    simp [bidx]

/-- At run time the reshaped operand has the last extent of the operand, it is not 0, and neither is an extent of the
product. -/
def SameInner (A : Alg V) (env : ℕ → Tensor V) : Ex V → Prop
  | .op o [.op p [a, s] rty, b] ty => ∀ x y z, eval A env a = some (some x) →
      eval A env (.op p [a, s] rty) = some (some y) → eval A env (.op o [.op p [a, s] rty, b] ty) = some (some z) →
      x.shape.getLastD 0 = y.shape.getLastD 0 ∧ 0 < y.shape.getLastD 0 ∧ ∀ d ∈ z.shape, 0 < d
  | _ => True

theorem fits_append {a b : List (Option ℕ)} {s t : List ℕ} (h1 : FitsDims a s) (h2 : FitsDims b t) :
    FitsDims (a ++ b) (s ++ t) := List.rel_append h1 h2

theorem fits_dropLast {a : List (Option ℕ)} {s : List ℕ} (h : FitsDims a s) : FitsDims a.dropLast s.dropLast := by
  rw [List.dropLast_eq_take, List.dropLast_eq_take, List.Forall₂.length_eq h]
  exact List.forall₂_take _ h

theorem fits_last {a : List (Option ℕ)} {s : List ℕ} (h : FitsDims a s) (hs : s ≠ []) :
    FitsDims [a.getLastD none] [s.getLastD 0] := by
  have hl := List.Forall₂.length_eq h
  have ha : a ≠ [] := by
    intro h0; subst h0; simp at hl; exact hs (List.length_eq_zero_iff.1 hl.symm)
  refine .cons ?_ .nil
  have hp := List.length_pos_iff.2 hs
  have e1 : a.getLastD none = a[s.length - 1]'(by omega) := by
    rw [List.getLastD_eq_getLast?, List.getLast?_eq_getElem?, List.getElem?_eq_getElem (by omega)]
    simp only [Option.getD_some, hl]
  have e2 : s.getLastD 0 = s[s.length - 1]'(by omega) := by
    rw [List.getLastD_eq_getLast?, List.getLast?_eq_getElem?, List.getElem?_eq_getElem (by omega)]
    rfl
  rw [e1, e2]
  exact (List.forall₂_iff_get.1 h).2 _ _ _

theorem swapReshapeMatMul_sound : SoundOn A (SameInner A) (swapReshapeMatMul A) := by
  intro env e e' hr ht hp v hv
  unfold swapReshapeMatMul at hr
  split at hr
  · rename_i az a s rty b ty
    split at hr
    · rename_i da dr db ds hda hdr hdb hds
      split at hr
      · rename_i hc
        cases hr
        simp only [Bool.and_eq_true, decide_eq_true_eq] at hc
        obtain ⟨⟨⟨⟨hl1, hl2⟩, hl3⟩, -⟩, hst⟩ := hc
        obtain ⟨y, bb, z, h1, h2, h3, rfl⟩ := eval_matmul.1 hv
        obtain ⟨x, st, l, y', g1, g2, g3, g4, g5⟩ := eval_reshape.1 h1
        cases g5
        obtain ⟨q1, q2, q3⟩ := hp x y z g1 h1 hv
        obtain ⟨k1, -⟩ := reshape_some.1 g4
        have hty := ht
        rw [typed_op] at ht
        obtain ⟨hfz, hk, hl⟩ := ht
        simp only [typedL_cons] at hl
        have hty2 := hl.1
        have hfy : FitsDims dr y.shape := typed_fits hty2 h1 dr hdr
        rw [typed_op] at hty2
        obtain ⟨-, hkr, hlr⟩ := hty2
        simp only [typedL_cons] at hlr
        have hfx : FitsDims da x.shape := typed_fits hlr.1 g1 da hda
        have hfb : FitsDims db bb.shape := typed_fits hl.2.1 h2 db hdb
        have hfz' : FitsDims ds z.shape := hfz z hv ds hds
        have hstat := fits_allStatic hfz' hst
        obtain ⟨R, K, hy⟩ := length_two (show y.shape.length = 2 by rw [← List.Forall₂.length_eq hfy]; exact hl2)
        obtain ⟨K', N, hb⟩ := length_two (show bb.shape.length = 2 by rw [← List.Forall₂.length_eq hfb]; exact hl3)
        rw [matmul_two hy hb] at h3
        split at h3
        · rename_i hKK
          subst hKK
          cases h3
          have hxl : 2 < x.shape.length := by rw [← List.Forall₂.length_eq hfx]; exact hl1
          have hxs : ∃ bt m, x.shape = bt ++ [m, K] := by
            rw [hy] at q1
            have hK : x.shape.getLastD 0 = K := by rw [q1]; rfl
            refine ⟨x.shape.take (x.shape.length - 2), x.shape.getD (x.shape.length - 2) 0, ?_⟩
            have hd : x.shape.drop (x.shape.length - 2) = [x.shape.getD (x.shape.length - 2) 0, K] := by
              rw [List.getLastD_eq_getLast?, List.getLast?_eq_getElem?, List.getElem?_eq_getElem (by omega)] at hK
              simp only [Option.getD_some] at hK
              rw [List.drop_eq_getElem_cons (by omega), List.drop_eq_getElem_cons (by omega),
                List.drop_eq_nil_iff.2 (by omega), List.getD_eq_getElem _ _ (by omega)]
              congr 2
              rw [← hK]
              congr 1
              omega
            rw [← hd, List.take_append_drop]
          obtain ⟨bt, m, hx⟩ := hxs
          obtain ⟨p, p1, p2, p3⟩ := matmul_stack (A := A) hx hb
          have hK0 : 0 < K := by rw [hy] at q2; exact q2
          have hprod : (bt ++ [m]).prod = R := by
            have := retag_prod k1
            rw [hx, hy] at this
            have e : (bt ++ [m, K]).prod = (bt ++ [m]).prod * K := by
              simp only [List.prod_append, List.prod_cons, List.prod_nil]; ring
            rw [e] at this
            simp only [List.prod_cons, List.prod_nil, Nat.mul_one] at this
            exact Nat.eq_of_mul_eq_mul_right hK0 this
          have hpp : p.shape.prod = [R, N].prod := by
            rw [p2, ← hprod]
            simp only [List.prod_append, List.prod_cons, List.prod_nil]; ring
          have hpos : ∀ d ∈ [R, N], 0 < d := q3
          obtain ⟨u, u1, u2⟩ := reshape_to (az := az != 0) hpp hpos
          have hu : u = build [R, N] fun idx => sumOver A (List.range K) fun k =>
              A.bin .mul (y.get [idx.getD 0 0, k]) (bb.get [k, idx.getD 1 0]) := by
            refine eq_build (retag_shape u2) fun i hi => ?_
            have hil := hi.length
            match i, hil with
            | [r, n], _ =>
              simp only [inBounds_cons, inBounds_nil, and_true] at hi
              have hru : r < (bt ++ [m]).prod := by rw [hprod]; exact hi.1
              have hui := unrank_inBounds hru
              rw [retag_get (i := unrank (bt ++ [m]) r ++ [n]) u2, p3 _ _ hui hi.2]
              · refine sumOver_congr fun k hk => ?_
                congr 1
                simp only [List.getD_cons_zero]
                refine (retag_get (t := x) (u := y) k1 ?_).symm
                rw [hy, hx]
                have e : bt ++ [m, K] = (bt ++ [m]) ++ [K] := by simp
                rw [e, rowMajor_append _ _ (length_unrank _ _), rowMajor_unrank hru]
                simp [rowMajor]
              · rw [p2]
                have e : bt ++ [m, N] = (bt ++ [m]) ++ [N] := by simp
                rw [e, rowMajor_append _ _ (length_unrank _ _), rowMajor_unrank hru]
                simp [rowMajor]
          have hshape : ds.map (fun d => ((d.getD 0 : ℕ) : ℤ)) = [R, N].map fun (d : ℕ) => (d : ℤ) := by
            have hzs : ds.map (fun d => d.getD 0) = [R, N] := hstat.1
            rw [← hzs, List.map_map]
            rfl
          have e1 : rty.elt = b.ty.elt ∧ ty.elt = rty.elt := hk
          have e2 : rty.elt = a.ty.elt ∧ s.ty.elt = i64 := hkr
          have hin : eval A env (.op .matmul [a, b] ⟨some (da.dropLast ++ [db.getLastD none]), a.ty.elt⟩) =
              some (some p) := eval_matmul.2 ⟨x, bb, p, g1, h2, p1, rfl⟩
          refine replaced hty hv ?_ ?_ ?_
          · refine eval_reshape.2 ⟨p, _, _, u, hin, by rw [intsConst, eval], ints_ofInts _, ?_, ?_⟩
            · rw [hshape]; exact u1
            · rw [hu]
          · have : ty.elt = a.ty.elt ∧ i64 = i64 := ⟨e1.2.trans e2.1, rfl⟩
            exact this
          · simp only [typedL_cons]
            refine ⟨typed_op.2 ⟨fun t ht => ?_, ?_, ?_⟩, typed_const, typedL_nil⟩
            · rw [hin] at ht
              cases ht
              intro ds' hds'
              cases hds'
              rw [p2]
              have e : bt ++ [m, N] = (bt ++ [m]) ++ [N] := by simp
              rw [e]
              refine fits_append ?_ ?_
              · have := fits_dropLast hfx
                rw [hx] at this
                simpa using this
              · have := fits_last hfb (by rw [hb]; simp)
                rw [hb] at this
                exact this
            · have : a.ty.elt = b.ty.elt ∧ a.ty.elt = a.ty.elt := ⟨e2.1.symm.trans e1.1, rfl⟩
              exact this
            · simp only [typedL_cons]
              exact ⟨hlr.1, hl.2.1, typedL_nil⟩
        · cases h3
      · cases hr
    · cases hr
  · cases hr

/-! ### LayerNormalization -/

theorem eval_layerNorm {ax : ℤ} {eps : ℚ} {x s b : Ex V} {ty : STy} {v : Option (Tensor V)} :
    eval A env (.op (.layerNorm ax eps) [x, s, b] ty) = some v ↔
      ∃ x' s' b' y, eval A env x = some (some x') ∧ eval A env s = some (some s') ∧ eval A env b = some b' ∧
        layerNorm A ax eps x' s' b' = some y ∧ v = some y := by
  rw [eval_op3]
  constructor
  · rintro ⟨s, t, u, z, h1, h2, h3, h4, h5⟩
    match s, t, h4 with
    | some s, some t, h4 => exact ⟨s, t, u, z, h1, h2, h3, h4, h5⟩
    | none, _, h4 => simp [sem] at h4
    | some _, none, h4 => simp [sem] at h4
  · rintro ⟨s, t, u, z, h1, h2, h3, h4, h5⟩
    exact ⟨some s, some t, u, z, h1, h2, h3, h4, h5⟩

theorem layerNorm_some {axis : ℤ} {eps : ℚ} {x sc y : Tensor V} {b : Option (Tensor V)} :
    layerNorm A axis eps x sc b = some y ↔ ∃ ax, normAxis x.shape.length axis = some ax ∧
      bshape sc.shape x.shape = some x.shape ∧ (∀ t, b = some t → bshape t.shape x.shape = some x.shape) ∧
      y = build x.shape fun idx =>
        addOpt A (A.bin .mul
          (standardize A eps (allIndices (x.shape.drop ax)) (fun j => x.get (idx.take ax ++ j)) (x.get idx))
          (sc.get (bidx sc.shape idx))) (b.map fun b => b.get (bidx b.shape idx)) := by
  unfold layerNorm
  rw [Option.bind_eq_some_iff]
  have e : (b.all fun t => bshape t.shape x.shape = some x.shape) = true ↔
      ∀ t, b = some t → bshape t.shape x.shape = some x.shape := by
    cases b <;> simp
  refine exists_congr fun ax => and_congr_right fun _ => ?_
  rw [← e]
  by_cases h : bshape sc.shape x.shape = some x.shape ∧ (b.all fun t => bshape t.shape x.shape = some x.shape) = true
  · rw [if_pos h]
    exact ⟨fun h' => by cases h'; exact ⟨h.1, h.2, rfl⟩, fun ⟨_, _, h'⟩ => by rw [h']⟩
  · rw [if_neg h]
    exact ⟨fun h' => (by cases h'), fun ⟨h1, h2, _⟩ => absurd ⟨h1, h2⟩ h⟩

/-- The added operand can be stretched to the shape of the normalization. -/
def BiasFitsNorm (A : Alg V) (env : ℕ → Tensor V) : Ex V → Prop
  | .op _ [p, c] _ => ∀ t u, eval A env p = some (some t) → eval A env c = some (some u) →
      (isNorm p = true → bshape u.shape t.shape = some t.shape) ∧
      (isNorm p = false → bshape t.shape u.shape = some u.shape)
  | _ => True
where
  /-- A LayerNormalization. -/
  isNorm : Ex V → Bool
    | .op (.layerNorm _ _) _ _ => true
    | _ => false

theorem biasIntoNorm {ax : ℤ} {eps : ℚ} {x s c : Ex V} {nty ty : STy} {v : Option (Tensor V)}
    (hb : ∀ t u, eval A env (.op (.layerNorm ax eps) [x, s, .none] nty) = some (some t) →
      eval A env c = some (some u) → bshape u.shape t.shape = some t.shape)
    (ht : Typed A env (.op (.binary .add) [.op (.layerNorm ax eps) [x, s, .none] nty, c] ty))
    (hv : eval A env (.op (.binary .add) [.op (.layerNorm ax eps) [x, s, .none] nty, c] ty) = some v) :
    eval A env (.op (.layerNorm ax eps) [x, s, c] x.ty) = some v ∧
      Typed A env (.op (.layerNorm ax eps) [x, s, c] x.ty) ∧ x.ty.elt = ty.elt := by
  obtain ⟨n, u, z, h1, h2, h3, rfl⟩ := eval_binary.1 hv
  have hbt := hb n u h1 h2
  obtain ⟨x', s', b', y, g1, g2, g3, g4, g5⟩ := eval_layerNorm.1 h1
  cases g5
  rw [eval] at g3
  cases g3
  obtain ⟨a, k1, k2, -, rfl⟩ := layerNorm_some.1 g4
  rw [binary_bto hbt] at h3
  cases h3
  rw [typed_op] at ht
  obtain ⟨-, hk, hl⟩ := ht
  simp only [typedL_cons] at hl
  obtain ⟨l1, l2, -⟩ := hl
  rw [typed_op] at l1
  obtain ⟨-, hkn, hln⟩ := l1
  simp only [typedL_cons] at hln
  have e1 : nty.elt = c.ty.elt ∧ ty.elt = nty.elt := hk
  have e2 : nty.elt = x.ty.elt := hkn
  have hnew : eval A env (.op (.layerNorm ax eps) [x, s, c] x.ty) = some (some (build x'.shape fun i =>
      A.bin .add ((build x'.shape fun idx => addOpt A (A.bin .mul
          (standardize A eps (allIndices (x'.shape.drop a)) (fun j => x'.get (idx.take a ++ j)) (x'.get idx))
          (s'.get (bidx s'.shape idx))) ((none : Option (Tensor V)).map fun b => b.get (bidx b.shape idx))).get i)
        (u.get (bidx u.shape i)))) := by
    refine eval_layerNorm.2 ⟨x', s', some u, _, g1, g2, h2, layerNorm_some.2 ⟨a, k1, k2, fun t ht => ?_, rfl⟩, ?_⟩
    · cases ht; exact hbt
    · congr 1
      refine build_congr fun i hi => ?_
      rw [get_build _ hi]
      rfl
  refine ⟨hnew, typed_op.2 ⟨fun t ht => ?_, ?_, ?_⟩, by rw [e1.2, e2]⟩
  · rw [hnew] at ht
    cases ht
    exact typed_fits (t := x') hln.1 g1
  · have : x.ty.elt = x.ty.elt := rfl
    exact this
  · simp only [typedL_cons]
    exact ⟨hln.1, hln.2.1, l2, typedL_nil⟩

theorem biasIntoLayerNorm_sound (hA : ∀ x y, A.bin .add x y = A.bin .add y x) (oneUse : Ex V → Bool) :
    SoundOn A (BiasFitsNorm A) (biasIntoLayerNorm oneUse) := by
  intro env e e' hr ht hp v hv
  unfold biasIntoLayerNorm at hr
  split at hr
  · rename_i ax eps x s b nty c ty
    split at hr
    · split at hr
      · cases hr
        exact biasIntoNorm (fun t u h1 h2 => (hp t u h1 h2).1 rfl) ht hv
      · cases hr
    · cases hr
  · rename_i c ax eps x s b nty ty hne
    have hnc : BiasFitsNorm.isNorm c = false := by
      cases c with
      | none => rfl
      | arg _ _ => rfl
      | const _ _ => rfl
      | op o as cty =>
        cases o with
        | layerNorm ax' eps' =>
          have : as.length = 3 := by
            obtain ⟨t, u, z, h1, -⟩ := eval_binary.1 hv
            rw [eval_op] at h1
            obtain ⟨vs, w, hvs, hw, -⟩ := h1
            have hl : vs.length = as.length := by
              clear hw hne hv hp ht hr
              induction as generalizing vs with
              | nil => rw [evalL_nil] at hvs; subst hvs; rfl
              | cons a as ih =>
                obtain ⟨_, ws, -, g, rfl⟩ := evalL_cons.1 hvs
                simp [ih ws g]
            rw [← hl]
            match vs, hw with
            | [some _, some _, _], _ => rfl
            | [], hw => simp [sem] at hw
            | [_], hw => simp [sem] at hw
            | [_, _], hw => simp [sem] at hw
            | _ :: _ :: _ :: _ :: _, hw => simp [sem] at hw
            | [none, _, _], hw => simp [sem] at hw
            | [some _, none, _], hw => simp [sem] at hw
          match as, this with
          | [x', s', b'], _ => exact (hne ax' eps' x' s' b' cty rfl).elim
        | _ => rfl
    split at hr
    · split at hr
      · cases hr
        have hv' : eval A env (.op (.binary .add) [.op (.layerNorm ax eps) [x, s, .none] nty, c] ty) = some v := by
          obtain ⟨x, y, z, h1, h2, h3, rfl⟩ := eval_binary.1 hv
          refine eval_binary.2 ⟨y, x, z, h2, h1, ?_, rfl⟩
          rw [binary_comm hA]
          exact h3
        have ht' : Typed A env (.op (.binary .add) [.op (.layerNorm ax eps) [x, s, .none] nty, c] ty) := by
          have hty := ht
          rw [typed_op] at ht
          obtain ⟨-, hk, hl⟩ := ht
          simp only [typedL_cons] at hl
          refine typed_same hty hv hv' ?_ ?_
          · have hk : c.ty.elt = nty.elt ∧ ty.elt = c.ty.elt := hk
            have : nty.elt = c.ty.elt ∧ ty.elt = nty.elt := ⟨hk.1.symm, hk.2.trans hk.1⟩
            exact this
          · simp only [typedL_cons]
            exact ⟨hl.2.1, hl.1, typedL_nil⟩
        exact biasIntoNorm (fun t u h1 h2 => (hp u t h2 h1).2 hnc) ht' hv'
      · cases hr
    · cases hr
  · cases hr

/-! ### InstanceNormalization -/

theorem standardize_congr {ι : Type} {eps : ℚ} {l : List ι} {f g : ι → V} {v w : V} (h : ∀ i ∈ l, f i = g i)
    (hv : v = w) : standardize A eps l f v = standardize A eps l g w := by
  have hm : meanOver A l f = meanOver A l g := by
    unfold meanOver
    rw [sumOver_congr h]
  unfold standardize
  rw [hm, hv]
  congr 3
  unfold meanOver
  congr 1
  exact sumOver_congr fun i hi => by rw [h i hi]

theorem eval_three {o : Op} {x s b : Ex V} {ty : STy} {v : Option (Tensor V)}
    (f : Tensor V → Tensor V → Tensor V → Option (Tensor V)) (h : ∀ x s b, sem A o [some x, some s, some b] = f x s b)
    (h' : ∀ x s b, sem A o [x, s, b] ≠ none → x.isSome ∧ s.isSome ∧ b.isSome) :
    eval A env (.op o [x, s, b] ty) = some v ↔
      ∃ x' s' b' y, eval A env x = some (some x') ∧ eval A env s = some (some s') ∧ eval A env b = some (some b') ∧
        f x' s' b' = some y ∧ v = some y := by
  rw [eval_op3]
  constructor
  · rintro ⟨s, t, u, z, h1, h2, h3, h4, h5⟩
    obtain ⟨k1, k2, k3⟩ := h' s t u (by rw [h4]; simp)
    obtain ⟨s, rfl⟩ := Option.isSome_iff_exists.1 k1
    obtain ⟨t, rfl⟩ := Option.isSome_iff_exists.1 k2
    obtain ⟨u, rfl⟩ := Option.isSome_iff_exists.1 k3
    rw [h] at h4
    exact ⟨s, t, u, z, h1, h2, h3, h4, h5⟩
  · rintro ⟨s, t, u, z, h1, h2, h3, h4, h5⟩
    exact ⟨some s, some t, some u, z, h1, h2, h3, by rw [h]; exact h4, h5⟩

theorem eval_instanceNorm {eps : ℚ} {x s b : Ex V} {ty : STy} {v : Option (Tensor V)} :
    eval A env (.op (.instanceNorm eps) [x, s, b] ty) = some v ↔
      ∃ x' s' b' y, eval A env x = some (some x') ∧ eval A env s = some (some s') ∧ eval A env b = some (some b') ∧
        instanceNorm A eps x' s' b' = some y ∧ v = some y :=
  eval_three _ (fun _ _ _ => rfl) fun x s b h => by
    match x, s, b, h with
    | some _, some _, some _, _ => exact ⟨rfl, rfl, rfl⟩
    | none, _, _, h => simp [sem] at h
    | some _, none, _, h => simp [sem] at h
    | some _, some _, none, h => simp [sem] at h

theorem eval_groupNorm {v18 : Bool} {g : ℕ} {eps : ℚ} {x s b : Ex V} {ty : STy} {v : Option (Tensor V)} :
    eval A env (.op (.groupNorm v18 g eps) [x, s, b] ty) = some v ↔
      ∃ x' s' b' y, eval A env x = some (some x') ∧ eval A env s = some (some s') ∧ eval A env b = some (some b') ∧
        groupNorm A v18 g eps x' s' b' = some y ∧ v = some y :=
  eval_three _ (fun _ _ _ => rfl) fun x s b h => by
    match x, s, b, h with
    | some _, some _, some _, _ => exact ⟨rfl, rfl, rfl⟩
    | none, _, _, h => simp [sem] at h
    | some _, none, _, h => simp [sem] at h
    | some _, some _, none, h => simp [sem] at h

/-- A parameter of every channel, in the form the replacement uses, has the recorded type. -/
theorem param_typed {e : Ex V} {t : Tensor V} {c k : ℕ} {ds : List (Option ℕ)} {d : DT} (ht : Typed A env e)
    (he : eval A env e = some (some t)) (hs : t.shape = [c]) (hd : e.ty.elt = d)
    (hf : FitsDims ds (chan c k)) :
    Typed A env (.op .unsqueeze [e, intsConst A (nToM 1 k)] ⟨some ds, d⟩) := by
  refine typed_op.2 ⟨fun u hu => ?_, ?_, ?_⟩
  · obtain ⟨w, g1, g2, -⟩ := eval_unsqueeze_vec (k := k) (ty := ⟨some ds, d⟩) he hs
    rw [g1] at hu
    cases hu
    intro ds' hds'
    cases hds'
    rw [g2]
    exact hf
  · have : d = e.ty.elt := hd.symm
    exact this
  · simp only [typedL_cons]
    exact ⟨ht, typed_const, typedL_nil⟩

theorem fits_ones : ∀ k : ℕ, FitsDims (List.replicate k (some 1)) (List.replicate k 1)
  | 0 => .nil
  | k + 1 => .cons (.inr rfl) (fits_ones k)

theorem two_axes {s : List ℕ} (h : 2 < s.length) : ∃ n c rest, s = n :: c :: rest := by
  match s, h with
  | n :: c :: rest, _ => exact ⟨n, c, rest, rfl⟩

theorem removeInstanceNorm_sound : SoundOn A (fun _ => SameElt) (removeInstanceNorm A) := by
  intro env e e' hr ht hp v hv
  unfold removeInstanceNorm at hr
  split at hr
  · rename_i eps x s b ty
    split at hr
    · cases hr
    · rename_i ds hds
      split at hr
      · rename_i hlen
        cases hr
        obtain ⟨x', s', b', y, h1, h2, h3, h4, rfl⟩ := eval_instanceNorm.1 hv
        have hty := ht
        rw [typed_op] at ht
        obtain ⟨-, hk, hl⟩ := ht
        simp only [typedL_cons] at hl
        obtain ⟨l1, l2, l3, -⟩ := hl
        have p1 : x.ty.elt = ty.elt := hp x (by simp)
        have p2 : s.ty.elt = ty.elt := hp s (by simp)
        have p3 : b.ty.elt = ty.elt := hp b (by simp)
        have hfx : FitsDims ds x'.shape := typed_fits l1 h1 ds hds
        have hxl := List.Forall₂.length_eq hfx
        unfold instanceNorm at h4
        split at h4
        · rename_i hc
          cases h4
          obtain ⟨c1, c2, c3⟩ := hc
          obtain ⟨n, c, rest, hx⟩ := two_axes c1
          rw [hx] at c1 c2 c3 hxl hfx
          have c2 : s'.shape = [c] := c2
          have c3 : b'.shape = [c] := c3
          have hk2 : ds.length - 2 = rest.length := by rw [hxl]; simp
          rw [hk2]
          obtain ⟨u, u1, u2, u3⟩ := eval_unsqueeze_vec (k := rest.length)
            (ty := ⟨some (ds.getD 1 none :: List.replicate rest.length (some 1)), x.ty.elt⟩) h2 c2
          obtain ⟨w, w1, w2, w3⟩ := eval_unsqueeze_vec (k := rest.length)
            (ty := ⟨some (ds.getD 1 none :: List.replicate rest.length (some 1)), x.ty.elt⟩) h3 c3
          have hfp : FitsDims (ds.getD 1 none :: List.replicate rest.length (some 1)) (chan c rest.length) := by
            refine .cons ?_ (fits_ones _)
            have := (List.forall₂_iff_get.1 hfx).2 1 (by rw [hxl]; simp) (by simp)
            rw [List.getD_eq_getElem _ _ (by rw [hxl]; simp)]
            exact this
          refine replaced hty hv ?_ ?_ ?_
          · refine eval_layerNorm.2 ⟨x', u, some w, _, h1, u1, w1, layerNorm_some.2 ⟨2, ?_, ?_, ?_, rfl⟩, ?_⟩
            · rw [hx]
              have : (2 : ℤ) < (rest.length + 1 + 1 : ℕ) := by
                simp only [List.length_cons] at c1; omega
              unfold normAxis
              rw [if_pos ⟨by omega, by simpa using this⟩]
              rfl
            · rw [u2, hx]
              exact bshape_of_bto (bto_chan (pre := [n]) rfl)
            · intro t ht
              cases ht
              rw [w2, hx]
              exact bshape_of_bto (bto_chan (pre := [n]) rfl)
            · congr 1
              rw [hx]
              refine build_congr fun i hi => ?_
              match i, hi.length with
              | i0 :: i1 :: ir, hil =>
                simp only [inBounds_cons] at hi
                have e1 := chan_get (t := u) (pre := [i0]) (j := i1) (rest := ir) u2 (by simpa using hil) hi.2.1
                have e2 := chan_get (t := w) (pre := [i0]) (j := i1) (rest := ir) w2 (by simpa using hil) hi.2.1
                simp only [List.singleton_append] at e1 e2
                simp only [Option.map_some, addOpt]
                rw [e1, e2, u3, w3, ← vec_get c2, ← vec_get c3]
                rfl
          · have : ty.elt = x.ty.elt := p1.symm
            exact this
          · simp only [typedL_cons]
            exact ⟨l1, param_typed l2 h2 c2 (p2.trans p1.symm) hfp, param_typed l3 h3 c3 (p3.trans p1.symm) hfp,
              typedL_nil⟩
        · cases h4
      · cases hr
  · cases hr

/-! ### GroupNormalization -/

theorem eval_shape {x : Ex V} {t : Tensor V} {start : ℤ} {stop : Option ℤ} {ty : STy}
    (h : eval A env x = some (some t)) :
    eval A env (.op (.shape start stop) [x] ty) = some (some (ofInts A (((t.shape.take (clampPos t.shape.length
        (stop.getD t.shape.length))).drop (clampPos t.shape.length start)).map fun (d : ℕ) => (d : ℤ)))) :=
  eval_op1.2 ⟨some t, _, h, rfl, rfl⟩

theorem flatMap_ofInts (ls : List (List ℤ)) :
    ((ls.map (ofInts A)).flatMap fun t => t.data) = ls.flatten.map A.ofInt := by
  induction ls with
  | nil => rfl
  | cons l ls ih =>
    rw [List.map_cons, List.flatMap_cons, ih, List.flatten_cons, List.map_append]
    rfl

/-- The concatenation of vectors of integers. -/
theorem concat_ofInts {l : List ℤ} {ls : List (List ℤ)} :
    concat ((l :: ls).map (ofInts A)) 0 = some (ofInts A (l :: ls).flatten) := by
  have hlen : ∀ t ∈ (l :: ls).map (ofInts A), t.shape.length = 1 := by
    intro t ht
    obtain ⟨k, -, rfl⟩ := List.mem_map.1 ht
    rfl
  obtain ⟨y, hy⟩ : ∃ y, concat ((l :: ls).map (ofInts A)) 0 = some y := by
    refine ⟨_, concat_some.2 ⟨ofInts A l, ls.map (ofInts A), 0, rfl, rfl, fun u hu => ?_, rfl⟩⟩
    obtain ⟨k, -, rfl⟩ := List.mem_map.1 hu
    rfl
  rw [hy]
  obtain ⟨h1, h2⟩ := concat_one hy hlen
  rw [flatMap_ofInts] at h1 h2
  obtain ⟨s, d, w⟩ := y
  simp only at h1 h2
  subst h1 h2
  simp only [ofInts, Option.some.injEq]
  congr 2
  rw [List.length_map]

theorem groupNorm_some {v18 : Bool} {g : ℕ} {eps : ℚ} {x s b y : Tensor V} {n c : ℕ} {rest : List ℕ}
    (hx : x.shape = n :: c :: rest) : groupNorm A v18 g eps x s b = some y ↔
    (rest ≠ [] ∧ 0 < g ∧ g ∣ c ∧ s.shape = [if v18 then g else c] ∧ b.shape = [if v18 then g else c]) ∧
      y = build (n :: c :: rest) fun idx =>
        A.bin .add (A.bin .mul
          (standardize A eps (allIndices ((c / g) :: rest))
            (fun j => x.get (idx.getD 0 0 :: (idx.getD 1 0 / (c / g) * (c / g) + j.getD 0 0) :: j.drop 1)) (x.get idx))
          (s.get [if v18 then idx.getD 1 0 / (c / g) else idx.getD 1 0]))
          (b.get [if v18 then idx.getD 1 0 / (c / g) else idx.getD 1 0]) := by
  unfold groupNorm
  rw [hx]
  simp only [List.getD_cons_succ, List.getD_cons_zero, List.drop_succ_cons, List.drop_zero]
  have e : 2 < (n :: c :: rest).length ↔ rest ≠ [] := by
    cases rest <;> simp
  rw [← e]
  by_cases h : 2 < (n :: c :: rest).length ∧ 0 < g ∧ g ∣ c ∧ s.shape = [if v18 then g else c] ∧
      b.shape = [if v18 then g else c]
  · rw [if_pos h]
    exact ⟨fun h' => ⟨h, (Option.some.inj h').symm⟩, fun h' => by rw [h'.2]⟩
  · rw [if_neg h]
    exact ⟨fun h' => (by cases h'), fun h' => absurd h'.1 h⟩

/-- The extents of the data are not 0. -/
def NoEmptyData (A : Alg V) (env : ℕ → Tensor V) : Ex V → Prop
  | .op _ (x :: _) _ => ∀ t, eval A env x = some (some t) → ∀ d ∈ t.shape, 0 < d
  | _ => True

/-- The parameters are those of the groups, the operands have one element type and the data is not empty. -/
def GroupVersion18 (A : Alg V) (env : ℕ → Tensor V) : Ex V → Prop
  | .op (.groupNorm v18 ng eps) as ty => v18 = true ∧ SameElt (.op (.groupNorm v18 ng eps) as ty) ∧
      NoEmptyData A env (.op (.groupNorm v18 ng eps) as ty)
  | _ => True

/-- A group normalization is a layer normalization of the data with the channel axis split. -/
theorem group_as_layer {x xr s b y : Tensor V} {n c g q : ℕ} {rest : List ℕ} {u w : Tensor V} {eps : ℚ}
    (hx : x.shape = n :: c :: rest) (hc : c = g * q) (hr : x.retag (n :: g :: q :: rest) = some xr)
    (hq : 0 < q) (hg : 0 < g) (hu : u.shape = chan g (rest.length + 1)) (hw : w.shape = chan g (rest.length + 1))
    (hus : u.data = s.data) (hwb : w.data = b.data) (hy : groupNorm A true g eps x s b = some y) :
    ∃ z, layerNorm A 2 eps xr u (some w) = some z ∧ z.shape = n :: g :: q :: rest ∧
      z.retag (n :: c :: rest) = some y := by
  obtain ⟨⟨h1, -, h2, h3, h4⟩, rfl⟩ := (groupNorm_some hx).1 hy
  simp only [if_true] at h3 h4
  have hxr := retag_shape hr
  have hcq : c / g = q := by rw [hc, Nat.mul_div_cancel_left _ hg]
  have hl : normAxis xr.shape.length 2 = some 2 := by
    rw [hxr]
    unfold normAxis
    rw [if_pos ⟨by omega, by simp only [List.length_cons]; omega⟩]
    rfl
  refine ⟨_, layerNorm_some.2 ⟨2, hl, ?_, ?_, rfl⟩, hxr, ?_⟩
  · rw [hu, hxr]
    exact bshape_of_bto (bto_chan (pre := [n]) (by simp))
  · intro t ht
    cases ht
    rw [hw, hxr]
    exact bshape_of_bto (bto_chan (pre := [n]) (by simp))
  · have hprod : (n :: g :: q :: rest).prod = (n :: c :: rest).prod := by
      simp only [List.prod_cons, hc]; ring
    obtain ⟨z, hz⟩ := retag_exists (t := build xr.shape fun idx =>
        addOpt A (A.bin .mul
          (standardize A eps (allIndices (xr.shape.drop 2)) (fun j => xr.get (idx.take 2 ++ j)) (xr.get idx))
          (u.get (bidx u.shape idx))) ((some w).map fun b => b.get (bidx b.shape idx))) (s := n :: c :: rest)
        (by rw [build_shape, hxr]; exact hprod)
    rw [hz]
    congr 1
    refine eq_build (retag_shape hz) fun i hi => ?_
    match i, hi.length with
    | i0 :: i1 :: ir, hil =>
      simp only [inBounds_cons] at hi
      obtain ⟨b0, b1, b2⟩ := hi
      have hlt : i1 / q < g := by
        rw [Nat.div_lt_iff_lt_mul hq, ← hc]; exact b1
      have hmod : i1 % q < q := Nat.mod_lt _ hq
      have hpos : ∀ a j r, rowMajor (n :: g :: q :: rest) (a :: i1 / q :: j :: r) =
          rowMajor x.shape (a :: (i1 / q * q + j) :: r) := by
        intro a j r
        rw [hx]
        simp only [rowMajor, List.prod_cons, hc]
        ring
      have hself : i1 / q * q + i1 % q = i1 := Nat.div_add_mod' _ _
      have hin : InBounds xr.shape (i0 :: i1 / q :: i1 % q :: ir) := by
        rw [hxr]
        simp only [inBounds_cons]
        exact ⟨b0, hlt, hmod, b2⟩
      rw [retag_get (i := i0 :: i1 / q :: i1 % q :: ir) hz, get_build _ hin]
      · have hil' : (i1 % q :: ir).length = rest.length + 1 := by
          simp only [List.length_cons] at hil ⊢; omega
        have e1 := chan_get (t := u) (pre := [i0]) (j := i1 / q) (rest := i1 % q :: ir) hu hil' hlt
        have e2 := chan_get (t := w) (pre := [i0]) (j := i1 / q) (rest := i1 % q :: ir) hw hil' hlt
        simp only [List.singleton_append] at e1 e2
        simp only [Option.map_some, addOpt, if_true, List.getD_cons_succ, List.getD_cons_zero, hcq]
        rw [e1, e2, hus, hwb, ← vec_get h3, ← vec_get h4, hxr]
        congr 2
        refine standardize_congr (fun j hj => ?_) ?_
        · have hj := mem_allIndices.1 hj
          match j, hj.length with
          | j0 :: jr, _ => exact retag_get hr (hpos i0 j0 jr)
        · refine retag_get hr ?_
          rw [hpos, hself]
      · rw [build_shape, hxr, hpos, hself, hx]

theorem removeGroupNorm_sound : SoundOn A (GroupVersion18 A) (removeGroupNorm A) := by
  intro env e e' hr ht hp v hv
  unfold removeGroupNorm at hr
  split at hr
  · rename_i v18 ng eps x s b ty
    split at hr
    · cases hr
    · rename_i ds hds
      split at hr
      · rename_i hlen
        split at hr
        · cases hr
        · rename_i hdiv
          cases hr
          obtain ⟨rfl, hse, hne⟩ := hp
          obtain ⟨x', s', b', y, h1, h2, h3, h4, rfl⟩ := eval_groupNorm.1 hv
          have hty := ht
          rw [typed_op] at ht
          obtain ⟨-, hk, hl⟩ := ht
          simp only [typedL_cons] at hl
          obtain ⟨l1, l2, l3, -⟩ := hl
          have p1 : x.ty.elt = ty.elt := hse x (by simp)
          have p2 : s.ty.elt = ty.elt := hse s (by simp)
          have p3 : b.ty.elt = ty.elt := hse b (by simp)
          have hfx : FitsDims ds x'.shape := typed_fits l1 h1 ds hds
          have hxl := List.Forall₂.length_eq hfx
          obtain ⟨n, c, rest, hx⟩ := two_axes (hxl ▸ hlen)
          have hpos := hne x' h1
          rw [hx] at hpos hxl hfx
          obtain ⟨⟨c1, c2, c3, c4, c5⟩, hy⟩ := (groupNorm_some hx).1 h4
          obtain ⟨q, rfl⟩ := c3
          simp only [if_true] at c4 c5
          have hcpos : 0 < ng * q := hpos _ (by simp)
          have hq : 0 < q := Nat.pos_of_mul_pos_left hcpos
          have hn : 0 < n := hpos _ (by simp)
          have hrest : ∀ d ∈ rest, 0 < d := fun d hd => hpos d (by simp [hd])
          have hdl : ds.length = rest.length + 2 := by rw [hxl]; simp
          have hg1 : ds.length - 1 = rest.length + 1 := by omega
          have hg2 : ds.length - 2 = rest.length := by omega
          obtain ⟨d0, d1, dr, rfl⟩ : ∃ d0 d1 dr, ds = d0 :: d1 :: dr := by
            match ds, hlen with
            | d0 :: d1 :: dr, _ => exact ⟨d0, d1, dr, rfl⟩
          simp only [List.getD_cons_zero, List.getD_cons_succ, List.drop_succ_cons, List.drop_zero] at hdiv ⊢
          unfold groupParam
          simp only [if_true]
          rw [hg1]
          have hfp : FitsDims (some ng :: List.replicate (rest.length + 1) (some 1)) (chan ng (rest.length + 1)) :=
            .cons (.inr rfl) (fits_ones _)
          obtain ⟨u, u1, u2, u3⟩ := eval_unsqueeze_vec (k := rest.length + 1)
            (ty := ⟨some (some ng :: List.replicate (rest.length + 1) (some 1)), x.ty.elt⟩) h2 c4
          obtain ⟨w, w1, w2, w3⟩ := eval_unsqueeze_vec (k := rest.length + 1)
            (ty := ⟨some (some ng :: List.replicate (rest.length + 1) (some 1)), x.ty.elt⟩) h3 c5
          -- the request of the first Reshape
          have hreq : ∃ q1, eval A env (.op (.concat 0) [.op (.shape 0 (some 1)) [x] ⟨some [some 1], i64⟩,
              intsConst A [(ng : ℤ), -1], .op (.shape 2 none) [x] ⟨some [some ((d0 :: d1 :: dr).length - 2)], i64⟩]
              ⟨some [some ((d0 :: d1 :: dr).length + 1)], i64⟩) = some (some q1) ∧
              q1 = ofInts A (request (some n :: some ng :: none :: rest.map some)) := by
            refine ⟨_, eval_concat.2 ⟨[_, _, _], _, .cons (eval_shape h1) (.cons (by rw [intsConst, eval])
              (.cons (eval_shape h1) .nil)), ?_, rfl⟩, rfl⟩
            have e1 : ((x'.shape.take (clampPos x'.shape.length ((some (1 : ℤ)).getD x'.shape.length))).drop
                (clampPos x'.shape.length 0)).map (fun (d : ℕ) => (d : ℤ)) = [(n : ℤ)] := by
              have k1 : clampPos x'.shape.length ((some (1 : ℤ)).getD x'.shape.length) = 1 := by
                rw [hx]; simp only [clampPos, Option.getD_some, List.length_cons]; omega
              have k2 : clampPos x'.shape.length 0 = 0 := by
                simp only [clampPos]; omega
              rw [k1, k2, hx]
              rfl
            have e2 : ((x'.shape.take (clampPos x'.shape.length ((none : Option ℤ).getD x'.shape.length))).drop
                (clampPos x'.shape.length 2)).map (fun (d : ℕ) => (d : ℤ)) = rest.map fun (d : ℕ) => (d : ℤ) := by
              have k1 : clampPos x'.shape.length ((none : Option ℤ).getD x'.shape.length) = x'.shape.length := by
                simp only [clampPos, Option.getD_none]; omega
              have k2 : clampPos x'.shape.length 2 = 2 := by
                rw [hx]; simp only [clampPos, List.length_cons]; omega
              rw [k1, k2, List.take_length, hx]
              rfl
            rw [e1, e2]
            have := concat_ofInts (A := A) (l := [(n : ℤ)]) (ls := [[(ng : ℤ), -1], rest.map fun (d : ℕ) => (d : ℤ)])
            simp only [List.map_cons, List.map_nil] at this
            rw [this]
            congr 1
            simp [request, List.map_map, Function.comp_def]
          obtain ⟨q1, q2, rfl⟩ := hreq
          have hfq : FitsDims (some n :: some ng :: none :: rest.map some) (n :: ng :: q :: rest) :=
            .cons (.inr rfl) (.cons (.inr rfl) (.cons (.inl rfl) (fits_some rest)))
          obtain ⟨xr, r1, r2⟩ := reshape_request (x := x') (az := false)
            (l := some n :: some ng :: none :: rest.map some) (s := n :: ng :: q :: rest)
            (by rw [hx]; simp only [List.prod_cons]; ring) hfq
            (by
              intro v hv
              simp only [List.mem_cons, Option.some.injEq, List.mem_map, reduceCtorEq, false_or, exists_eq_right] at hv
              rcases hv with rfl | rfl | hv
              · exact hn
              · exact c2
              · exact hrest v hv)
            (by
              have : (rest.map (some : ℕ → Option ℕ)).count none = 0 := List.count_eq_zero.2 (by simp)
              simp [List.count_cons, this])
          obtain ⟨z, z1, z2, z3⟩ := group_as_layer hx rfl r2 hq c2 u2 w2 u3 w3 h4
          have hxy : x'.shape.map (fun (d : ℕ) => (d : ℤ)) = (n :: (ng * q) :: rest).map fun (d : ℕ) => (d : ℤ) := by
            rw [hx]
          obtain ⟨y', y1, y2⟩ := reshape_to (x := z) (az := false) (s := n :: (ng * q) :: rest)
            (by rw [z2]; simp only [List.prod_cons]; ring) hpos
          have hyy : y' = y := by
            rw [z3] at y2
            exact (Option.some.inj y2).symm
          subst hyy
          have hshape : eval A env (.op (.shape 0 none) [x] ⟨some [some (d0 :: d1 :: dr).length], i64⟩) =
              some (some (ofInts A ((n :: (ng * q) :: rest).map fun (d : ℕ) => (d : ℤ)))) := by
            rw [eval_shape h1]
            have k1 : clampPos x'.shape.length ((none : Option ℤ).getD x'.shape.length) = x'.shape.length := by
              simp only [clampPos, Option.getD_none]; omega
            have k2 : clampPos x'.shape.length 0 = 0 := by
              simp only [clampPos]; omega
            rw [k1, k2, List.take_length, hx]
            rfl
          have hfl : FitsDims (d0 :: some ng :: d1.map (· / ng) :: dr) (n :: ng :: q :: rest) := by
            cases hfx with
            | cons f0 hfx =>
              cases hfx with
              | cons f1 hfx =>
                refine .cons f0 (.cons (.inr rfl) (.cons ?_ hfx))
                rcases f1 with rfl | rfl
                · exact .inl rfl
                · right
                  simp [Nat.mul_div_cancel_left _ c2]
          have hin : eval A env (.op (.reshape 0) [x, .op (.concat 0) [.op (.shape 0 (some 1)) [x] ⟨some [some 1], i64⟩,
              intsConst A [(ng : ℤ), -1], .op (.shape 2 none) [x] ⟨some [some ((d0 :: d1 :: dr).length - 2)], i64⟩]
              ⟨some [some ((d0 :: d1 :: dr).length + 1)], i64⟩]
              ⟨some (d0 :: some ng :: d1.map (· / ng) :: dr), x.ty.elt⟩) = some (some xr) :=
            eval_reshape.2 ⟨x', _, _, xr, h1, q2, ints_ofInts _, r1, rfl⟩
          refine replaced hty hv ?_ ?_ ?_
          · exact eval_reshape.2 ⟨z, _, _, y', eval_layerNorm.2 ⟨xr, u, some w, z, hin, u1, w1, z1, rfl⟩, hshape,
              ints_ofInts _, y1, rfl⟩
          · have : ty.elt = x.ty.elt ∧ i64 = i64 := ⟨p1.symm, rfl⟩
            exact this
          · have hsh : ∀ (a : ℤ) (o : Option ℤ) (k : ℕ), (∀ t, eval A env (.op (.shape a o) [x] ⟨some [some k], i64⟩) =
                some (some t) → t.shape = [k]) → Typed A env (.op (.shape a o) [x] ⟨some [some k], i64⟩) := by
              intro a o k hk
              refine typed_op.2 ⟨fun t ht => ?_, rfl, ?_⟩
              · intro ds' hds'
                cases hds'
                rw [hk t ht]
                exact .cons (.inr rfl) .nil
              · simp only [typedL_cons]
                exact ⟨l1, typedL_nil⟩
            have hs1 : Typed A env (.op (.shape 0 (some 1)) [x] ⟨some [some 1], i64⟩) := hsh _ _ _ fun t ht => by
              rw [eval_shape h1] at ht
              cases ht
              have k1 : clampPos x'.shape.length ((some (1 : ℤ)).getD x'.shape.length) = 1 := by
                rw [hx]; simp only [clampPos, Option.getD_some, List.length_cons]; omega
              have k2 : clampPos x'.shape.length 0 = 0 := by
                simp only [clampPos]; omega
              rw [k1, k2, hx]
              rfl
            have hs2 : Typed A env (.op (.shape 2 none) [x] ⟨some [some ((d0 :: d1 :: dr).length - 2)], i64⟩) :=
              hsh _ _ _ fun t ht => by
                rw [eval_shape h1] at ht
                cases ht
                have k1 : clampPos x'.shape.length ((none : Option ℤ).getD x'.shape.length) = x'.shape.length := by
                  simp only [clampPos, Option.getD_none]; omega
                have k2 : clampPos x'.shape.length 2 = 2 := by
                  rw [hx]; simp only [clampPos, List.length_cons]; omega
                rw [k1, k2, List.take_length, hx, hxl]
                simp [ofInts]
            have hs3 : Typed A env (.op (.shape 0 none) [x] ⟨some [some (d0 :: d1 :: dr).length], i64⟩) :=
              hsh _ _ _ fun t ht => by
                rw [hshape] at ht
                cases ht
                rw [hxl]
                simp [ofInts]
            simp only [typedL_cons]
            refine ⟨typed_op.2 ⟨fun t ht => ?_, ?_, ?_⟩, hs3, typedL_nil⟩
            · rw [eval_layerNorm.2 ⟨xr, u, some w, z, hin, u1, w1, z1, rfl⟩] at ht
              cases ht
              intro ds' hds'
              cases hds'
              rw [z2]
              exact hfl
            · have : x.ty.elt = x.ty.elt := rfl
              exact this
            · simp only [typedL_cons]
              refine ⟨typed_op.2 ⟨fun t ht => ?_, ?_, ?_⟩, param_typed l2 h2 c4 (p2.trans p1.symm) hfp,
                param_typed l3 h3 c5 (p3.trans p1.symm) hfp, typedL_nil⟩
              · rw [hin] at ht
                cases ht
                intro ds' hds'
                cases hds'
                rw [retag_shape r2]
                exact hfl
              · have : x.ty.elt = x.ty.elt ∧ i64 = i64 := ⟨rfl, rfl⟩
                exact this
              · simp only [typedL_cons]
                refine ⟨l1, typed_op.2 ⟨fun t ht => ?_, ?_, ?_⟩, typedL_nil⟩
                · rw [q2] at ht
                  cases ht
                  intro ds' hds'
                  cases hds'
                  refine .cons (.inr ?_) .nil
                  rw [hxl]
                  simp [request]
                · intro a ha
                  simp only [List.map_cons, List.map_nil, List.mem_cons, List.not_mem_nil, or_false] at ha
                  rcases ha with rfl | rfl | rfl <;> rfl
                · simp only [typedL_cons]
                  exact ⟨hs1, typed_const, hs2, typedL_nil⟩
      · cases hr
  · cases hr

end Verif.Rewrite
