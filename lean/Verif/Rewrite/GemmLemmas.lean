import Verif.Rewrite.ArithSem

/-! # The patterns that build or scale matrix products keep results -/

namespace Verif.Rewrite

variable {V : Type} [Inhabited V] {A : Alg V} {env : ℕ → Tensor V}

/-! ### Gemm -/

theorem gemm_some {al be : ℚ} {ta tb : Bool} {a b y : Tensor V} {c : Option (Tensor V)} :
    gemm A al be ta tb a b c = some y ↔ ∃ p q r s, a.shape = [p, q] ∧ b.shape = [r, s] ∧
      (if ta then p else q) = (if tb then s else r) ∧
      (∀ t, c = some t → bshape t.shape [if ta then q else p, if tb then r else s] =
        some [if ta then q else p, if tb then r else s]) ∧
      y = build [if ta then q else p, if tb then r else s] fun idx =>
        addOpt A (A.bin .mul (A.ofRat al) (sumOver A (List.range (if ta then p else q)) fun k =>
          A.bin .mul (a.get (if ta then [k, idx.getD 0 0] else [idx.getD 0 0, k]))
            (b.get (if tb then [idx.getD 1 0, k] else [k, idx.getD 1 0]))))
          (c.map fun c => A.bin .mul (A.ofRat be) (c.get (bidx c.shape idx))) := by
  unfold gemm
  constructor
  · intro h
    split at h
    · rename_i p q r s ha hb
      by_cases h1 : (if ta then p else q) = (if tb then s else r)
      · rw [if_neg (not_not.2 h1)] at h
        by_cases h2 : c.any (fun c => bshape c.shape [if ta then q else p, if tb then r else s] ≠
            some [if ta then q else p, if tb then r else s]) = true
        · rw [if_pos h2] at h; cases h
        · rw [if_neg h2] at h
          cases h
          refine ⟨p, q, r, s, ha, hb, h1, ?_, rfl⟩
          rintro t rfl
          simpa using h2
      · rw [if_pos h1] at h; cases h
    · cases h
  · rintro ⟨p, q, r, s, ha, hb, h1, h2, rfl⟩
    rw [ha, hb]
    simp only
    rw [if_neg (not_not.2 h1), if_neg]
    cases c with
    | none => simp
    | some t => simp [h2 t rfl]

/-- The product of two matrices. -/
theorem matmul_two {a b : Tensor V} {p q r s : ℕ} (ha : a.shape = [p, q]) (hb : b.shape = [r, s]) :
    matmul A a b = if q = r then some (build [p, s] fun idx =>
      sumOver A (List.range q) fun k => A.bin .mul (a.get [idx.getD 0 0, k]) (b.get [k, idx.getD 1 0])) else none := by
  unfold matmul
  rw [ha, hb]
  simp only [matOf, batchOf, List.length_cons, List.length_nil, Nat.zero_add, Nat.reduceAdd, Nat.sub_self,
    List.drop_zero, List.take_zero, List.getLastD_cons, List.getLastD_nil, List.headD_cons, reduceCtorEq, false_or]
  by_cases h : q = r
  · rw [if_neg (not_not.2 h), if_pos h]
    have : bshape [] [] = some [] := rfl
    rw [this, Option.map_some]
    congr 1
    simp only [List.nil_append, List.dropLast, List.tail_cons, List.singleton_append, List.length_nil]
    refine build_congr fun i hi => ?_
    have hl := hi.length
    match i, hl with
    | [i, j], _ =>
      refine sumOver_congr fun k _ => ?_
      simp [bidx]
  · rw [if_pos h, if_neg h]

/-- The second operand of an addition can be stretched to the shape of the first one. -/
def BiasFits (A : Alg V) (env : ℕ → Tensor V) : Ex V → Prop
  | .op _ [p, c] _ => ∀ t u, eval A env p = some (some t) → eval A env c = some (some u) →
      bshape u.shape t.shape = some t.shape
  | _ => True

theorem rank?_length {e : Ex V} {n : ℕ} (h : rank? e = some n) (ht : Typed A env e) {t : Tensor V}
    (he : eval A env e = some (some t)) : t.shape.length = n := by
  unfold rank? at h
  obtain ⟨ds, h1, h2⟩ := Option.map_eq_some_iff.1 h
  rw [← h2]
  exact (List.Forall₂.length_eq (typed_fits ht he ds h1)).symm

theorem length_two {s : List ℕ} (h : s.length = 2) : ∃ p q, s = [p, q] := by
  match s, h with
  | [p, q], _ => exact ⟨p, q, rfl⟩

/-- An element-wise operator whose second operand is stretched. -/
theorem binary_bto {f : V → V → V} {a b : Tensor V} (h : bshape b.shape a.shape = some a.shape) :
    binary f a b = some (build a.shape fun i => f (a.get i) (b.get (bidx b.shape i))) := by
  unfold binary
  rw [bshape_comm, h, Option.map_some]
  congr 1
  exact build_congr fun i hi => by rw [bidx_self hi]

theorem mulAddToGemm_sound [CommRing V] (hA : RingAlg A) (oneUse : Ex V → Bool) :
    SoundOn A (BiasFits A) (mulAddToGemm oneUse) := by
  intro env e e' hr ht hp v hv
  unfold mulAddToGemm at hr
  split at hr
  · rename_i a b mty c ty
    split at hr
    · rename_i hc
      cases hr
      simp only [Bool.and_eq_true, decide_eq_true_eq] at hc
      obtain ⟨x, y, z, h1, h2, h3, rfl⟩ := eval_binary.1 hv
      have hb := hp x y h1 h2
      obtain ⟨ta, tb, m, g1, g2, g3, g4⟩ := eval_matmul.1 h1
      cases g4
      have hty := ht
      rw [typed_op] at ht
      obtain ⟨-, hk, hl⟩ := ht
      simp only [typedL_cons] at hl
      have hm := hl.1
      rw [typed_op] at hm
      obtain ⟨-, hkm, hlm⟩ := hm
      simp only [typedL_cons] at hlm
      obtain ⟨p, q, hsa⟩ := length_two (rank?_length hc.1.2 hlm.1 g1)
      obtain ⟨r, s, hsb⟩ := length_two (rank?_length hc.2 hlm.2.1 g2)
      rw [matmul_two hsa hsb] at g3
      split at g3
      · rename_i hqr
        subst hqr
        cases g3
        rw [binary_bto hb] at h3
        cases h3
        have hnew : eval A env (.op (.gemm 1 1 0 0) [a, b, c] ty) = some (some _) :=
          eval_gemm.2 ⟨ta, tb, some y, _, g1, g2, h2, gemm_some.2 ⟨p, q, q, s, hsa, hsb, by simp, by
            rintro t ht
            cases ht
            simpa using hb, rfl⟩, rfl⟩
        have heq : (build [p, s] fun i => A.bin .add ((build [p, s] fun idx =>
              sumOver A (List.range q) fun k => A.bin .mul (ta.get [idx.getD 0 0, k]) (tb.get [k, idx.getD 1 0])).get i)
              (y.get (bidx y.shape i))) = build [p, s] fun idx =>
            addOpt A (A.bin .mul (A.ofRat 1) (sumOver A (List.range q) fun k =>
              A.bin .mul (ta.get [idx.getD 0 0, k]) (tb.get [k, idx.getD 1 0])))
              ((some y).map fun c => A.bin .mul (A.ofRat 1) (c.get (bidx c.shape idx))) := by
          refine build_congr fun i hi => ?_
          rw [get_build _ hi]
          simp only [Option.map_some, addOpt, hA.mul, hA.one, one_mul]
        have hnew' : eval A env (.op (.gemm 1 1 0 0) [a, b, c] ty) = some (some (build [p, s] fun i =>
            A.bin .add ((build [p, s] fun idx =>
              sumOver A (List.range q) fun k => A.bin .mul (ta.get [idx.getD 0 0, k]) (tb.get [k, idx.getD 1 0])).get i)
              (y.get (bidx y.shape i)))) := by
          rw [heq, hnew]
          simp
        refine ⟨hnew', typed_same hty hv hnew' ?_ ?_, rfl⟩
        · have e1 : mty.elt = c.ty.elt ∧ ty.elt = mty.elt := hk
          have e2 : a.ty.elt = b.ty.elt ∧ mty.elt = a.ty.elt := hkm
          exact ⟨e2.1, e1.2.trans e2.2⟩
        · simp only [typedL_cons]
          exact ⟨hlm.1, hlm.2.1, hl.2.1, typedL_nil⟩
      · cases g3
    · cases hr
  · cases hr

theorem fuseGemmAdd_sound [CommRing V] (hA : RingAlg A) (oneUse : Ex V → Bool) :
    SoundOn A (BiasFits A) (fuseGemmAdd oneUse) := by
  intro env e e' hr ht hp v hv
  unfold fuseGemmAdd at hr
  split at hr
  · rename_i al be ta tb a b gty c ty
    split at hr
    · cases hr
      obtain ⟨x, y, z, h1, h2, h3, rfl⟩ := eval_binary.1 hv
      have hb := hp x y h1 h2
      obtain ⟨xa, xb, n, m, g1, g2, g3, g4, g5⟩ := eval_gemm.1 h1
      cases g5
      rw [eval] at g3
      cases g3
      obtain ⟨p, q, r, s, k1, k2, k3, -, rfl⟩ := gemm_some.1 g4
      have hty := ht
      rw [typed_op] at ht
      obtain ⟨-, hk, hl⟩ := ht
      simp only [typedL_cons] at hl
      have hm := hl.1
      rw [typed_op] at hm
      obtain ⟨-, hkm, hlm⟩ := hm
      simp only [typedL_cons] at hlm
      rw [binary_bto hb] at h3
      cases h3
      have hnew : eval A env (.op (.gemm al 1 ta tb) [a, b, c] ty) = some (some _) :=
        eval_gemm.2 ⟨xa, xb, some y, _, g1, g2, h2, gemm_some.2 ⟨p, q, r, s, k1, k2, k3, by
          rintro t ht
          cases ht
          simpa using hb, rfl⟩, rfl⟩
      rw [build_shape] at *
      have hnew' : eval A env (.op (.gemm al 1 ta tb) [a, b, c] ty) = some (some (build _ _)) := hnew
      refine ⟨?_, typed_same hty hv (o' := .gemm al 1 ta tb) ?_ ?_ ?_, rfl⟩
      rotate_left 2
      · have e1 : gty.elt = c.ty.elt ∧ ty.elt = gty.elt := hk
        have e2 : a.ty.elt = b.ty.elt ∧ gty.elt = a.ty.elt := hkm
        exact ⟨e2.1, e1.2.trans e2.2⟩
      · simp only [typedL_cons]
        exact ⟨hlm.1, hlm.2.1, hl.2.1, typedL_nil⟩
      all_goals
        rw [hnew']
        congr 2
        refine build_congr fun i hi => ?_
        rw [get_build _ hi]
        simp only [Option.map_some, Option.map_none, addOpt, hA.mul, hA.one, one_mul]
    · cases hr
  · cases hr

/-! ### Constants to the right -/

theorem normalizeComm_sound {f : Bin} (hf : f = .add ∨ f = .mul)
    (hc : ∀ x y, A.bin f x y = A.bin f y x) : Sound A (normalizeComm f) := by
  intro env e e' hr ht v hv
  unfold normalizeComm at hr
  split at hr
  · rename_i g x y ty
    split at hr
    · rename_i hcond
      cases hr
      simp only [Bool.and_eq_true, decide_eq_true_eq] at hcond
      have hfg := hcond.1.1
      subst hfg
      obtain ⟨s, t, z, h1, h2, h3, rfl⟩ := eval_binary.1 hv
      have hnew : eval A env (.op (.binary f) [y, x] ty) = some (some z) := by
        refine eval_binary.2 ⟨t, s, z, h2, h1, ?_, rfl⟩
        unfold binary at h3 ⊢
        rw [bshape_comm]
        obtain ⟨w, hw, hz⟩ := Option.map_eq_some_iff.1 h3
        rw [hw, ← hz, Option.map_some]
        congr 1
        exact build_congr fun i _ => hc _ _
      have hty := ht
      rw [typed_op] at ht
      obtain ⟨-, hk, hl⟩ := ht
      simp only [typedL_cons] at hl
      refine ⟨hnew, typed_same hty hv hnew ?_ ?_, rfl⟩
      · have hk : x.ty.elt = y.ty.elt ∧ ty.elt = x.ty.elt := by
          rcases hf with rfl | rfl <;> exact hk
        have : y.ty.elt = x.ty.elt ∧ ty.elt = y.ty.elt := ⟨hk.1.symm, hk.2.trans hk.1⟩
        rcases hf with rfl | rfl <;> exact this
      · simp only [typedL_cons]
        exact ⟨hl.2.1, hl.1, typedL_nil⟩
    · cases hr
  · cases hr

/-! ### Scaling by a scalar -/

theorem matmul_some {a b y : Tensor V} : matmul A a b = some y ↔
    (a.shape ≠ [] ∧ b.shape ≠ [] ∧ (matOf a.shape).getLastD 0 = (matOf b.shape).headD 0) ∧
    ∃ bt, bshape (batchOf a.shape) (batchOf b.shape) = some bt ∧
      y = build (bt ++ (matOf a.shape).dropLast ++ (matOf b.shape).tail) fun idx =>
        sumOver A (List.range ((matOf a.shape).getLastD 0)) fun k =>
          A.bin .mul
            (a.get (bidx (batchOf a.shape) (idx.take bt.length) ++
              (idx.drop bt.length).take ((matOf a.shape).length - 1) ++ [k]))
            (b.get (bidx (batchOf b.shape) (idx.take bt.length) ++ k ::
              idx.drop (bt.length + ((matOf a.shape).length - 1)))) := by
  unfold matmul
  split
  · rename_i h
    constructor
    · intro hc; cases hc
    · rintro ⟨⟨h1, h2, h3⟩, -⟩
      rcases h with h | h | h
      · exact absurd h h1
      · exact absurd h h2
      · exact absurd h3 h
  · rename_i h
    push Not at h
    rw [Option.map_eq_some_iff]
    exact ⟨fun ⟨bt, h1, h2⟩ => ⟨h, bt, h1, h2.symm⟩, fun ⟨_, bt, h1, h2⟩ => ⟨bt, h1, h2.symm⟩⟩

theorem batch_mat (s : List ℕ) : batchOf s ++ matOf s = s := by simp [batchOf, matOf]

theorem matOf_ne {s : List ℕ} (h : s ≠ []) : matOf s ≠ [] := by
  unfold matOf
  intro h0
  have := congrArg List.length h0
  have := List.length_pos_iff.2 h
  simp at *
  omega

/-- The elements of the right operand that a product uses exist. -/
theorem matmul_right_in {a b : Tensor V} {bt idx : List ℕ} {k : ℕ} (hb : b.shape ≠ [])
    (hbt : bshape (batchOf a.shape) (batchOf b.shape) = some bt)
    (hk : k < (matOf b.shape).headD 0)
    (hi : InBounds (bt ++ (matOf a.shape).dropLast ++ (matOf b.shape).tail) idx) :
    InBounds b.shape (bidx (batchOf b.shape) (idx.take bt.length) ++ k ::
      idx.drop (bt.length + ((matOf a.shape).length - 1))) := by
  have hl := hi.length
  simp only [List.length_append, List.length_dropLast, List.length_tail] at hl
  have e : idx = idx.take bt.length ++ (idx.drop bt.length).take ((matOf a.shape).length - 1) ++
      idx.drop (bt.length + ((matOf a.shape).length - 1)) := by
    rw [List.append_assoc, ← List.drop_drop, List.take_append_drop, List.take_append_drop]
  have l1 : (idx.take bt.length).length = bt.length := by rw [List.length_take]; omega
  have l2 : ((idx.drop bt.length).take ((matOf a.shape).length - 1)).length = (matOf a.shape).dropLast.length := by
    rw [List.length_take, List.length_drop, List.length_dropLast]; omega
  rw [e, inBounds_append (by rw [List.length_append, List.length_append, l1, l2]), inBounds_append l1] at hi
  have hbb := (bto_bshape_right hbt).inBounds hi.1.1
  have hlen : (bidx (batchOf b.shape) (idx.take bt.length)).length = (batchOf b.shape).length := hbb.length
  have hs : b.shape = batchOf b.shape ++ ((matOf b.shape).headD 0 :: (matOf b.shape).tail) := by
    conv_lhs => rw [← batch_mat b.shape]
    congr 1
    have := matOf_ne hb
    cases h : matOf b.shape with
    | nil => exact absurd h this
    | cons d l => rfl
  rw [hs, inBounds_append (by rw [← hs]; exact hlen), inBounds_cons]
  rw [← hs]
  exact ⟨hbb, hk, hi.2⟩

/-- Scaling the right operand scales the product. -/
theorem matmul_scale [CommRing V] (hA : RingAlg A) {a b z : Tensor V} (h : matmul A a b = some z) (c : V) (f : V → V)
    (hf : ∀ v, f v = v * c) : matmul A a (b.map f) = some (z.map f) := by
  obtain ⟨h1, bt, h2, rfl⟩ := matmul_some.1 h
  refine matmul_some.2 ⟨h1, bt, h2, ?_⟩
  rw [map_build]
  refine build_congr fun idx hi => ?_
  rw [hf, ← sumOver_mul hA]
  refine sumOver_congr fun k hk => ?_
  rw [List.mem_range, h1.2.2] at hk
  have := matmul_right_in h1.2.1 h2 hk hi
  rw [map_shape, get_map _ _ this, hf, hA.mul, hA.mul, mul_assoc]

/-- The scalar has no axis, or the product has one. -/
def ScalarKeepsProduct (A : Alg V) (env : ℕ → Tensor V) : Ex V → Prop
  | .op _ [p, c] _ => ∀ t u, eval A env p = some (some t) → eval A env c = some (some u) →
      t.shape ≠ [] ∨ u.shape ≠ [1]
  | _ => True

theorem isConst_const {e : Ex V} (h : isConst e = true) : ∃ t d, e = .const t d := by
  cases e with
  | const t d => exact ⟨t, d, rfl⟩
  | none => cases h
  | arg _ _ => cases h
  | op _ _ _ => cases h

theorem scale_matmul [CommRing V] (hA : RingAlg A) {f : Bin} {a b c z y : Tensor V} (h : matmul A a b = some z)
    (hc : IsSc c.shape) (hp : z.shape ≠ [] ∨ c.shape ≠ [1]) (s : V) (hs : ∀ v, A.bin f v c.one = v * s)
    (hy : binary (A.bin f) z c = some y) :
    ∃ b', binary (A.bin f) b c = some b' ∧ matmul A a b' = some y := by
  have hb : b.shape ≠ [] := (matmul_some.1 h).1.2.1
  refine ⟨_, binary_sc_right hc (.inr hb), ?_⟩
  have : c.shape = [] ∨ z.shape ≠ [] := by
    rcases hp with hp | hp
    · exact .inr hp
    · rcases hc with hc | hc
      · exact .inl hc
      · exact absurd hc hp
  rw [binary_sc_right hc this] at hy
  cases hy
  exact matmul_scale hA h s _ hs

theorem fuseScalar_into [CommRing V] (hA : RingAlg A) {f : Bin} (hf : f = .mul ∨ f = .div)
    (hs : ∀ u : V, ∃ s, ∀ v, A.bin f v u = v * s) {a b c : Ex V} {mty ty : STy} {w : Option (Tensor V)}
    (hbc : (isConst b && isScalarConst c) = true)
    (hp : ∀ t u, eval A env (.op .matmul [a, b] mty) = some (some t) → eval A env c = some (some u) →
      t.shape ≠ [] ∨ u.shape ≠ [1])
    (ht : Typed A env (.op (.binary f) [.op .matmul [a, b] mty, c] ty))
    (hv : eval A env (.op (.binary f) [.op .matmul [a, b] mty, c] ty) = some w) :
    eval A env (.op .matmul [a, mk (.binary f) [b, c] b.ty.elt] ty) = some w ∧
      Typed A env (.op .matmul [a, mk (.binary f) [b, c] b.ty.elt] ty) := by
  rw [Bool.and_eq_true] at hbc
  obtain ⟨bt, bd, rfl⟩ := isConst_const hbc.1
  obtain ⟨ct, cd, rfl, hsc⟩ := isScalarConst_const hbc.2
  obtain ⟨x, y, z, h1, h2, h3, rfl⟩ := eval_binary.1 hv
  have hp := hp x y h1 h2
  rw [eval] at h2
  cases h2
  obtain ⟨ta, tb, m, g1, g2, g3, g4⟩ := eval_matmul.1 h1
  cases g4
  obtain ⟨s, hs⟩ := hs ct.one
  obtain ⟨b', k1, k2⟩ := scale_matmul hA g3 hsc hp s hs h3
  have hin : eval A env (mk (.binary f) [.const bt bd, .const ct cd] bd) = some (some b') := by
    rw [eval] at g2
    cases g2
    exact eval_binary.2 ⟨bt, ct, b', by rw [eval], by rw [eval], k1, rfl⟩
  have hnew : eval A env (.op .matmul [a, mk (.binary f) [.const bt bd, .const ct cd] bd] ty) = some (some z) :=
    eval_matmul.2 ⟨ta, b', z, g1, hin, k2, rfl⟩
  have hty := ht
  rw [typed_op] at ht
  obtain ⟨-, hk, hl⟩ := ht
  simp only [typedL_cons] at hl
  have hm := hl.1
  rw [typed_op] at hm
  obtain ⟨-, hkm, hlm⟩ := hm
  simp only [typedL_cons] at hlm
  have e1 : mty.elt = cd ∧ ty.elt = mty.elt := by rcases hf with rfl | rfl <;> exact hk
  have e2 : a.ty.elt = bd ∧ mty.elt = a.ty.elt := hkm
  refine ⟨hnew, typed_same hty hv hnew ⟨e2.1, e1.2.trans e2.2⟩ ?_⟩
  simp only [typedL_cons]
  refine ⟨hlm.1, typed_unranked ?_ ?_, typedL_nil⟩
  · simp only [typedL_cons]
    exact ⟨typed_const, typed_const, typedL_nil⟩
  · have : bd = cd ∧ bd = bd := ⟨by rw [← e1.1, e2.2, e2.1], rfl⟩
    rcases hf with rfl | rfl <;> exact this

/-- The product and the scalar in the order in which they occur. -/
def ScalarKeepsProduct' (A : Alg V) (env : ℕ → Tensor V) : Ex V → Prop
  | .op _ [p, c] _ => ∀ t u, eval A env p = some (some t) → eval A env c = some (some u) →
      (t.shape ≠ [] ∨ u.shape ≠ [1]) ∧ (u.shape ≠ [] ∨ t.shape ≠ [1])
  | _ => True

theorem binary_comm {f : V → V → V} (hf : ∀ x y, f x y = f y x) (a b : Tensor V) : binary f a b = binary f b a := by
  unfold binary
  rw [bshape_comm]
  congr 1
  funext s
  exact build_congr fun i _ => hf _ _

theorem fuseScalarMulMatMul_sound [CommRing V] (hA : RingAlg A) :
    SoundOn A (ScalarKeepsProduct' A) fuseScalarMulMatMul := by
  intro env e e' hr ht hp v hv
  unfold fuseScalarMulMatMul at hr
  have hs : ∀ u : V, ∃ s, ∀ v, A.bin .mul v u = v * s := fun u => ⟨u, fun v => hA.mul v u⟩
  split at hr
  · rename_i a b mty c ty
    split at hr
    · rename_i hc
      cases hr
      have := fuseScalar_into hA (.inl rfl) hs hc (fun t u h1 h2 => (hp t u h1 h2).1) ht hv
      exact ⟨this.1, this.2, rfl⟩
    · cases hr
  · rename_i c a b mty ty hne
    split at hr
    · rename_i hc
      cases hr
      have hv' : eval A env (.op (.binary .mul) [.op .matmul [a, b] mty, c] ty) = some v := by
        obtain ⟨x, y, z, h1, h2, h3, rfl⟩ := eval_binary.1 hv
        refine eval_binary.2 ⟨y, x, z, h2, h1, ?_, rfl⟩
        rw [binary_comm (fun x y => by rw [hA.mul, hA.mul, mul_comm])]
        exact h3
      have ht' : Typed A env (.op (.binary .mul) [.op .matmul [a, b] mty, c] ty) := by
        have hty := ht
        rw [typed_op] at ht
        obtain ⟨-, hk, hl⟩ := ht
        simp only [typedL_cons] at hl
        refine typed_same hty hv hv' ?_ ?_
        · have hk : c.ty.elt = mty.elt ∧ ty.elt = c.ty.elt := hk
          have : mty.elt = c.ty.elt ∧ ty.elt = mty.elt := ⟨hk.1.symm, hk.2.trans hk.1⟩
          exact this
        · simp only [typedL_cons]
          exact ⟨hl.2.1, hl.1, typedL_nil⟩
      have := fuseScalar_into hA (.inl rfl) hs hc (fun t u h1 h2 => (hp u t h2 h1).2) ht' hv'
      exact ⟨this.1, this.2, rfl⟩
    · cases hr
  · cases hr

theorem fuseScalarDivMatMul_sound [Field V] (hA : FieldAlg A) :
    SoundOn A (ScalarKeepsProduct A) fuseScalarDivMatMul := by
  intro env e e' hr ht hp v hv
  unfold fuseScalarDivMatMul at hr
  have hs : ∀ u : V, ∃ s, ∀ v, A.bin .div v u = v * s :=
    fun u => ⟨u⁻¹, fun v => by rw [hA.div, div_eq_mul_inv]⟩
  split at hr
  · split at hr
    · rename_i hc
      cases hr
      have := fuseScalar_into hA.toRingAlg (.inr rfl) hs hc hp ht hv
      exact ⟨this.1, this.2, rfl⟩
    · cases hr
  · cases hr

end Verif.Rewrite
