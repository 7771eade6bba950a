import Verif.Rewrite.ConvLemmas

/-! # The patterns that replace BatchNormalization keep results -/

namespace Verif.Rewrite

variable {V : Type} [Inhabited V] {A : Alg V} {env : ℕ → Tensor V}

theorem eval_batchNorm {eps : ℚ} {x s b m r : Ex V} {ty : STy} {v : Option (Tensor V)} :
    eval A env (.op (.batchNorm eps) [x, s, b, m, r] ty) = some v ↔
      ∃ x' s' b' m' r' y, eval A env x = some (some x') ∧ eval A env s = some (some s') ∧
        eval A env b = some (some b') ∧ eval A env m = some (some m') ∧ eval A env r = some (some r') ∧
        batchNorm A eps x' s' b' m' r' = some y ∧ v = some y := by
  rw [eval_op]
  constructor
  · rintro ⟨xs, t, hx, ht, rfl⟩
    obtain ⟨x1, ws, h1, g2, rfl⟩ := evalL_cons.1 hx
    obtain ⟨x2, ws, h2, g3, rfl⟩ := evalL_cons.1 g2
    obtain ⟨x3, ws, h3, g4, rfl⟩ := evalL_cons.1 g3
    obtain ⟨x4, ws, h4, g5, rfl⟩ := evalL_cons.1 g4
    obtain ⟨x5, ws, h5, g6, rfl⟩ := evalL_cons.1 g5
    rw [evalL_nil] at g6; subst g6
    match x1, x2, x3, x4, x5, ht with
    | some x1, some x2, some x3, some x4, some x5, ht => exact ⟨x1, x2, x3, x4, x5, t, h1, h2, h3, h4, h5, ht, rfl⟩
    | none, _, _, _, _, ht => simp [sem] at ht
    | some _, none, _, _, _, ht => simp [sem] at ht
    | some _, some _, none, _, _, ht => simp [sem] at ht
    | some _, some _, some _, none, _, ht => simp [sem] at ht
    | some _, some _, some _, some _, none, ht => simp [sem] at ht
  · rintro ⟨x', s', b', m', r', y, h1, h2, h3, h4, h5, h6, rfl⟩
    exact ⟨_, y, evalL_cons.2 ⟨_, _, h1, evalL_cons.2 ⟨_, _, h2, evalL_cons.2 ⟨_, _, h3, evalL_cons.2 ⟨_, _, h4,
      evalL_cons.2 ⟨_, _, h5, evalL_nil.2 rfl, rfl⟩, rfl⟩, rfl⟩, rfl⟩, rfl⟩, h6, rfl⟩

theorem batchNorm_some {eps : ℚ} {x sc b m r y : Tensor V} : batchNorm A eps x sc b m r = some y ↔
    ∃ c ch, c = (if x.shape.length = 1 then 1 else x.shape.getD 1 0) ∧
      ch = (fun idx : List ℕ => if x.shape.length = 1 then 0 else idx.getD 1 0) ∧
      (x.shape ≠ [] ∧ sc.shape = [c] ∧ b.shape = [c] ∧ m.shape = [c] ∧ r.shape = [c]) ∧
      y = build x.shape fun idx =>
        A.bin .add (A.bin .mul (A.bin .div (A.bin .sub (x.get idx) (m.data.getD (ch idx) default))
          (A.un "Sqrt" [] (A.bin .add (r.data.getD (ch idx) default) (A.ofRat eps))))
          (sc.data.getD (ch idx) default)) (b.data.getD (ch idx) default) := by
  unfold batchNorm
  constructor
  · intro h
    simp only at h
    by_cases hc : x.shape ≠ [] ∧ sc.shape = [if x.shape.length = 1 then 1 else x.shape.getD 1 0] ∧
        b.shape = [if x.shape.length = 1 then 1 else x.shape.getD 1 0] ∧
        m.shape = [if x.shape.length = 1 then 1 else x.shape.getD 1 0] ∧
        r.shape = [if x.shape.length = 1 then 1 else x.shape.getD 1 0]
    · rw [if_pos hc] at h
      cases h
      refine ⟨_, _, rfl, rfl, hc, ?_⟩
      simp only [vec_get hc.2.1, vec_get hc.2.2.1, vec_get hc.2.2.2.1, vec_get hc.2.2.2.2]
    · rw [if_neg hc] at h
      cases h
  · rintro ⟨c, ch, rfl, rfl, hc, rfl⟩
    simp only
    rw [if_pos hc]
    simp only [vec_get hc.2.1, vec_get hc.2.2.1, vec_get hc.2.2.2.1, vec_get hc.2.2.2.2]

/-- The coefficient of a channel. -/
theorem eval_bnCoef {eps : ℚ} {s r : Ex V} {s' r' : Tensor V} {d : DT} {c : ℕ}
    (hs : eval A env s = some (some s')) (hr : eval A env r = some (some r')) (h1 : s'.shape = [c])
    (h2 : r'.shape = [c]) : ∃ u, eval A env (bnCoef A eps s r d) = some (some u) ∧ u.shape = [c] ∧
      ∀ j < c, u.data.getD j default = A.bin .div (s'.data.getD j default)
        (A.un "Sqrt" [] (A.bin .add (r'.data.getD j default) (A.ofRat eps))) := by
  have hone : (⟨[1], [A.ofRat eps], rfl⟩ : Tensor V).shape = [1] := rfl
  obtain ⟨u1, a1, a2, a3⟩ := binary_vec_one (f := A.bin .add) h2 hone
  have e1 : eval A env (mk (.binary .add) [r, floatConst A eps d] r.ty.elt) = some (some u1) :=
    eval_binary.2 ⟨r', _, u1, hr, by rw [floatConst, eval], a1, rfl⟩
  have e2 : eval A env (mk (.unary "Sqrt" []) [mk (.binary .add) [r, floatConst A eps d] r.ty.elt] r.ty.elt) =
      some (some (u1.map (A.un "Sqrt" []))) := eval_unary.2 ⟨u1, e1, rfl⟩
  obtain ⟨u2, b1, b2, b3⟩ := binary_vecs (f := A.bin .div) h1 (b := u1.map (A.un "Sqrt" [])) a2
  refine ⟨u2, eval_binary.2 ⟨s', _, u2, hs, e2, b1, rfl⟩, b2, fun j hj => ?_⟩
  rw [b3 j hj, map_vec a2 hj, a3 j hj]
  rfl

theorem typed_bnCoef {eps : ℚ} {s r : Ex V} {d : DT} (hs : Typed A env s) (hr : Typed A env r)
    (h1 : s.ty.elt = d) (h2 : r.ty.elt = d) : Typed A env (bnCoef A eps s r d) := by
  unfold bnCoef
  rw [h1, h2]
  refine typed_arith (.inr (.inr (.inr rfl))) hs ?_ h1 rfl
  refine typed_unranked ?_ ?_
  · simp only [typedL_cons]
    exact ⟨typed_arith (.inl rfl) hr typed_const h2 rfl, typedL_nil⟩
  · have : d = d := rfl
    exact this

/-- All operands have the element type of the result. -/
def SameElt : Ex V → Prop
  | .op _ as ty => ∀ a ∈ as, a.ty.elt = ty.elt
  | _ => True

omit [Inhabited V] in
theorem sameElt_bn {o : Op} {x s b m r : Ex V} {ty : STy} (h : SameElt (.op o [x, s, b, m, r] ty)) :
    x.ty.elt = ty.elt ∧ s.ty.elt = ty.elt ∧ b.ty.elt = ty.elt ∧ m.ty.elt = ty.elt ∧ r.ty.elt = ty.elt :=
  ⟨h x (by simp), h s (by simp), h b (by simp), h m (by simp), h r (by simp)⟩

theorem rewriteBatchNorm1_sound [Field V] (hA : FieldAlg A) :
    SoundOn A (fun _ => SameElt) (rewriteBatchNorm1 A) := by
  intro env e e' hr ht hp v hv
  unfold rewriteBatchNorm1 at hr
  split at hr
  · rename_i eps x s b m w ty
    split at hr
    · cases hr
    · rename_i r hrank
      split at hr
      · rename_i hr2
        cases hr
        obtain ⟨t1, t2, t3, t4, t5⟩ := sameElt_bn hp
        obtain ⟨x', s', b', m', w', y, h1, h2, h3, h4, h5, h6, rfl⟩ := eval_batchNorm.1 hv
        have hty := ht
        rw [typed_op] at ht
        obtain ⟨-, -, hl⟩ := ht
        simp only [typedL_cons] at hl
        obtain ⟨l1, l2, l3, l4, l5, -⟩ := hl
        have hlen := rank?_length hrank l1 h1
        obtain ⟨c, ch, hc, hch, ⟨-, g2, g3, g4, g5⟩, rfl⟩ := batchNorm_some.1 h6
        have hsh : ∃ n d rest, x'.shape = n :: d :: rest ∧ rest.length = r - 2 := by
          match hx : x'.shape, hlen with
          | [], hl => simp at hl; omega
          | [_], hl => simp at hl; omega
          | n :: d :: rest, hl => exact ⟨n, d, rest, rfl, by simp at hl; omega⟩
        obtain ⟨n, d, rest, hsh, hrest⟩ := hsh
        have hcd : c = d := by rw [hc, hsh]; simp
        subst hcd
        obtain ⟨u, q1, q2, q3⟩ := eval_bnCoef (eps := eps) (d := ty.elt) h2 h5 g2 g5
        obtain ⟨cu, a1, a2, a3⟩ := eval_unsqueeze_vec (k := r - 2) (ty := .unranked s.ty.elt) q1 q2
        have b1 := binary_chan (f := A.bin .mul) (a := x') (b := cu) (pre := [n]) (d := c) (rest := rest) hsh a2 hrest
        obtain ⟨mu, c1, c2, c3⟩ := binary_vecs (f := A.bin .mul) g4 q2
        obtain ⟨bu, d1, d2, d3⟩ := binary_vecs (f := A.bin .sub) g3 c2
        have ebu : eval A env (mk (.binary .sub) [b, mk (.binary .mul) [m, bnCoef A eps s w ty.elt] m.ty.elt]
            b.ty.elt) = some (some bu) :=
          eval_binary.2 ⟨b', mu, bu, h3, eval_binary.2 ⟨m', u, mu, h4, q1, c1, rfl⟩, d1, rfl⟩
        obtain ⟨cb, f1, f2, f3⟩ := eval_unsqueeze_vec (k := r - 2) (ty := .unranked b.ty.elt) ebu d2
        have g1 := binary_chan (f := A.bin .add) (a := build ([n] ++ c :: rest) fun i =>
          A.bin .mul (x'.get i) (cu.data.getD (i.getD [n].length 0) default)) (b := cb) (pre := [n]) (d := c)
          (rest := rest) rfl f2 hrest
        refine replaced hty hv ?_ ?_ ?_
        · refine eval_binary.2 ⟨_, _, _, eval_binary.2 ⟨x', cu, _, h1, a1, b1, rfl⟩, f1, g1, ?_⟩
          rw [hsh]
          congr 1
          refine build_congr fun i hi => ?_
          have hi' : InBounds ([n] ++ c :: rest) i := hi
          have hlt : i.getD 1 0 < c := by
            have := (inBounds_getD.1 hi).2 1 (by simp)
            simpa using this
          rw [get_build _ hi', hch]
          simp only [hsh, List.length_cons, List.length_singleton, List.length_nil]
          rw [if_neg (by omega), f3, d3 _ hlt, c3 _ hlt, a3, q3 _ hlt]
          simp only [hA.add, hA.mul, hA.div, hA.sub]
          simp only [div_eq_mul_inv]
          ring
        · have : ∀ a b : STy, a.elt = ty.elt → b.elt = ty.elt → EltOk (.binary .add) [a, b] ty.elt :=
            fun a b ha hb => ⟨ha.trans hb.symm, ha.symm⟩
          exact this _ _ t1 t3
        · simp only [typedL_cons]
          have hco := typed_bnCoef (eps := eps) l2 l5 t2 t5
          have hce : (bnCoef A eps s w ty.elt).ty.elt = s.ty.elt := rfl
          refine ⟨typed_arith (.inr (.inl rfl)) l1 (typed_unsqueeze hco typed_const rfl) rfl (t2.trans t1.symm),
            typed_unsqueeze (typed_arith (.inr (.inr (.inl rfl))) l3
              (typed_arith (.inr (.inl rfl)) l4 hco rfl (t2.trans t4.symm)) rfl (t4.trans t3.symm)) typed_const rfl,
            typedL_nil⟩
      · cases hr
  · cases hr

theorem rewriteBatchNorm2_sound [Field V] (hA : FieldAlg A) :
    SoundOn A (fun _ => SameElt) (rewriteBatchNorm2 A) := by
  intro env e e' hr ht hp v hv
  unfold rewriteBatchNorm2 at hr
  split at hr
  · rename_i eps x s b m w ty
    split at hr
    · rename_i hrank
      cases hr
      obtain ⟨t1, t2, t3, t4, t5⟩ := sameElt_bn hp
      obtain ⟨x', s', b', m', w', y, h1, h2, h3, h4, h5, h6, rfl⟩ := eval_batchNorm.1 hv
      have hty := ht
      rw [typed_op] at ht
      obtain ⟨-, -, hl⟩ := ht
      simp only [typedL_cons] at hl
      obtain ⟨l1, l2, l3, l4, l5, -⟩ := hl
      have hlen := rank?_length hrank l1 h1
      obtain ⟨c, ch, hc, hch, ⟨-, g2, g3, g4, g5⟩, rfl⟩ := batchNorm_some.1 h6
      rw [if_pos hlen] at hc
      subst hc
      obtain ⟨n, hsh⟩ : ∃ n, x'.shape = [n] := by
        match hx : x'.shape, hlen with
        | [n], _ => exact ⟨n, rfl⟩
      obtain ⟨u, q1, q2, q3⟩ := eval_bnCoef (eps := eps) (d := ty.elt) h2 h5 g2 g5
      obtain ⟨xu, b1, b2, b3⟩ := binary_vec_one (f := A.bin .mul) hsh q2
      obtain ⟨mu, c1, c2, c3⟩ := binary_vecs (f := A.bin .mul) g4 q2
      obtain ⟨bu, d1, d2, d3⟩ := binary_vecs (f := A.bin .sub) g3 c2
      have ebu : eval A env (mk (.binary .sub) [b, mk (.binary .mul) [m, bnCoef A eps s w ty.elt] m.ty.elt]
          b.ty.elt) = some (some bu) :=
        eval_binary.2 ⟨b', mu, bu, h3, eval_binary.2 ⟨m', u, mu, h4, q1, c1, rfl⟩, d1, rfl⟩
      have g1 := binary_ones (f := A.bin .add) (a := xu) (b := bu) (k := 0) d2 (by rw [b2]; simp)
      refine replaced hty hv ?_ ?_ ?_
      · refine eval_binary.2 ⟨xu, bu, _, eval_binary.2 ⟨x', u, xu, h1, q1, b1, rfl⟩, ebu, g1, ?_⟩
        rw [hsh, b2]
        congr 1
        refine build_congr fun i hi => ?_
        have hil := hi.length
        match i, hil with
        | [i], _ =>
          have hlt : i < n := by simpa using hi
          rw [hch]
          simp only
          rw [if_pos hlen, vec_get b2, b3 _ hlt, d3 0 (by omega), c3 0 (by omega), q3 0 (by omega), vec_get hsh]
          simp only [hA.add, hA.mul, hA.div, hA.sub]
          simp only [div_eq_mul_inv]
          ring
      · have : ∀ a b : STy, a.elt = ty.elt → b.elt = ty.elt → EltOk (.binary .add) [a, b] ty.elt :=
          fun a b ha hb => ⟨ha.trans hb.symm, ha.symm⟩
        exact this _ _ t1 t3
      · simp only [typedL_cons]
        have hco := typed_bnCoef (eps := eps) l2 l5 t2 t5
        refine ⟨typed_arith (.inr (.inl rfl)) l1 hco rfl (t2.trans t1.symm),
          typed_arith (.inr (.inr (.inl rfl))) l3
            (typed_arith (.inr (.inl rfl)) l4 hco rfl (t2.trans t4.symm)) rfl (t4.trans t3.symm),
          typedL_nil⟩
    · cases hr
  · cases hr

/-- An optional operand has a given element type. -/
def OptElt (d : DT) : Ex V → Prop
  | .none => True
  | b => b.ty.elt = d

/-- The operands of the normalization and the bias of the convolution, if there is one, have the element type of the
result. -/
def SameEltConv : Ex V → Prop
  | .op _ (.op o [x, w, b] cty :: as) ty => SameElt (.op o (.op o [x, w, b] cty :: as) ty) ∧ OptElt ty.elt b
  | _ => True

/-- The difference of the optional bias and the mean. -/
theorem eval_subtractOrNeg [Field V] (hA : FieldAlg A) {b m : Ex V} {b' : Option (Tensor V)} {m' : Tensor V} {c : ℕ}
    (hb : eval A env b = some b') (hm : eval A env m = some (some m')) (h1 : ∀ t, b' = some t → t.shape = [c])
    (h2 : m'.shape = [c]) : ∃ u, eval A env (subtractOrNeg b m) = some (some u) ∧ u.shape = [c] ∧
      ∀ j < c, ∀ v, addOpt A v (b'.map fun b => b.get [j]) - m'.data.getD j default = v + u.data.getD j default := by
  have hnone : ∀ {b1 : Tensor V}, b' = some b1 → (subtractOrNeg b m = mk (.binary .sub) [b, m] b.ty.elt) →
      ∃ u, eval A env (subtractOrNeg b m) = some (some u) ∧ u.shape = [c] ∧
      ∀ j < c, ∀ v, addOpt A v (b'.map fun b => b.get [j]) - m'.data.getD j default = v + u.data.getD j default := by
    intro b1 hb1 hs
    subst hb1
    obtain ⟨u, c1, c2, c3⟩ := binary_vecs (f := A.bin .sub) (h1 b1 rfl) h2
    refine ⟨u, by rw [hs]; exact eval_binary.2 ⟨b1, m', u, hb, hm, c1, rfl⟩, c2, fun j hj v => ?_⟩
    rw [c3 j hj, hA.sub, Option.map_some, addOpt, hA.add, vec_get (h1 b1 rfl)]
    ring
  cases b with
  | none =>
    rw [eval] at hb
    cases hb
    refine ⟨m'.map (A.un "Neg" []), eval_unary.2 ⟨m', hm, rfl⟩, h2, fun j hj v => ?_⟩
    rw [map_vec h2 hj, hA.neg, Option.map_none, addOpt]
    ring
  | arg i ty => rw [eval] at hb; cases hb; exact hnone rfl rfl
  | const t d => rw [eval] at hb; cases hb; exact hnone rfl rfl
  | op o as ty =>
    have hb2 := hb
    rw [eval] at hb2
    obtain ⟨vs, -, hvs⟩ := Option.bind_eq_some_iff.1 hb2
    obtain ⟨u, -, hu⟩ := Option.map_eq_some_iff.1 hvs
    exact hnone hu.symm rfl

theorem typed_subtractOrNeg {b m : Ex V} {d : DT} (hb : Typed A env b) (hm : Typed A env m)
    (h1 : OptElt d b) (h2 : m.ty.elt = d) :
    Typed A env (subtractOrNeg b m) ∧ (subtractOrNeg b m).ty.elt = d := by
  cases b with
  | none =>
    refine ⟨typed_unranked ?_ ?_, h2⟩
    · simp only [typedL_cons]
      exact ⟨hm, typedL_nil⟩
    · have : m.ty.elt = m.ty.elt := rfl
      exact this
  | arg i ty => exact ⟨typed_arith (.inr (.inr (.inl rfl))) hb hm rfl (h2.trans h1.symm), h1⟩
  | const t d' => exact ⟨typed_arith (.inr (.inr (.inl rfl))) hb hm rfl (h2.trans h1.symm), h1⟩
  | op o as ty => exact ⟨typed_arith (.inr (.inr (.inl rfl))) hb hm rfl (h2.trans h1.symm), h1⟩

theorem fuseBatchNormConv_sound [Field V] (hA : FieldAlg A) :
    SoundOn A (fun _ => SameEltConv) (fuseBatchNormConv A) := by
  intro env e e' hr ht hp v hv
  unfold fuseBatchNormConv at hr
  split at hr
  · rename_i eps a x k bc cty s b m w ty
    split at hr
    · cases hr
    · rename_i r hrank
      cases hr
      obtain ⟨t0, tb⟩ := hp
      obtain ⟨t1, t2, t3, t4, t5⟩ := sameElt_bn t0
      obtain ⟨x', s', b', m', w', y, h1, h2, h3, h4, h5, h6, rfl⟩ := eval_batchNorm.1 hv
      have hty := ht
      rw [typed_op] at ht
      obtain ⟨-, -, hl⟩ := ht
      simp only [typedL_cons] at hl
      obtain ⟨l1, l2, l3, l4, l5, -⟩ := hl
      rw [typed_op] at l1
      obtain ⟨-, hkm, hlm⟩ := l1
      simp only [typedL_cons] at hlm
      obtain ⟨xd, kd, bcd, yd, p1, p2, p3, p4, p5⟩ := eval_conv.1 h1
      cases p5
      have hlen := rank?_length hrank hlm.2.1 p2
      obtain ⟨n, cc, xs, M, cg, ks, ax, k1, k2, k3, k4, k5, rfl⟩ := conv_some.1 p4
      obtain ⟨c, ch, hc, hch, ⟨-, g2, g3, g4, g5⟩, rfl⟩ := batchNorm_some.1 h6
      have hcd : c = M := by rw [hc]; simp
      subst hcd
      have hch' : ∀ i, ch i = i.getD 1 0 := fun i => by rw [hch]; simp
      clear hch
      obtain ⟨u, q1, q2, q3⟩ := eval_bnCoef (eps := eps) (d := ty.elt) h2 h5 g2 g5
      obtain ⟨cu, a1, a2, a3⟩ := eval_unsqueeze_vec (k := r - 1) (ty := .unranked s.ty.elt) q1 q2
      have hrl : (cg :: ks).length = r - 1 := by
        rw [k2] at hlen
        simp only [List.length_cons] at hlen ⊢
        omega
      have b1 := binary_chan (f := A.bin .mul) (a := kd) (b := cu) (pre := []) (d := c) (rest := cg :: ks) k2 a2 hrl
      obtain ⟨su, s1, s2, s3⟩ := eval_subtractOrNeg hA p3 h4 k5 g4
      obtain ⟨mu, c1, c2, c3⟩ := binary_vecs (f := A.bin .mul) q2 s2
      obtain ⟨bu, d1, d2, d3⟩ := binary_vecs (f := A.bin .add) g3 c2
      have ebu : eval A env (mk (.binary .add) [b, mk (.binary .mul) [bnCoef A eps s w ty.elt, subtractOrNeg bc m]
          s.ty.elt] b.ty.elt) = some (some bu) :=
        eval_binary.2 ⟨b', mu, bu, h3, eval_binary.2 ⟨u, su, mu, q1, s1, c1, rfl⟩, d1, rfl⟩
      refine replaced hty hv ?_ ?_ ?_
      · refine eval_conv.2 ⟨xd, _, some bu, _, p1, eval_binary.2 ⟨kd, cu, _, p2, a1, b1, rfl⟩, ebu,
          conv_some.2 ⟨n, cc, xs, c, cg, ks, ax, k1, rfl, k3, k4, fun t ht => by cases ht; exact d2, rfl⟩, ?_⟩
        congr 1
        refine build_congr fun i hi => ?_
        have hi' : InBounds (n :: c :: ax.map WinAx.out) i := hi
        have hlt : i.getD 1 0 < c := by
          have := (inBounds_getD.1 hi').2 1 (by simp)
          simpa using this
        have hsc := convDot_scale (w := kd) (w' := build ([] ++ c :: cg :: ks) fun i =>
          A.bin .mul (kd.get i) (cu.data.getD (i.getD ([] : List ℕ).length 0) default)) (ax := ax) (group := a.group) (m := c)
          (x := xd) (ks := ks) (cg := cg) (idx := i) (s := cu.data.getD (i.getD 1 0) default) hA.toRingAlg (by
            intro ck hck
            have hb : InBounds ([] ++ c :: cg :: ks) (i.getD 1 0 :: ck) := by
              simp only [List.nil_append]
              rw [inBounds_cons]
              exact ⟨hlt, hck⟩
            rw [get_build _ hb, hA.mul]
            rfl)
        rw [get_build _ hi', hch', hsc]
        change _ = A.bin .add _ (bu.get [i.getD 1 0])
        rw [a3, q3 _ hlt, vec_get d2, d3 _ hlt, c3 _ hlt, q3 _ hlt]
        simp only [hA.add, hA.mul, hA.div, hA.sub]
        rw [s3 _ hlt]
        simp only [div_eq_mul_inv]
        ring
      · have e2 : x.ty.elt = k.ty.elt ∧ cty.elt = x.ty.elt := hkm
        have e3 : cty.elt = ty.elt := t1
        exact ⟨e2.1, e3.symm.trans e2.2⟩
      · have e2 : x.ty.elt = k.ty.elt ∧ cty.elt = x.ty.elt := hkm
        have e3 : cty.elt = ty.elt := t1
        have tk : k.ty.elt = ty.elt := by rw [← e2.1, ← e2.2, e3]
        have hco := typed_bnCoef (eps := eps) l2 l5 t2 t5
        obtain ⟨ts1, ts2⟩ := typed_subtractOrNeg hlm.2.2.1 l4 tb t4
        simp only [typedL_cons]
        refine ⟨hlm.1, typed_arith (.inr (.inl rfl)) hlm.2.1 (typed_unsqueeze hco typed_const rfl) rfl
          (t2.trans tk.symm), typed_arith (.inl rfl) l3 (typed_arith (.inr (.inl rfl)) hco ts1 rfl
            (ts2.trans t2.symm)) rfl (t2.trans t3.symm), typedL_nil⟩
  · cases hr

end Verif.Rewrite
