import Verif.Rewrite.GemmLemmas

/-! # The patterns that change the weights and the bias of a convolution keep results -/

namespace Verif.Rewrite

variable {V : Type} [Inhabited V] {A : Alg V} {env : ℕ → Tensor V}

/-- The replacement has the value, and its parts have right types. -/
theorem replaced {o o' : Op} {as as' : List (Ex V)} {ty : STy} {v : Option (Tensor V)}
    (h : Typed A env (.op o as ty)) (he : eval A env (.op o as ty) = some v)
    (he' : eval A env (.op o' as' ty) = some v) (hk : EltOk o' (as'.map Ex.ty) ty.elt)
    (h' : TypedL A env as') : eval A env (.op o' as' ty) = some v ∧ Typed A env (.op o' as' ty) ∧
      (Ex.op o' as' ty).ty.elt = (Ex.op o as ty).ty.elt :=
  ⟨he', typed_same h he he' hk h', rfl⟩

theorem typed_arith {f : Bin} (hf : f = .add ∨ f = .mul ∨ f = .sub ∨ f = .div) {a b : Ex V} {d : DT}
    (ha : Typed A env a) (hb : Typed A env b) (h1 : a.ty.elt = d) (h2 : b.ty.elt = d) :
    Typed A env (mk (.binary f) [a, b] d) := by
  refine typed_unranked ?_ ?_
  · simp only [typedL_cons]
    exact ⟨ha, hb, typedL_nil⟩
  · have : a.ty.elt = b.ty.elt ∧ d = a.ty.elt := ⟨h1.trans h2.symm, h1.symm⟩
    rcases hf with rfl | rfl | rfl | rfl <;> exact this

theorem typed_squeeze {a s : Ex V} {d : DT} (ha : Typed A env a) (hs : Typed A env s) (h : a.ty.elt = d) :
    Typed A env (mk .squeeze [a, s] d) := by
  refine typed_unranked ?_ h.symm
  simp only [typedL_cons]
  exact ⟨ha, hs, typedL_nil⟩

theorem typed_unsqueeze {a s : Ex V} {d : DT} (ha : Typed A env a) (hs : Typed A env s) (h : a.ty.elt = d) :
    Typed A env (mk .unsqueeze [a, s] d) := by
  refine typed_unranked ?_ h.symm
  simp only [typedL_cons]
  exact ⟨ha, hs, typedL_nil⟩

/-- The constant has as many channels as the convolution. -/
def BiasPerChannel (A : Alg V) (env : ℕ → Tensor V) : Ex V → Prop
  | .op _ [.op _ [_, k, _] _, y] _ => ∀ w t, eval A env k = some (some w) → eval A env y = some (some t) →
      t.shape.headD 0 = w.shape.headD 0
  | _ => True

/-- The constant has as many channels as the convolution or one, and the bias of the convolution has the element type
of its result. -/
def BiasPerChannelOrOne (A : Alg V) (env : ℕ → Tensor V) : Ex V → Prop
  | .op _ [.op _ [_, k, b] cty, y] _ => b.ty.elt = cty.elt ∧
      ∀ w t, eval A env k = some (some w) → eval A env y = some (some t) →
        t.shape.headD 0 = w.shape.headD 0 ∨ t.shape.headD 0 = 1
  | _ => True

/-- The shape of a sum that has one axis more than its second operand. -/
theorem rank_of_sum {f : V → V → V} {a b z : Tensor V} {n m k : ℕ} {outs : List ℕ}
    (ha : a.shape = n :: m :: outs) (hb : b.shape.length = k + 1) (h : binary f a b = some z)
    (hz : z.shape.length = k + 2) : outs.length = k := by
  unfold binary at h
  obtain ⟨s, h1, rfl⟩ := Option.map_eq_some_iff.1 h
  have := bshape_length h1
  rw [build_shape] at hz
  rw [ha, hb, hz] at this
  simp only [List.length_cons] at this
  omega

theorem ty_length {ty : STy} {n : ℕ} {s : List ℕ} (h : ty.dims.map List.length = some n) (hf : ty.Fits s) :
    s.length = n := by
  obtain ⟨ds, h1, h2⟩ := Option.map_eq_some_iff.1 h
  rw [← h2]
  exact (List.Forall₂.length_eq (hf ds h1)).symm

theorem fuseAddConvNullBias_sound : SoundOn A (BiasPerChannel A) (fuseAddConvNullBias A) := by
  intro env e e' hr ht hp v hv
  unfold fuseAddConvNullBias at hr
  split at hr
  · rename_i w x k cty y d ty
    split at hr
    · rename_i hc
      cases hr
      simp only [Bool.and_eq_true, decide_eq_true_eq] at hc
      obtain ⟨⟨hr1, hr2⟩, hr3⟩ := hc
      have hfit := typed_fits ht (t := v.getD y)
      obtain ⟨m, t, z, h1, h2, h3, rfl⟩ := eval_binary.1 hv
      have hlen := ty_length hr1 (hfit hv)
      rw [eval] at h2
      cases h2
      obtain ⟨x', w', b', m', g1, g2, g3, g4, g5⟩ := eval_conv.1 h1
      cases g5
      rw [eval] at g3
      cases g3
      have hq := hp w' y g2 (by rw [eval])
      obtain ⟨n, c, xs, M, cg, ks, ax, k1, k2, k3, k4, -, rfl⟩ := conv_some.1 g4
      rw [k2] at hq
      simp only [List.headD_cons] at hq
      have hys := onesFrom1_chan hr3 hr2
      rw [hq] at hys
      have hout := rank_of_sum (n := n) (m := M) (outs := ax.map WinAx.out) (k := y.shape.length - 1) rfl (by omega) h3
        (by simp only [Option.getD_some] at hlen; omega)
      obtain ⟨u, q1, q2, q3⟩ := eval_squeeze_chan (A := A) (env := env) (ty := .unranked d)
        (e := .const y d) (t := y) (by rw [eval]) hys
      rw [binary_chan (pre := [n]) (d := M) (rest := ax.map WinAx.out) rfl hys hout] at h3
      cases h3
      have hnew : eval A env (.op (.conv w) [x, k, mk .squeeze [.const y d,
          intsConst A (nToM 1 (y.shape.length - 1))] d] ty) = some (some _) :=
        eval_conv.2 ⟨x', w', some u, _, g1, g2, q1, conv_some.2 ⟨n, c, xs, M, cg, ks, ax, k1, k2, k3, k4,
          fun t ht => by cases ht; exact q2, rfl⟩, rfl⟩
      have hty := ht
      rw [typed_op] at ht
      obtain ⟨-, hk, hl⟩ := ht
      simp only [typedL_cons] at hl
      have hm := hl.1
      rw [typed_op] at hm
      obtain ⟨-, hkm, hlm⟩ := hm
      simp only [typedL_cons] at hlm
      refine replaced hty hv ?_ ?_ ?_
      · rw [hnew]
        congr 2
        refine build_congr fun i hi => ?_
        have hi' : InBounds (n :: M :: ax.map WinAx.out) i := hi
        rw [get_build _ hi']
        simp only [Option.map_none, Option.map_some, addOpt, List.length_singleton]
        rw [vec_get q2, q3]
      · have e1 : cty.elt = d ∧ ty.elt = cty.elt := hk
        have e2 : x.ty.elt = k.ty.elt ∧ cty.elt = x.ty.elt := hkm
        exact ⟨e2.1, e1.2.trans e2.2⟩
      · simp only [typedL_cons]
        exact ⟨hlm.1, hlm.2.1, typed_squeeze typed_const typed_const rfl, typedL_nil⟩
    · cases hr
  · cases hr

/-- The only element is the first one. -/
theorem ones_get {t : Tensor V} {k : ℕ} {i : List ℕ} (h : t.shape = chan 1 k) (hi : InBounds t.shape i) :
    t.get i = t.data.getD 0 default := by
  unfold Tensor.get
  have : t.shape = List.replicate (k + 1) 1 := by rw [h, chan, List.replicate_succ]
  rw [this] at hi ⊢
  rw [rowMajor_ones _ _ hi]

theorem bto_ones {s : List ℕ} {k : ℕ} (h : k + 1 ≤ s.length) : Bto (chan 1 k) s := by
  refine ⟨by simp [chan]; omega, fun j hj => .inl ?_⟩
  have : chan 1 k = List.replicate (k + 1) 1 := by rw [chan, List.replicate_succ]
  rw [this] at hj ⊢
  rw [List.getD_eq_getElem _ _ hj]
  simp

/-- An operator whose second operand has one element. -/
theorem binary_ones {f : V → V → V} {a b : Tensor V} {k : ℕ} (hb : b.shape = chan 1 k) (h : k + 1 ≤ a.shape.length) :
    binary f a b = some (build a.shape fun i => f (a.get i) (b.data.getD 0 default)) := by
  have hbt : Bto b.shape a.shape := by rw [hb]; exact bto_ones h
  rw [binary_bto (bshape_of_bto hbt)]
  congr 1
  exact build_congr fun i hi => by rw [ones_get hb (hbt.inBounds hi)]

theorem vec_data {d j : ℕ} (g : List ℕ → V) (hj : j < d) : (build [d] g).data.getD j default = g [j] := by
  have hi : InBounds [d] [j] := by simpa using hj
  rw [← vec_get (t := build [d] g) (d := d) rfl, get_build _ hi]

theorem fuseAddConv_sound (hA : ∀ x y z, A.bin .add (A.bin .add x y) z = A.bin .add x (A.bin .add y z)) :
    SoundOn A (BiasPerChannelOrOne A) (fuseAddConv A) := by
  intro env e e' hr ht hp v hv
  unfold fuseAddConv at hr
  split at hr
  · rename_i w x k b cty y d ty
    split at hr
    · cases hr
    · rename_i hbn
      split at hr
      · rename_i hc
        cases hr
        simp only [Bool.and_eq_true, decide_eq_true_eq] at hc
        obtain ⟨⟨hr1, hr2⟩, hr3⟩ := hc
        have hfit := typed_fits ht (t := v.getD y)
        obtain ⟨m, t, z, h1, h2, h3, rfl⟩ := eval_binary.1 hv
        have hlen := ty_length hr1 (hfit hv)
        rw [eval] at h2
        cases h2
        obtain ⟨x', w', b', m', g1, g2, g3, g4, g5⟩ := eval_conv.1 h1
        cases g5
        obtain ⟨b', rfl⟩ : ∃ b1, b' = some b1 := by
          cases b with
          | none => exact absurd rfl hbn
          | arg i ty => rw [eval] at g3; cases g3; exact ⟨_, rfl⟩
          | const t d => rw [eval] at g3; cases g3; exact ⟨_, rfl⟩
          | op o as ty =>
            rw [eval] at g3
            obtain ⟨vs, -, hvs⟩ := Option.bind_eq_some_iff.1 g3
            obtain ⟨u, -, hu⟩ := Option.map_eq_some_iff.1 hvs
            exact ⟨u, hu.symm⟩
        obtain ⟨hbt, hq⟩ := hp
        have hq := hq w' y g2 (by rw [eval])
        obtain ⟨n, c, xs, M, cg, ks, ax, k1, k2, k3, k4, k5, rfl⟩ := conv_some.1 g4
        rw [k2] at hq
        simp only [List.headD_cons] at hq
        have hbs := k5 _ rfl
        have hys := onesFrom1_chan hr3 hr2
        have hout := rank_of_sum (n := n) (m := M) (outs := ax.map WinAx.out) (k := y.shape.length - 1) rfl (by omega) h3
          (by simp only [Option.getD_some] at hlen; omega)
        obtain ⟨u, q1, q2, q3⟩ := eval_squeeze_chan (A := A) (env := env) (ty := .unranked d)
          (e := .const y d) (t := y) (by rw [eval]) hys
        have key : ∃ s, binary (A.bin .add) b' u = some s ∧ s.shape = [M] ∧
            z = build (n :: M :: ax.map WinAx.out) fun idx =>
              A.bin .add (convDot A ax w.group M cg ks x' w' idx) (s.get [idx.getD 1 0]) := by
          rcases hq with hq | hq
          · rw [hq] at hys q2
            rw [binary_chan (pre := [n]) (d := M) (rest := ax.map WinAx.out) rfl hys hout] at h3
            cases h3
            obtain ⟨s, r1, r2, r3⟩ := binary_vecs (f := A.bin .add) hbs q2
            refine ⟨s, r1, r2, ?_⟩
            refine build_congr fun i hi => ?_
            have hi' : InBounds (n :: M :: ax.map WinAx.out) i := hi
            rw [get_build _ hi', vec_get r2, r3 _ (by
              have := (inBounds_getD.1 hi').2 1 (by simp)
              simpa using this), ← q3]
            simp only [Option.map_some, addOpt, List.length_singleton]
            rw [hA, vec_get hbs]
          · rw [hq] at hys q2
            rw [binary_ones hys (by simp only [build_shape, List.length_cons, hout]; omega)] at h3
            cases h3
            obtain ⟨s, r1, r2, r3⟩ := binary_vec_one (f := A.bin .add) hbs q2
            refine ⟨s, r1, r2, ?_⟩
            refine build_congr fun i hi => ?_
            have hi' : InBounds (n :: M :: ax.map WinAx.out) i := hi
            rw [get_build _ hi', vec_get r2, r3 _ (by
              have := (inBounds_getD.1 hi').2 1 (by simp)
              simpa using this), ← q3]
            simp only [Option.map_some, addOpt]
            rw [hA, vec_get hbs]
        obtain ⟨s, s1, s2, rfl⟩ := key
        have hnew : eval A env (.op (.conv w) [x, k, mk (.binary .add) [b, mk .squeeze [.const y d,
            intsConst A (nToM 1 (y.shape.length - 1))] d] b.ty.elt] ty) = some (some _) :=
          eval_conv.2 ⟨x', w', some s, _, g1, g2, eval_binary.2 ⟨b', u, s, g3, q1, s1, rfl⟩,
            conv_some.2 ⟨n, c, xs, M, cg, ks, ax, k1, k2, k3, k4, fun t ht => by cases ht; exact s2, rfl⟩, rfl⟩
        have hty := ht
        rw [typed_op] at ht
        obtain ⟨-, hk, hl⟩ := ht
        simp only [typedL_cons] at hl
        have hm := hl.1
        rw [typed_op] at hm
        obtain ⟨-, hkm, hlm⟩ := hm
        simp only [typedL_cons] at hlm
        have e1 : cty.elt = d ∧ ty.elt = cty.elt := hk
        have e2 : x.ty.elt = k.ty.elt ∧ cty.elt = x.ty.elt := hkm
        refine replaced hty hv hnew ?_ ?_
        · exact ⟨e2.1, e1.2.trans e2.2⟩
        · simp only [typedL_cons]
          exact ⟨hlm.1, hlm.2.1, typed_arith (.inl rfl) hlm.2.2.1 (typed_squeeze typed_const typed_const rfl) rfl
            (by rw [hbt]; exact e1.1.symm), typedL_nil⟩
      · cases hr
  · cases hr

theorem fuseMulConvNullBias_sound [CommRing V] (hA : RingAlg A) : Sound A (fuseMulConvNullBias A) := by
  intro env e e' hr ht v hv
  unfold fuseMulConvNullBias at hr
  split at hr
  · rename_i a x w wd cty y d ty
    split at hr
    · rename_i hc
      cases hr
      simp only [Bool.and_eq_true, decide_eq_true_eq] at hc
      obtain ⟨⟨⟨⟨⟨hwd, hr1⟩, hr2⟩, hq⟩, hr4⟩, hr3⟩ := hc
      subst hwd
      obtain ⟨m, t, z, h1, h2, h3, rfl⟩ := eval_binary.1 hv
      rw [eval] at h2
      cases h2
      obtain ⟨x', w', b', m', g1, g2, g3, g4, g5⟩ := eval_conv.1 h1
      cases g5
      rw [eval] at g3
      cases g3
      rw [eval] at g2
      cases g2
      obtain ⟨n, c, xs, M, cg, ks, ax, k1, k2, k3, k4, -, rfl⟩ := conv_some.1 g4
      have hwl := winAxes_length k3
      have hys := onesFrom1_chan hr3 hr4
      rw [← hq, k2, List.headD_cons] at hys
      have hkl : y.shape.length - 1 = ks.length := by
        rw [k2] at hr2
        simp only [List.length_cons] at hr2
        omega
      have hout : (ax.map WinAx.out).length = y.shape.length - 1 := by
        rw [hkl, List.length_map, hwl.1, hwl.2]
      obtain ⟨u, q1, q2, q3⟩ := unsqueeze_last hys
      rw [show y.shape.length - 1 + 1 = y.shape.length by omega] at q1
      have hwm := binary_chan (f := A.bin .mul) (a := w) (b := u) (pre := []) (d := M) (rest := cg :: ks) k2 q2
        (by simp only [List.length_cons]; omega)
      rw [binary_chan (pre := [n]) (d := M) (rest := ax.map WinAx.out) rfl hys hout] at h3
      cases h3
      have hnew : eval A env (.op (.conv a) [x, mk (.binary .mul) [.const w wd,
          mk .unsqueeze [.const y wd, intsConst A [(y.shape.length : ℤ)]] wd] wd, .none] ty) = some (some _) :=
        eval_conv.2 ⟨x', _, none, _, g1, eval_binary.2 ⟨w, u, _, by rw [eval], eval_unsqueeze.2
          ⟨y, _, _, u, by rw [eval], by rw [intsConst, eval], ints_ofInts _, q1, rfl⟩, hwm, rfl⟩, by rw [eval],
          conv_some.2 ⟨n, c, xs, M, cg, ks, ax, k1, rfl, k3, k4, (fun t ht => by cases ht), rfl⟩, rfl⟩
      have hty := ht
      rw [typed_op] at ht
      obtain ⟨-, hk, hl⟩ := ht
      simp only [typedL_cons] at hl
      have hm := hl.1
      rw [typed_op] at hm
      obtain ⟨-, hkm, hlm⟩ := hm
      simp only [typedL_cons] at hlm
      have e1 : cty.elt = wd ∧ ty.elt = cty.elt := hk
      have e2 : x.ty.elt = wd ∧ cty.elt = x.ty.elt := hkm
      refine replaced hty hv ?_ ?_ ?_
      · rw [hnew]
        congr 2
        refine build_congr fun i hi => ?_
        have hi' : InBounds (n :: M :: ax.map WinAx.out) i := hi
        have hlt : i.getD 1 0 < M := by
          have := (inBounds_getD.1 hi').2 1 (by simp)
          simpa using this
        rw [get_build _ hi']
        simp only [Option.map_none, addOpt, List.length_singleton]
        rw [hA.mul]
        refine convDot_scale hA fun ck hck => ?_
        have hb : InBounds ([] ++ M :: cg :: ks) (i.getD 1 0 :: ck) := by
          simp only [List.nil_append]
          rw [inBounds_cons]
          exact ⟨hlt, hck⟩
        rw [get_build _ hb, hA.mul, q3]
        rfl
      · exact ⟨e2.1, e1.2.trans e2.2⟩
      · simp only [typedL_cons]
        exact ⟨hlm.1, typed_arith (.inr (.inl rfl)) typed_const (typed_unsqueeze typed_const typed_const rfl) rfl rfl,
          hlm.2.2.1, typedL_nil⟩
    · cases hr
  · cases hr

end Verif.Rewrite
