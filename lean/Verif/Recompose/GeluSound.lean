import Verif.Recompose.NormSound
import Verif.Decompose.Sum

/-! # Recomposed Gelu computes the same -/

namespace Verif.Recompose

open Verif.Rewrite Verif.Decompose

/-- The value of an expression, stretched to the shape `s`, is `F i` at index `i`. -/
def At (g : Bool → ℝ → ℝ) (env : ℕ → Tensor ℝ) (s : List ℕ) (e : T) (F : List ℕ → ℝ) : Prop :=
  ∃ t, e.eval g env = some t ∧ Bto t.shape s ∧ ∀ i, InBounds s i → t.get (bidx t.shape i) = F i

section
variable {g : Bool → ℝ → ℝ} {env : ℕ → Tensor ℝ} {s : List ℕ} {rnd : ℝ → ℝ} {I : Info}

theorem At.unique {e : T} {F F' : List ℕ → ℝ} (h : At g env s e F) (h' : At g env s e F') {i : List ℕ}
    (hi : InBounds s i) : F i = F' i := by
  obtain ⟨t, ht, -, h⟩ := h
  obtain ⟨t', ht', -, h'⟩ := h'
  rw [ht] at ht'
  cases ht'
  rw [← h i hi, h' i hi]

theorem At.bi {b : NBi} {e f : T} {F : List ℕ → ℝ} (h : At g env s (.bi b e f) F) :
    ∃ F1 F2, At g env s e F1 ∧ At g env s f F2 ∧
      ∀ i, InBounds s i → F i = nbiR b (F1 i) (F2 i) ∧ NBiDef b (F1 i) (F2 i) := by
  obtain ⟨t, ht, hb, hF⟩ := h
  obtain ⟨p, q, hp, hq, hpq⟩ := eval_bi ht
  obtain ⟨r, hr, hdef, rfl⟩ := nbinary_some.1 hpq
  have b1 := bto_bshape hr
  have b2 := bto_bshape_right hr
  refine ⟨_, _, ⟨p, hp, b1.trans hb, fun _ _ => rfl⟩, ⟨q, hq, b2.trans hb, fun _ _ => rfl⟩, fun i hi => ?_⟩
  have hin := hb.inBounds hi
  have hl : r.length ≤ i.length := by rw [hi.length_eq]; exact hb.1
  have h1 := hF i hi
  have h2 := hdef _ hin
  rw [build_shape] at h1 hin
  rw [get_build _ hin] at h1
  rw [bidx_bidx b1 hl, bidx_bidx b2 hl] at h1
  rw [build_shape, bidx_bidx b1 hl, bidx_bidx b2 hl] at h2
  exact ⟨h1.symm, h2⟩

theorem At.un {u : NUn} {e : T} {F : List ℕ → ℝ} (h : At g env s (.un u e) F) :
    ∃ F1, At g env s e F1 ∧ ∀ i, InBounds s i → F i = nunR u (F1 i) := by
  obtain ⟨t, ht, hb, hF⟩ := h
  obtain ⟨p, hp, hpq⟩ := eval_un ht
  obtain ⟨-, rfl⟩ := nunary_some.1 hpq
  refine ⟨_, ⟨p, hp, hb, fun _ _ => rfl⟩, fun i hi => ?_⟩
  rw [← hF i hi]
  exact get_map _ _ (hb.inBounds hi)

theorem At.const {e : T} {n : ℝ} {F : List ℕ → ℝ} (hc : ConstOf rnd e n) (h : At g env s e F) {i : List ℕ}
    (hi : InBounds s i) : F i = rnd n := by
  obtain ⟨t, rfl, hv⟩ := hc
  obtain ⟨t', ht, hb, hF⟩ := h
  cases ht
  rw [← hF i hi]
  exact hv _ (get_mem (hb.inBounds hi))

theorem constAndOp_some {α : Type} {as : T → Option α} {n : ℝ} {a b : T} {r : α}
    (h : constAndOp rnd as n a b = some r) : (ConstOf rnd a n ∧ as b = some r) ∨ (as a = some r ∧ ConstOf rnd b n) := by
  unfold constAndOp at h
  split at h
  · rename_i hc
    exact .inl ⟨hc.1, h⟩
  · split at h
    · rename_i hc
      exact .inr ⟨h, hc.2⟩
    · cases h

theorem valueAndOp_some {α : Type} {as : T → Option α} {x a b : T} {r : α}
    (h : valueAndOp I as x a b = some r) : (I.same a x = true ∧ as b = some r) ∨ (as a = some r ∧ I.same b x = true) := by
  unfold valueAndOp at h
  split at h
  · rename_i hc
    exact .inl ⟨hc.1, h⟩
  · split at h
    · rename_i hc
      exact .inr ⟨h, hc.2⟩
    · cases h

/-- A product or sum of a constant and the result of an operator. -/
theorem at_constAndOp {b : NBi} (hcomm : ∀ v w, nbiR b v w = nbiR b w v) {α : Type} {as : T → Option α} {n : ℝ}
    {p q : T} {r : α} (h : constAndOp rnd as n p q = some r) {F : List ℕ → ℝ} (hA : At g env s (.bi b p q) F) :
    ∃ e F1, as e = some r ∧ At g env s e F1 ∧ ∀ i, InBounds s i → F i = nbiR b (rnd n) (F1 i) := by
  obtain ⟨F1, F2, h1, h2, h3⟩ := hA.bi
  rcases constAndOp_some h with ⟨g1, g2⟩ | ⟨g1, g2⟩
  · exact ⟨q, F2, g2, h2, fun i hi => by rw [(h3 i hi).1, h1.const g1 hi]⟩
  · exact ⟨p, F1, g1, h1, fun i hi => by rw [(h3 i hi).1, h2.const g2 hi, hcomm]⟩

theorem halfIn_at (hr : rnd (1 / 2) = 1 / 2) {e a : T} (h : halfIn rnd e = some a) {F : List ℕ → ℝ}
    (hA : At g env s e F) : ∃ F1, At g env s a F1 ∧ ∀ i, InBounds s i → F i = 1 / 2 * F1 i := by
  unfold halfIn at h
  split at h
  · cases h
  rename_i l r hlr
  rw [asBi_some hlr] at hA
  obtain ⟨F1, F2, h1, h2, h3⟩ := hA.bi
  split at h
  · rename_i hc
    cases h
    exact ⟨F2, h2, fun i hi => by rw [(h3 i hi).1, h1.const hc hi, hr]; rfl⟩
  split at h
  · rename_i hc
    cases h
    exact ⟨F1, h1, fun i hi => by rw [(h3 i hi).1, h2.const hc hi, hr]; exact mul_comm _ _⟩
  · cases h

theorem matchHalf_at (hr : rnd (1 / 2) = 1 / 2) {a b p q : T} (h : matchHalf rnd a b = some (p, q)) {F : List ℕ → ℝ}
    (hA : At g env s (.bi .mul a b) F) :
    ∃ F1 F2, At g env s p F1 ∧ At g env s q F2 ∧ ∀ i, InBounds s i → F i = 1 / 2 * (F1 i * F2 i) := by
  unfold matchHalf at h
  split at h
  · rename_i r hc
    cases h
    obtain ⟨e, F0, he, hF0, hF⟩ := at_constAndOp (b := .mul) (fun v w => mul_comm v w) hc hA
    rw [asBi_some he] at hF0
    obtain ⟨F1, F2, h1, h2, h3⟩ := hF0.bi
    exact ⟨F1, F2, h1, h2, fun i hi => by rw [hF i hi, (h3 i hi).1, hr]; rfl⟩
  · split at h
    · cases h
    obtain ⟨F1, F2, h1, h2, h3⟩ := hA.bi
    split at h
    · rename_i x hx
      cases h
      obtain ⟨F0, g1, g2⟩ := halfIn_at hr hx h1
      refine ⟨F0, F2, g1, h2, fun i hi => ?_⟩
      rw [(h3 i hi).1, g2 i hi]
      exact mul_assoc _ _ _
    · obtain ⟨x, hx, hh⟩ := Option.map_eq_some_iff.1 h
      cases hh
      obtain ⟨F0, g1, g2⟩ := halfIn_at hr hx h2
      refine ⟨F1, F0, h1, g1, fun i hi => ?_⟩
      rw [(h3 i hi).1, g2 i hi]
      exact mul_left_comm _ _ _

theorem onePlus_at (hr : rnd 1 = 1) {u : NUn} {p q x e : T} (h : onePlus rnd u p q = some (x, e)) {F1 F2 : List ℕ → ℝ}
    (h1 : At g env s p F1) (h2 : At g env s q F2) :
    ∃ Fx Fe, At g env s x Fx ∧ At g env s e Fe ∧ ∀ i, InBounds s i → F1 i * F2 i = Fx i * (1 + nunR u (Fe i)) := by
  have key : ∀ {t e : T} {F : List ℕ → ℝ}, At g env s t F →
      ((t.asBi .add).bind fun p => constAndOp rnd (T.asUn u) 1 p.1 p.2) = some e →
      ∃ Fe, At g env s e Fe ∧ ∀ i, InBounds s i → F i = 1 + nunR u (Fe i) := by
    intro t e F hA hh
    obtain ⟨⟨c, d⟩, h3, h4⟩ := Option.bind_eq_some_iff.1 hh
    rw [asBi_some h3] at hA
    obtain ⟨e', F0, he, hF0, hF⟩ := at_constAndOp (b := .add) (fun v w => add_comm v w) h4 hA
    rw [asUn_some he] at hF0
    obtain ⟨Fe, h5, h6⟩ := hF0.un
    exact ⟨Fe, h5, fun i hi => by rw [hF i hi, h6 i hi, hr]; rfl⟩
  unfold onePlus at h
  split at h
  · rename_i e' he
    cases h
    obtain ⟨Fe, g1, g2⟩ := key h1 he
    exact ⟨F2, Fe, h2, g1, fun i hi => by rw [g2 i hi, mul_comm]⟩
  · obtain ⟨e', he, hh⟩ := Option.map_eq_some_iff.1 h
    cases hh
    obtain ⟨Fe, g1, g2⟩ := key h2 he
    exact ⟨F1, Fe, h1, g1, fun i hi => by rw [g2 i hi]⟩

theorem matchErf_at (hI : I.Ok g env) {x e e' : T} (h : matchErf I rnd x e = some e') {Fx Fe : List ℕ → ℝ}
    (hx : At g env s x Fx) (he : At g env s e Fe) :
    e' = .gelu false x ∧ ∀ i, InBounds s i → Fe i = Fx i / rnd 1.41421354 := by
  unfold matchErf at h
  split at h
  · cases h
  rename_i p q hpq
  split at h
  · rename_i hc
    cases h
    rw [asBi_some hpq, hI.same _ _ hc.1] at he
    obtain ⟨F1, F2, h1, h2, h3⟩ := he.bi
    refine ⟨rfl, fun i hi => ?_⟩
    rw [(h3 i hi).1, h1.unique hx hi, h2.const hc.2 hi]
    rfl
  · cases h

theorem matchTanh_at (hI : I.Ok g env) (hr : rnd 3 = 3) {x e e' : T} (h : matchTanh I rnd x e = some e')
    {Fx Fe : List ℕ → ℝ} (hx : At g env s x Fx) (he : At g env s e Fe) :
    e' = .gelu true x ∧
      ∀ i, InBounds s i → Fe i = rnd 0.797884583 * (Fx i + rnd 0.044715 * Fx i ^ 3) := by
  unfold matchTanh at h
  obtain ⟨p1, hp1, h⟩ := Option.bind_eq_some_iff.1 h
  obtain ⟨p2, hp2, h⟩ := Option.bind_eq_some_iff.1 h
  obtain ⟨p3, hp3, h⟩ := Option.bind_eq_some_iff.1 h
  obtain ⟨p4, hp4, h⟩ := Option.bind_eq_some_iff.1 h
  split at h
  swap
  · cases h
  rename_i hc
  cases h
  refine ⟨rfl, ?_⟩
  rw [asBi_some hp1] at he
  obtain ⟨e1, F1, g1, g2, g3⟩ := at_constAndOp (b := .mul) (fun v w => mul_comm v w) hp2 he
  rw [asBi_some (p := p2.1) (q := p2.2) g1] at g2
  obtain ⟨A, B, k1, k2, k3⟩ := g2.bi
  -- x + c * x^3
  obtain ⟨m, Fm, hm, hFm, hsum⟩ : ∃ m Fm, m = T.bi .mul p3.1 p3.2 ∧ At g env s m Fm ∧
      ∀ i, InBounds s i → F1 i = Fx i + Fm i := by
    rcases valueAndOp_some hp3 with ⟨a1, a2⟩ | ⟨a1, a2⟩
    · rw [hI.same _ _ a1] at k1
      exact ⟨_, B, asBi_some a2, k2, fun i hi => by rw [(k3 i hi).1, k1.unique hx hi]; rfl⟩
    · rw [hI.same _ _ a2] at k2
      exact ⟨_, A, asBi_some a1, k1, fun i hi => by rw [(k3 i hi).1, k2.unique hx hi]; exact add_comm _ _⟩
  rw [hm] at hFm
  obtain ⟨e2, F2, l1, l2, l3⟩ := at_constAndOp (b := .mul) (fun v w => mul_comm v w) hp4 hFm
  rw [asBi_some (p := p4.1) (q := p4.2) l1] at l2
  obtain ⟨P, Q, n1, n2, n3⟩ := l2.bi
  rw [hI.same _ _ hc.1] at n1
  intro i hi
  have h3 : (Fx i : ℝ) ^ (3 : ℝ) = Fx i ^ 3 := by
    rw [show (3 : ℝ) = ((3 : ℕ) : ℝ) by norm_num, Real.rpow_natCast]
  rw [g3 i hi, hsum i hi, l3 i hi, (n3 i hi).1, n1.unique hx hi, n2.const hc.2 hi, hr]
  show rnd 0.797884583 * (Fx i + rnd 0.044715 * Fx i ^ (3 : ℝ)) = _
  rw [h3]

end

/-- The type of the constants: 1/2, 1 and 3 are exact. -/
structure ExactSmall (rnd : ℝ → ℝ) : Prop where
  half : rnd (1 / 2) = 1 / 2
  one : rnd 1 = 1
  three : rnd 3 = 3

/-- Gelu with the constants that the compiler looks for, rounded. -/
noncomputable def geluRnd (rnd : ℝ → ℝ) : Bool → ℝ → ℝ :=
  geluWith (rnd 1.41421354) (rnd 0.797884583) (rnd 0.044715)

theorem recomposeGelu_sound {I : Info} {rnd : ℝ → ℝ} {env : ℕ → Tensor ℝ} (hI : I.Ok (geluRnd rnd) env)
    (hr : ExactSmall rnd) {a b e' : T} (h : recomposeGelu I rnd a b = .ok e') {y : Tensor ℝ}
    (hy : (T.bi .mul a b).eval (geluRnd rnd) env = some y)
    (hsh : ∀ X, e'.data.eval (geluRnd rnd) env = some X → y.shape = X.shape) : e'.eval (geluRnd rnd) env = some y := by
  have hA : At (geluRnd rnd) env y.shape (.bi .mul a b) y.get :=
    ⟨y, hy, bto_of_bshape (bshape_self _), fun i hi => by rw [bidx_self hi]⟩
  unfold recomposeGelu at h
  split at h
  · cases h
  rename_i p q hpq
  obtain ⟨F1, F2, h1, h2, h3⟩ := matchHalf_at hr.half hpq hA
  have fin : ∀ {tanh : Bool} {x : T} {Fx : List ℕ → ℝ}, e' = .gelu tanh x → At (geluRnd rnd) env y.shape x Fx →
      (∀ i, InBounds y.shape i → y.get i = geluRnd rnd tanh (Fx i)) → e'.eval (geluRnd rnd) env = some y := by
    rintro tanh x Fx rfl ⟨X, hX, hb, hF⟩ hv
    have hs := hsh X hX
    show (x.eval _ env).map _ = _
    rw [hX, Option.map_some]
    refine congrArg some (Tensor.ext' hs.symm fun i hi => ?_)
    rw [map_shape] at hi
    have hi' : InBounds y.shape i := by rw [hs]; exact hi
    rw [get_map _ _ hi, hv i hi', ← hF i hi', bidx_self hi]
  split at h
  · rename_i x e hxe
    rcases hm : matchErf I rnd x e with _ | e1
    · rw [hm] at h; cases h
    rw [hm] at h
    cases h
    obtain ⟨Fx, Fe, g1, g2, g3⟩ := onePlus_at hr.one hxe h1 h2
    obtain ⟨k1, k2⟩ := matchErf_at hI hm g1 g2
    refine fin k1 g1 fun i hi => ?_
    rw [h3 i hi, g3 i hi, k2 i hi, ← mul_assoc]
    rfl
  split at h
  · rename_i x e hxe
    rcases hm : matchTanh I rnd x e with _ | e1
    · rw [hm] at h; cases h
    rw [hm] at h
    cases h
    obtain ⟨Fx, Fe, g1, g2, g3⟩ := onePlus_at hr.one hxe h1 h2
    obtain ⟨k1, k2⟩ := matchTanh_at hI hr.three hm g1 g2
    refine fin k1 g1 fun i hi => ?_
    rw [h3 i hi, g3 i hi, k2 i hi, ← mul_assoc]
    rfl
  · cases h

end Verif.Recompose
