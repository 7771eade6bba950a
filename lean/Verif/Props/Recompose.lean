import Verif.Recompose.NormCrash
import Verif.Recompose.GeluError

/-!
# C98: normalisations and Gelu are recognised

Specification: `meanR`, `layerNormR`, `rmsNormR`, `geluR` (`Verif/Recompose/NormSpec.lean`), `T.eval`
(`Verif/Recompose/NormModel.lean`), `Info.Ok`, `Sub`, `EpsIsDefault` and `T.data` (`Verif/Recompose/NormSound.lean`).
-/

namespace Verif.Props

open Verif.Rewrite
open Verif.Recompose

/-- When a Mul is replaced by LayerNormalization or RMSLayerNormalization, the result is the same, for every form of
the pattern, any rank, any axes, and any true information about the graph. Partial: epsilon is the default, or a
constant given by `value_float` (`C98_epsilon_false`), and the scale does not enlarge the result
(`C98_scale_false`). -/
theorem C98_norm_partial {I : Info} {g : Bool → ℝ → ℝ} {env : ℕ → Tensor ℝ} (hI : I.Ok g env) {a b e' : T}
    (h : recomposeNorm I a b = .ok e') {y : Tensor ℝ} (hy : (T.bi .mul a b).eval g env = some y)
    (hd : EpsIsDefault (.bi .mul a b)) (hsh : ∀ X, e'.data.eval g env = some X → y.shape = X.shape) :
    e'.eval g env = some y := recomposeNorm_sound hI h hd hy hsh

/-- When a Mul is replaced by Gelu, the result is that of Gelu with the constants rounded to the element type, for
every form of the pattern and constants of any shape. Partial: the constants do not enlarge the result
(`C98_gelu_shape_false`). -/
theorem C98_gelu_partial {I : Info} {rnd : ℝ → ℝ} {env : ℕ → Tensor ℝ} (hI : I.Ok (geluRnd rnd) env)
    (hr : ExactSmall rnd) {a b e' : T} (h : recomposeGelu I rnd a b = .ok e') {y : Tensor ℝ}
    (hy : (T.bi .mul a b).eval (geluRnd rnd) env = some y)
    (hsh : ∀ X, e'.data.eval (geluRnd rnd) env = some X → y.shape = X.shape) :
    e'.eval (geluRnd rnd) env = some y := recomposeGelu_sound hI hr h hy hsh

/-- In single precision the rounded constants change Gelu by at most `1e-8 * x^2`, and its approximation by at most
`2e-8 * (x^2 + x^4)`, for every `x`. -/
theorem C98_gelu_error {rnd : ℝ → ℝ} (h : RoundsF32 rnd) (x : ℝ) :
    |geluRnd rnd false x - geluR false x| ≤ 1e-8 * x ^ 2 ∧
    |geluRnd rnd true x - geluR true x| ≤ 2e-8 * (x ^ 2 + x ^ 4) :=
  ⟨gelu_f32 h _ _ x, gelu_tanh_f32 h _ x⟩

/-! ### Replacements anywhere in an expression -/

/-- A replacement of one Mul that is covered by `C98_norm_partial` or `C98_gelu_partial`. -/
def Replaces (rnd : ℝ → ℝ) (env : ℕ → Tensor ℝ) (e e' : T) : Prop :=
  ∃ I a b, Info.Ok I (geluRnd rnd) env ∧ e = .bi .mul a b ∧
    ((recomposeNorm I a b = .ok e' ∧ EpsIsDefault e) ∨ recomposeGelu I rnd a b = .ok e') ∧
    ∀ y X, e.eval (geluRnd rnd) env = some y → e'.data.eval (geluRnd rnd) env = some X → y.shape = X.shape

/-- One replacement, anywhere in an expression. -/
inductive Replace (rnd : ℝ → ℝ) (env : ℕ → Tensor ℝ) : T → T → Prop
  | root {e e'} : Replaces rnd env e e' → Replace rnd env e e'
  | un {u e e'} : Replace rnd env e e' → Replace rnd env (.un u e) (.un u e')
  | bil {b e e' f} : Replace rnd env e e' → Replace rnd env (.bi b e f) (.bi b e' f)
  | bir {b e f f'} : Replace rnd env f f' → Replace rnd env (.bi b e f) (.bi b e f')
  | mean {e e' a k} : Replace rnd env e e' → Replace rnd env (.mean e a k) (.mean e' a k)
  | layerNorml {e e' s a p} : Replace rnd env e e' → Replace rnd env (.layerNorm e s a p) (.layerNorm e' s a p)
  | layerNormr {e s s' a p} : Replace rnd env s s' → Replace rnd env (.layerNorm e s a p) (.layerNorm e s' a p)
  | rmsNorml {e e' s a p} : Replace rnd env e e' → Replace rnd env (.rmsNorm e s a p) (.rmsNorm e' s a p)
  | rmsNormr {e s s' a p} : Replace rnd env s s' → Replace rnd env (.rmsNorm e s a p) (.rmsNorm e s' a p)
  | gelu {b e e'} : Replace rnd env e e' → Replace rnd env (.gelu b e) (.gelu b e')

/-- Any number of these replacements, anywhere in an expression, keep its value. -/
theorem C98_pass_partial {rnd : ℝ → ℝ} {env : ℕ → Tensor ℝ} (hr : ExactSmall rnd) {e e' : T}
    (h : Relation.ReflTransGen (Replace rnd env) e e') {y : Tensor ℝ} (hy : e.eval (geluRnd rnd) env = some y) :
    e'.eval (geluRnd rnd) env = some y := by
  have step : ∀ {e e' : T}, Replace rnd env e e' → ∀ {y}, e.eval (geluRnd rnd) env = some y →
      e'.eval (geluRnd rnd) env = some y := by
    intro e e' h
    induction h with
    | root h =>
      intro y hy
      obtain ⟨I, a, b, hI, rfl, h1, h2⟩ := h
      rcases h1 with ⟨h1, h3⟩ | h1
      · exact C98_norm_partial hI h1 hy h3 fun X hX => h2 y X hy hX
      · exact C98_gelu_partial hI hr h1 hy fun X hX => h2 y X hy hX
    | un _ ih =>
      intro y hy
      obtain ⟨p, hp, hy⟩ := Option.bind_eq_some_iff.1 hy
      exact Option.bind_eq_some_iff.2 ⟨p, ih hp, hy⟩
    | bil _ ih =>
      intro y hy
      obtain ⟨p, hp, hy⟩ := Option.bind_eq_some_iff.1 hy
      exact Option.bind_eq_some_iff.2 ⟨p, ih hp, hy⟩
    | bir _ ih =>
      intro y hy
      obtain ⟨p, hp, hy⟩ := Option.bind_eq_some_iff.1 hy
      obtain ⟨q, hq, hy⟩ := Option.bind_eq_some_iff.1 hy
      exact Option.bind_eq_some_iff.2 ⟨p, hp, Option.bind_eq_some_iff.2 ⟨q, ih hq, hy⟩⟩
    | mean _ ih =>
      intro y hy
      obtain ⟨p, hp, hy⟩ := Option.bind_eq_some_iff.1 hy
      exact Option.bind_eq_some_iff.2 ⟨p, ih hp, hy⟩
    | layerNorml _ ih =>
      intro y hy
      obtain ⟨p, hp, hy⟩ := Option.bind_eq_some_iff.1 hy
      exact Option.bind_eq_some_iff.2 ⟨p, ih hp, hy⟩
    | layerNormr _ ih =>
      intro y hy
      obtain ⟨p, hp, hy⟩ := Option.bind_eq_some_iff.1 hy
      obtain ⟨q, hq, hy⟩ := Option.bind_eq_some_iff.1 hy
      exact Option.bind_eq_some_iff.2 ⟨p, hp, Option.bind_eq_some_iff.2 ⟨q, ih hq, hy⟩⟩
    | rmsNorml _ ih =>
      intro y hy
      obtain ⟨p, hp, hy⟩ := Option.bind_eq_some_iff.1 hy
      exact Option.bind_eq_some_iff.2 ⟨p, ih hp, hy⟩
    | rmsNormr _ ih =>
      intro y hy
      obtain ⟨p, hp, hy⟩ := Option.bind_eq_some_iff.1 hy
      obtain ⟨q, hq, hy⟩ := Option.bind_eq_some_iff.1 hy
      exact Option.bind_eq_some_iff.2 ⟨p, hp, Option.bind_eq_some_iff.2 ⟨q, ih hq, hy⟩⟩
    | gelu _ ih =>
      intro y hy
      obtain ⟨p, hp, hy⟩ := Option.map_eq_some_iff.1 hy
      exact Option.map_eq_some_iff.2 ⟨p, ih hp, hy⟩
  induction h with
  | refl => exact hy
  | tail _ h ih => exact step h ih

/-! ### What is recognised -/

/-- `x` minus its mean. -/
def centred (x : T) (axes : List ℤ) : T := .bi .sub x (.mean x (some axes) true)

/-- The standard deviation of a centred `d`. -/
def deviation (d : T) (axes : List ℤ) (eps : T) : T := .un .sqrt (.bi .add (.mean (.bi .mul d d) (some axes) true) eps)

/-- The axes are `a`, ..., `r - 1`, in any order, possibly counted from the end. -/
def LastAxes (axes : List ℤ) (r a : ℕ) : Prop := ∃ R, axes.mapM (normAxis r) = some R ∧ a < r ∧ ∀ k < r, k ∈ R ↔ a ≤ k

/-- In the graph every value is used once where the match requires it, equal values are known to be equal, and the
ranks of `x` and of the square of `d` are known to be `r`. -/
structure KnownGraph (I : Info) (x d : T) (r : ℕ) : Prop where
  oneUse : ∀ e, I.oneUse e = true
  same : ∀ e, I.same e e = true
  rank : ∃ s, I.shape x = some s ∧ s.length = r
  square : ∃ s, I.shape (.bi .mul d d) = some s ∧ s.length = r

/-- The forms of a quotient by the standard deviation. -/
inductive NormQuotient (d s : T) : T → Prop
  | div : NormQuotient d s (.bi .div d s)
  | recipl : NormQuotient d s (.bi .mul (.un .recip s) d)
  | recipr (h : d.asUn .recip = none) : NormQuotient d s (.bi .mul d (.un .recip s))

theorem quotient_group {I : Info} {scale d v e : T} (hs : ∀ b p q, scale ≠ .bi b p q)
    (he : NormQuotient d (.un .sqrt v) e) :
    (∃ ops, group I e scale = .ok ⟨scale, d, v, ops⟩) ∧ ∃ ops, group I scale e = .ok ⟨scale, d, v, ops⟩ := by
  have h1 : ∀ b, scale.asBi b = none := fun b => asBi_none (hs b)
  cases he with
  | div =>
    constructor
    · exact ⟨_, rfl⟩
    · refine ⟨[.un .sqrt v, .bi .div d (.un .sqrt v)], ?_⟩
      unfold group
      rw [h1]
      rfl
  | recipl =>
    refine ⟨⟨[.un .sqrt v, .bi .mul (.un .recip (.un .sqrt v)) d, .un .recip (.un .sqrt v)], ?_⟩,
      ⟨[.un .sqrt v, .bi .mul (.un .recip (.un .sqrt v)) d, .un .recip (.un .sqrt v)], ?_⟩⟩
    · unfold group
      rw [h1, h1]
      rfl
    · unfold group
      rw [h1, h1]
      rfl
  | recipr h =>
    refine ⟨⟨[.un .sqrt v, .bi .mul d (.un .recip (.un .sqrt v)), .un .recip (.un .sqrt v)], ?_⟩,
      ⟨[.un .sqrt v, .bi .mul d (.un .recip (.un .sqrt v)), .un .recip (.un .sqrt v)], ?_⟩⟩
    · unfold group
      rw [h1, h1]
      simp only [T.asBi, if_true, reduceCtorEq, if_false, viaMul, h]
      rfl
    · unfold group
      rw [h1, h1]
      simp only [T.asBi, if_true, reduceCtorEq, if_false, viaMul, h]
      rfl

/-- LayerNormalization over the last axes is recognised, written with Div or Reciprocal, with the scale on either side
of the Mul. The attribute epsilon is set only for a constant with `value_float`. -/
theorem C98_layerNorm_recognised {I : Info} {x scale e : T} {axes : List ℤ} {r a : ℕ} {c : Cst}
    (hI : KnownGraph I x (centred x axes) r) (ha : LastAxes axes r a) (hc : isScalarTensor I (.cst c) = true)
    (hs : ∀ b p q, scale ≠ .bi b p q)
    (he : NormQuotient (centred x axes) (deviation (centred x axes) axes (.cst c)) e) :
    recomposeNorm I e scale = .ok (.layerNorm x scale a (epsOf c)) ∧
    recomposeNorm I scale e = .ok (.layerNorm x scale a (epsOf c)) := by
  obtain ⟨R, h1, h2⟩ := ha
  obtain ⟨s, hx, hr⟩ := hI.rank
  obtain ⟨s', hq, hr'⟩ := hI.square
  obtain ⟨⟨o1, g1⟩, o2, g2⟩ := quotient_group (I := I) hs he
  unfold recomposeNorm
  rw [g1, g2]
  have key : ∀ ops, matchVarEps I ⟨scale, centred x axes, _, ops⟩ = .ok (.layerNorm x scale a (epsOf c)) := fun ops =>
    matchVarEps_mean (g := ⟨scale, centred x axes, .bi .add (.mean (.bi .mul (centred x axes) (centred x axes))
      (some axes) true) (.cst c), ops⟩) rfl hI.same hI.oneUse hc hq hr' h1 h2
      (fullPattern_mean hI.same hI.oneUse hx hr h1 h2)
  exact ⟨key _, key _⟩

/-- RMSLayerNormalization over the last axes is recognised in the same forms. -/
theorem C98_rmsNorm_recognised {I : Info} {x scale e : T} {axes : List ℤ} {r a : ℕ} {c : Cst}
    (hI : KnownGraph I x x r) (ha : LastAxes axes r a) (hc : isScalarTensor I (.cst c) = true)
    (hs : ∀ b p q, scale ≠ .bi b p q) (hx : ∀ p q, x ≠ .bi .sub p q)
    (he : NormQuotient x (deviation x axes (.cst c)) e) :
    recomposeNorm I e scale = .ok (.rmsNorm x scale a (epsOf c)) ∧
    recomposeNorm I scale e = .ok (.rmsNorm x scale a (epsOf c)) := by
  obtain ⟨R, h1, h2⟩ := ha
  obtain ⟨s', hq, hr'⟩ := hI.square
  obtain ⟨⟨o1, g1⟩, o2, g2⟩ := quotient_group (I := I) hs he
  unfold recomposeNorm
  rw [g1, g2]
  have key : ∀ ops, matchVarEps I ⟨scale, x, _, ops⟩ = .ok (.rmsNorm x scale a (epsOf c)) := fun ops =>
    matchVarEps_mean (g := ⟨scale, x, .bi .add (.mean (.bi .mul x x) (some axes) true) (.cst c), ops⟩) rfl hI.same hI.oneUse hc
      hq hr' h1 h2 (fullPattern_none hx)
  exact ⟨key _, key _⟩

/-- The products of the constant `h`, `x` and `t` that are recognised. -/
inductive GeluProduct (h x t : T) : T → T → Prop
  | outer : GeluProduct h x t h (.bi .mul x t)
  | outer' : GeluProduct h x t h (.bi .mul t x)
  | left : GeluProduct h x t (.bi .mul h x) t
  | left' : GeluProduct h x t (.bi .mul x h) t
  | right : GeluProduct h x t t (.bi .mul h x)
  | right' : GeluProduct h x t t (.bi .mul x h)
  | last : GeluProduct h x t (.bi .mul x t) h
  | last' : GeluProduct h x t (.bi .mul t x) h

/-- The sums of the constant `k` and `e`. -/
inductive Sum2 (k e : T) : T → Prop
  | left : Sum2 k e (.bi .add k e)
  | right : Sum2 k e (.bi .add e k)

theorem not_constOf {rnd : ℝ → ℝ} {e : T} {n : ℝ} (h : ∀ c, e ≠ .cst c) : ¬ ConstOf rnd e n := by
  rintro ⟨t, rfl, _⟩
  exact h _ rfl

theorem constOf_asBi {rnd : ℝ → ℝ} {e : T} {n : ℝ} (h : ConstOf rnd e n) (b : NBi) : e.asBi b = none := by
  obtain ⟨t, rfl, _⟩ := h
  rfl

theorem constOf_asUn {rnd : ℝ → ℝ} {e : T} {n : ℝ} (h : ConstOf rnd e n) (u : NUn) : e.asUn u = none := by
  obtain ⟨t, rfl, _⟩ := h
  rfl

theorem sum_onePlus {rnd : ℝ → ℝ} {k e s : T} {u : NUn} (hk : ConstOf rnd k 1) (h : Sum2 k (.un u e) s) :
    ((s.asBi .add).bind fun p => constAndOp rnd (T.asUn u) 1 p.1 p.2) = some e := by
  have hn : ¬ ConstOf rnd (.un u e) 1 := not_constOf fun c => by simp
  cases h with
  | left => simp [T.asBi, constAndOp, hk, T.asUn]
  | right => simp [T.asBi, constAndOp, hk, T.asUn, hn]

theorem sum_onePlus_ne {rnd : ℝ → ℝ} {k e s : T} {u v : NUn} (hk : ConstOf rnd k 1) (huv : u ≠ v)
    (h : Sum2 k (.un u e) s) : ((s.asBi .add).bind fun p => constAndOp rnd (T.asUn v) 1 p.1 p.2) = none := by
  obtain ⟨t, rfl, _⟩ := hk
  cases h with
  | left => simp [T.asBi, constAndOp, T.asUn, huv]
  | right => simp [T.asBi, constAndOp, T.asUn, huv]

theorem product_half {rnd : ℝ → ℝ} {h x t a b : T} (hh : ConstOf rnd h (1 / 2)) (hx : ∀ c, x ≠ .cst c)
    (ht : ∀ c, t ≠ .cst c) (ht' : ∀ p q, t ≠ .bi .mul p q) (hp : GeluProduct h x t a b) :
    matchHalf rnd a b = some (x, t) ∨ matchHalf rnd a b = some (t, x) := by
  have n1 : ∀ p q n, ¬ ConstOf rnd (.bi .mul p q) n := fun p q n => not_constOf fun c => by simp
  have n2 : ∀ n, ¬ ConstOf rnd x n := fun n => not_constOf hx
  have n3 : ∀ n, ¬ ConstOf rnd t n := fun n => not_constOf ht
  have n4 : t.asBi .mul = none := asBi_none ht'
  have n5 := constOf_asBi hh .mul
  have m : ∀ p q : T, T.asBi .mul (.bi .mul p q) = some (p, q) := fun p q => by simp [T.asBi]
  cases hp <;> simp [matchHalf, constAndOp, halfIn, hh, n1, n2, n3, n4, n5, m, -one_div]

theorem onePlus_some {rnd : ℝ → ℝ} {k e x t a b : T} {u : NUn} (hk : ConstOf rnd k 1) (hx : ∀ p q, x ≠ .bi .add p q)
    (h : Sum2 k (.un u e) t) (hab : (a = x ∧ b = t) ∨ (a = t ∧ b = x)) : onePlus rnd u a b = some (x, e) := by
  unfold onePlus
  rcases hab with ⟨rfl, rfl⟩ | ⟨rfl, rfl⟩
  · rw [asBi_none hx, Option.bind_none, sum_onePlus hk h]
    rfl
  · rw [sum_onePlus hk h]

theorem onePlus_none {rnd : ℝ → ℝ} {k e x t a b : T} {u v : NUn} (hk : ConstOf rnd k 1) (huv : u ≠ v)
    (hx : ∀ p q, x ≠ .bi .add p q) (h : Sum2 k (.un u e) t) (hab : (a = x ∧ b = t) ∨ (a = t ∧ b = x)) :
    onePlus rnd v a b = none := by
  unfold onePlus
  rcases hab with ⟨rfl, rfl⟩ | ⟨rfl, rfl⟩
  · rw [asBi_none hx, Option.bind_none, sum_onePlus_ne hk huv h]
    rfl
  · rw [sum_onePlus_ne hk huv h, asBi_none hx]
    rfl

theorem sum2_shape {k e t : T} (h : Sum2 k e t) : (∀ c, t ≠ .cst c) ∧ ∀ p q, t ≠ .bi .mul p q := by
  cases h <;> simp

/-- Gelu is recognised, for any order of its three factors that begins or ends with a product containing 0.5, and
any order of the sum. -/
theorem C98_gelu_recognised {I : Info} {rnd : ℝ → ℝ} {h k c x s a b : T} (hI : ∀ e, I.same e e = true)
    (hh : ConstOf rnd h (1 / 2)) (hk : ConstOf rnd k 1) (hc : ConstOf rnd c 1.41421354) (hx : ∀ c, x ≠ .cst c)
    (hx' : ∀ p q, x ≠ .bi .add p q) (hs : Sum2 k (.un .erf (.bi .div x c)) s) (hp : GeluProduct h x s a b) :
    recomposeGelu I rnd a b = .ok (.gelu false x) := by
  have key : ∀ p q, (p = x ∧ q = s) ∨ (p = s ∧ q = x) → matchHalf rnd a b = some (p, q) →
      recomposeGelu I rnd a b = .ok (.gelu false x) := by
    intro p q hpq hm
    unfold recomposeGelu
    rw [hm]
    simp only [onePlus_some hk hx' hs hpq]
    simp [matchErf, T.asBi, hI, hc]
  obtain ⟨s1, s2⟩ := sum2_shape hs
  rcases product_half hh hx s1 s2 hp with hm | hm
  · exact key _ _ (.inl ⟨rfl, rfl⟩) hm
  · exact key _ _ (.inr ⟨rfl, rfl⟩) hm

/-- The approximation of Gelu is recognised in the same forms. -/
theorem C98_gelu_tanh_recognised {I : Info} {rnd : ℝ → ℝ} {h k c d n x s a b : T} (hI : ∀ e, I.same e e = true)
    (hh : ConstOf rnd h (1 / 2)) (hk : ConstOf rnd k 1) (hc : ConstOf rnd c 0.797884583) (hd : ConstOf rnd d 0.044715)
    (hn : ConstOf rnd n 3) (hx : ∀ c, x ≠ .cst c) (hx' : ∀ p q, x ≠ .bi .add p q)
    (hs : Sum2 k (.un .tanh (.bi .mul c (.bi .add x (.bi .mul d (.bi .pow x n))))) s) (hp : GeluProduct h x s a b) :
    recomposeGelu I rnd a b = .ok (.gelu true x) := by
  have key : ∀ p q, (p = x ∧ q = s) ∨ (p = s ∧ q = x) → matchHalf rnd a b = some (p, q) →
      recomposeGelu I rnd a b = .ok (.gelu true x) := by
    intro p q hpq hm
    unfold recomposeGelu
    rw [hm]
    simp only [onePlus_some hk hx' hs hpq, onePlus_none hk (v := .erf) (by simp) hx' hs hpq]
    simp [matchTanh, constAndOp, valueAndOp, T.asBi, hI, hc, hd, hn]
  obtain ⟨s1, s2⟩ := sum2_shape hs
  rcases product_half hh hx s1 s2 hp with hm | hm
  · exact key _ _ (.inl ⟨rfl, rfl⟩) hm
  · exact key _ _ (.inr ⟨rfl, rfl⟩) hm

/-! ### The match does not abort -/

/-- On a graph with a value the match of a normalisation does not abort. Partial: every mean has the attribute
`axes`, no argument of the function is added to a mean, and the dividend of a quotient by a square root that is
multiplied is not known to be a matrix or a vector of unknown length (`C98_crash_false`). -/
theorem C98_no_crash_partial {I : Info} {g : Bool → ℝ → ℝ} {env : ℕ → Tensor ℝ} (hI : I.Ok g env) {a b : T}
    {y : Tensor ℝ} (hy : (T.bi .mul a b).eval g env = some y) (h1 : HasAxes (.bi .mul a b))
    (h2 : NoArgEps I (.bi .mul a b)) (h3 : DividendKnown I a) (h4 : DividendKnown I b) :
    recomposeNorm I a b ≠ .crash := recomposeNorm_no_crash hI hy h1 h2 h3 h4

/-! ### Examples, and where the replacement is wrong -/

/-- `x / sqrt(mean(x * x) + eps)` for a tensor with one element. -/
theorem one_norm (g : Bool → ℝ → ℝ) (eps : T) (axes : Option (List ℤ)) (hax : redAxes 1 axes false = some [0])
    {w : ℝ} (hw : 0 < 1 + w) (he : eps.eval g (fun _ => c1 1) = some (c1 w) ∨ eps.eval g (fun _ => c1 1) = some (c0 w)) :
    ((T.bi .div (.arg 0) (.un .sqrt (.bi .add (.mean (.bi .mul (.arg 0) (.arg 0)) axes true) eps))).eval g
      fun _ => c1 1) = some (c1 (1 / Real.sqrt (1 + w))) := by
  have hs : Real.sqrt (1 + w) ≠ 0 := (Real.sqrt_pos.2 hw).ne'
  have h1 : nbinary .mul (c1 1) (c1 1) = some (c1 1) := by
    rw [nbin11 (b := .mul) (by trivial)]
    simp [nbiR]
  have h2 : ((T.bi .add (.mean (.bi .mul (.arg 0) (.arg 0)) axes true) eps).eval g fun _ => c1 1) = some (c1 (1 + w)) := by
    simp only [T.eval, Option.bind_some, h1, mean1 1 hax]
    rcases he with he | he
    · rw [he, Option.bind_some, nbin11 (b := .add) (by trivial)]
      rfl
    · rw [he, Option.bind_some, nbin10 (b := .add) (by trivial)]
      rfl
  have h3 : ((T.un .sqrt (.bi .add (.mean (.bi .mul (.arg 0) (.arg 0)) axes true) eps)).eval g fun _ => c1 1) =
      some (c1 (Real.sqrt (1 + w))) := by
    rw [T.eval, h2, Option.bind_some, nun1 (u := .sqrt) (show 0 ≤ 1 + w from hw.le)]
    rfl
  have e : ∀ f, (T.bi .div (.arg 0) f).eval g (fun _ => c1 1) =
      (f.eval g fun _ => c1 1).bind fun y => nbinary .div (c1 1) y := fun _ => rfl
  rw [e, h3, Option.bind_some, nbin11 (b := .div) hs]
  rfl

/-- `x / sqrt(mean(x * x) + eps) * scale` for tensors with one element. -/
theorem one_eval (g : Bool → ℝ → ℝ) (eps : T) (axes : Option (List ℤ)) (hax : redAxes 1 axes false = some [0])
    {w : ℝ} (hw : 0 < 1 + w) (he : eps.eval g (fun _ => c1 1) = some (c1 w) ∨ eps.eval g (fun _ => c1 1) = some (c0 w)) :
    T.eval g (fun _ => c1 1)
      (.bi .mul (.bi .div (.arg 0) (.un .sqrt (.bi .add (.mean (.bi .mul (.arg 0) (.arg 0)) axes true) eps))) (.arg 1)) =
      some (c1 (1 / Real.sqrt (1 + w) * 1)) := by
  have e : ∀ f, (T.bi .mul f (.arg 1)).eval g (fun _ => c1 1) =
      (f.eval g fun _ => c1 1).bind fun x => nbinary .mul x (c1 1) := fun _ => rfl
  rw [e, one_norm g eps axes hax hw he, Option.bind_some, nbin11 (b := .mul) (by trivial)]
  rfl

/-- A known constant of `isScalarTensor`. -/
theorem exact_scalar {g : Bool → ℝ → ℝ} {env : ℕ → Tensor ℝ} {bl : ℕ → Bool} {e : T} {t : Tensor ℝ}
    (h : e.eval g env = some t) (ht : t.shape = [] ∨ t.shape = [1]) : isScalarTensor (exactInfo g env bl) e = true := by
  unfold isScalarTensor
  have : (exactInfo g env bl).shape e = some (t.shape.map some) := by
    show (e.eval g env).map _ = _
    rw [h]
    rfl
  rw [this]
  rcases ht with ht | ht <;> rw [ht] <;> rfl

theorem exact_known {g : Bool → ℝ → ℝ} {env : ℕ → Tensor ℝ} {bl : ℕ → Bool} {x d : T} {X D : Tensor ℝ} {r : ℕ}
    (hx : x.eval g env = some X) (hd : (T.bi .mul d d).eval g env = some D) (h1 : X.shape.length = r)
    (h2 : D.shape.length = r) : KnownGraph (exactInfo g env bl) x d r := by
  refine ⟨fun _ => rfl, fun e => ?_, ⟨X.shape.map some, ?_, by simpa using h1⟩, ⟨D.shape.map some, ?_, by simpa using h2⟩⟩
  · exact @decide_eq_true _ (Classical.propDecidable _) rfl
  · show (x.eval g env).map _ = _
    rw [hx]; rfl
  · show Option.map _ (T.eval g env (.bi .mul d d)) = _
    rw [hd]; rfl

theorem last01 : LastAxes [0] 1 0 := ⟨[0], rfl, by omega, fun k hk => by simp; omega⟩

theorem mul11 (g : Bool → ℝ → ℝ) : (T.bi .mul (.arg 0) (.arg 0)).eval g (fun _ => c1 1) = some (c1 (1 * 1)) :=
  nbin11 (b := .mul) (by trivial)

/-- A constant epsilon given by `value`, as in ordinary models, is not used: the replacement uses the default. -/
theorem C98_epsilon_false : ∃ (I : Info) (g : Bool → ℝ → ℝ) (env : ℕ → Tensor ℝ) (a b e' : T) (y : Tensor ℝ),
    I.Ok g env ∧ recomposeNorm I a b = .ok e' ∧ (T.bi .mul a b).eval g env = some y ∧
    (∀ X, e'.data.eval g env = some X → y.shape = X.shape) ∧ ∃ z, e'.eval g env = some z ∧ z ≠ y := by
  have hc : (T.cst (.dense (c0 3))).eval geluR (fun _ => c1 1) = some (c0 3) := rfl
  refine ⟨exactInfo geluR (fun _ => c1 1) fun _ => false, geluR, fun _ => c1 1, _, .arg 1, _, _, exactInfo_ok _ _ _,
    (C98_rmsNorm_recognised (x := .arg 0) (scale := .arg 1) (axes := [0]) (c := .dense (c0 3))
      (exact_known rfl (mul11 _) rfl rfl) last01 (exact_scalar hc (.inl rfl)) (by simp) (by simp) .div).1,
    one_eval _ _ _ rfl (by norm_num) (.inr hc), ?_, ?_⟩
  · rintro X ⟨⟩
    rfl
  · refine ⟨c1 (1 / Real.sqrt (1 ^ 2 + epsDefault) * 1), ?_, ?_⟩
    · show rmsNormR (c1 1) (c1 1) 0 epsDefault = _
      exact rms1 (by norm_num [epsDefault])
    · intro h
      have h := congrArg (fun t => t.get [0]) h
      simp only [c1_get] at h
      have h4 : Real.sqrt (1 + 3) = 2 := by
        rw [show (1 + 3 : ℝ) = 2 ^ 2 by norm_num]
        exact Real.sqrt_sq (by norm_num)
      have h5 : Real.sqrt (1 ^ 2 + epsDefault) < 2 := by
        rw [Real.sqrt_lt' (by norm_num)]
        norm_num [epsDefault]
      have h6 : 0 < Real.sqrt (1 ^ 2 + epsDefault) := Real.sqrt_pos.2 (by norm_num [epsDefault])
      rw [h4, mul_one, mul_one, one_div, one_div, inv_inj] at h
      linarith

theorem last_data {t : Tensor ℝ} {x : T} {axes : Option (List ℤ)} {keep : Bool} {d scale : T} {c : Cst}
    (hd : ∀ p q, ¬ Sub (.bi .add p q) d) (hs : ∀ p q, ¬ Sub (.bi .add p q) scale)
    (h : Sub (.bi .add (.mean x axes keep) (.cst (.dense t)))
        (.bi .mul (.bi .div d (deviation d [0] (.cst c))) scale) ∨
      Sub (.bi .add (.cst (.dense t)) (.mean x axes keep))
        (.bi .mul (.bi .div d (deviation d [0] (.cst c))) scale)) : c = .dense t := by
  have key : ∀ p q, Sub (.bi .add p q) (.bi .mul (.bi .div d (deviation d [0] (.cst c))) scale) →
      p = .mean (.bi .mul d d) (some [0]) true ∧ q = .cst c := by
    intro p q h
    cases h with
    | bir h => exact absurd h (hs _ _)
    | bil h =>
      cases h with
      | bil h => exact absurd h (hd _ _)
      | bir h =>
        cases h with
        | un h =>
          cases h with
          | refl => exact ⟨rfl, rfl⟩
          | bir h => cases h
          | bil h =>
            cases h with
            | mean h =>
              cases h with
              | bil h => exact absurd h (hd _ _)
              | bir h => exact absurd h (hd _ _)
  rcases h with h | h
  · cases (key _ _ h).2
    rfl
  · cases (key _ _ h).1

/-- A scale that enlarges the result: the replacement has no value. -/
theorem C98_scale_false : ∃ (I : Info) (g : Bool → ℝ → ℝ) (env : ℕ → Tensor ℝ) (a b e' : T) (y : Tensor ℝ),
    I.Ok g env ∧ recomposeNorm I a b = .ok e' ∧ (T.bi .mul a b).eval g env = some y ∧
    EpsIsDefault (.bi .mul a b) ∧ e'.eval g env = none := by
  have hc : (T.cst (.dense (c0 epsDefault))).eval geluR (fun _ => c1 1) = some (c0 epsDefault) := rfl
  refine ⟨exactInfo geluR (fun _ => c1 1) fun _ => false, geluR, fun _ => c1 1, _, .cst (.dense (v2 1 1)), _,
    v2 (1 / Real.sqrt (1 + epsDefault) * 1) (1 / Real.sqrt (1 + epsDefault) * 1), exactInfo_ok _ _ _,
    (C98_rmsNorm_recognised (x := .arg 0) (scale := .cst (.dense (v2 1 1))) (axes := [0]) (c := .dense (c0 epsDefault))
      (exact_known rfl (mul11 _) rfl rfl) last01 (exact_scalar hc (.inl rfl)) (by simp) (by simp) .div).1, ?_, ?_, ?_⟩
  · have e : ∀ f s, (T.bi .mul f (.cst (.dense s))).eval geluR (fun _ => c1 1) =
        (f.eval geluR fun _ => c1 1).bind fun x => nbinary .mul x s := fun _ _ => rfl
    rw [e]
    have := one_norm geluR (.cst (.dense (c0 epsDefault))) (some [0]) rfl (w := epsDefault) (by norm_num [epsDefault]) (.inr hc)
    unfold deviation
    rw [this, Option.bind_some]
    refine nbinary_some.2 ⟨[2], rfl, fun i hi => trivial, ?_⟩
    refine build_congr fun i hi => ?_
    rcases bounds2.1 hi with rfl | rfl <;> rfl
  · intro x axes keep t h
    cases last_data (fun p q h => by cases h) (fun p q h => by cases h) h
    rfl
  · show rmsNormR (c1 1) (v2 1 1) 0 epsDefault = none
    unfold rmsNormR Recompose.normalize
    rw [show normAxis (c1 1).shape.length 0 = some 0 from rfl, Option.bind_some, if_neg]
    rintro ⟨h, _⟩
    revert h
    show ¬ bshape [1] [2] = some [1]
    decide

/-- Constants that enlarge the result: Gelu has another shape. -/
theorem C98_gelu_shape_false : ∃ (I : Info) (rnd : ℝ → ℝ) (env : ℕ → Tensor ℝ) (a b e' : T) (y z : Tensor ℝ),
    I.Ok (geluRnd rnd) env ∧ ExactSmall rnd ∧ recomposeGelu I rnd a b = .ok e' ∧
    (T.bi .mul a b).eval (geluRnd rnd) env = some y ∧ e'.eval (geluRnd rnd) env = some z ∧ z.shape ≠ y.shape := by
  have hc : (1.41421354 : ℝ) ≠ 0 := by norm_num
  refine ⟨exactInfo (geluRnd id) (fun _ => c1 1) fun _ => false, id, fun _ => c1 1, .cst (.dense (v2 (1 / 2) (1 / 2))),
    .bi .mul (.arg 0) (.bi .add (.cst (.dense (c1 1))) (.un .erf (.bi .div (.arg 0) (.cst (.dense (c1 1.41421354)))))),
    .gelu false (.arg 0), v2 (1 / 2 * (1 * (1 + erfR (1 / 1.41421354)))) (1 / 2 * (1 * (1 + erfR (1 / 1.41421354)))), _,
    exactInfo_ok _ _ _, ⟨rfl, rfl, rfl⟩, ?_, ?_, rfl, ?_⟩
  rotate_left
  · have e : (T.bi .mul (.arg 0) (.bi .add (.cst (.dense (c1 1))) (.un .erf (.bi .div (.arg 0)
        (.cst (.dense (c1 1.41421354))))))).eval (geluRnd id) (fun _ => c1 1) =
        some (c1 (1 * (1 + erfR (1 / 1.41421354)))) := by
      simp only [T.eval, Cst.tensor, Option.bind_some, nbin11 (b := .div) (u := 1) hc, nun1 (u := .erf) (by trivial),
        nbin11 (b := .add) (by trivial), nbin11 (b := .mul) (by trivial)]
      rfl
    rw [T.eval, e]
    exact nbin21 (b := .mul) (by trivial) (by trivial)
  · show ([1] : List ℕ) ≠ [2]
    decide
  · refine C98_gelu_recognised (h := .cst (.dense (v2 (1 / 2) (1 / 2)))) (fun e => ?_) ⟨_, rfl, ?_⟩ ⟨_, rfl, ?_⟩ ⟨_, rfl, ?_⟩
      (by simp) (by simp) .left .outer
    · exact @decide_eq_true _ (Classical.propDecidable _) rfl
    · intro v hv
      change v ∈ [(1 / 2 : ℝ), 1 / 2] at hv
      simpa using hv
    · intro v hv
      change v ∈ [(1 : ℝ)] at hv
      simpa using hv
    · intro v hv
      change v ∈ [(1.41421354 : ℝ)] at hv
      simpa using hv

theorem crash_axes {I : Info} {x scale : T} {c : Cst} {s : List (Option ℕ)} (h1 : ∀ e, I.same e e = true)
    (h2 : ∀ e, I.oneUse e = true) (h3 : isScalarTensor I (.cst c) = true) (h4 : I.shape (.bi .mul x x) = some s) :
    recomposeNorm I (.bi .div x (.un .sqrt (.bi .add (.mean (.bi .mul x x) none true) (.cst c)))) scale = .crash := by
  change matchVarEps I ⟨scale, x, .bi .add (.mean (.bi .mul x x) none true) (.cst c), _⟩ = .crash
  simp only [matchVarEps, T.asBi, T.asMean, matchVar, h1, h2, h3, if_true, Bool.and_self, Bool.and_true, Bool.true_and]
  rw [if_pos (by simp [h2]), show epsilonAttr I (.cst c) = .ok (epsOf c) by cases c <;> rfl]
  simp only [MRes.bind, h4]
  rfl

theorem crash_eps {I : Info} {x scale : T} {k : ℕ} (h1 : ∀ e, I.same e e = true)
    (h2 : ∀ e, I.oneUse e = true) (h3 : isScalarTensor I (.arg k) = true) (h4 : I.block k = true) :
    recomposeNorm I (.bi .div x (.un .sqrt (.bi .add (.mean (.bi .mul x x) (some [0]) true) (.arg k)))) scale =
      .crash := by
  change matchVarEps I ⟨scale, x, .bi .add (.mean (.bi .mul x x) (some [0]) true) (.arg k), _⟩ = .crash
  simp only [matchVarEps, T.asBi, T.asMean, matchVar, h1, h2, h3, if_true, Bool.and_self, Bool.and_true, Bool.true_and]
  rw [if_pos (by simp [h2]), epsilonAttr, if_pos h4]
  rfl

/-- Graphs with a value on which the match aborts: a mean without the attribute `axes`, an epsilon that is an argument
of the function, and a product with a quotient whose dividend is a vector of unknown length. -/
theorem C98_crash_false :
    (∃ (I : Info) (env : ℕ → Tensor ℝ) (x scale : T) (eps : Cst) (y : Tensor ℝ), I.Ok geluR env ∧
      (let a := .bi .div x (.un .sqrt (.bi .add (.mean (.bi .mul x x) none true) (.cst eps)))
       (T.bi .mul a scale).eval geluR env = some y ∧ recomposeNorm I a scale = .crash)) ∧
    (∃ (I : Info) (env : ℕ → Tensor ℝ) (x scale : T) (k : ℕ) (y : Tensor ℝ), I.Ok geluR env ∧
      (let a := .bi .div x (.un .sqrt (.bi .add (.mean (.bi .mul x x) (some [0]) true) (.arg k)))
       (T.bi .mul a scale).eval geluR env = some y ∧ recomposeNorm I a scale = .crash)) ∧
    ∃ (I : Info) (env : ℕ → Tensor ℝ) (x scale p q : T) (y : Tensor ℝ), I.Ok geluR env ∧
      (let a := .bi .mul x (.bi .div p (.un .sqrt q))
       (T.bi .mul a scale).eval geluR env = some y ∧ recomposeNorm I a scale = .crash) := by
  have hsame : ∀ bl e, (exactInfo geluR (fun _ => c1 1) bl).same e e = true := fun bl e =>
    @decide_eq_true _ (Classical.propDecidable _) rfl
  refine ⟨⟨exactInfo geluR (fun _ => c1 1) fun _ => false, fun _ => c1 1, .arg 0, .arg 1, .dense (c0 3), _,
      exactInfo_ok _ _ _, one_eval _ _ _ rfl (by norm_num) (.inr rfl), ?_⟩,
    ⟨exactInfo geluR (fun _ => c1 1) fun _ => true, fun _ => c1 1, .arg 0, .arg 1, 2, _,
      exactInfo_ok _ _ _, one_eval _ _ _ rfl (w := 1) (by norm_num) (.inl rfl), ?_⟩,
    ⟨rankInfo geluR fun _ => c1 1, fun _ => c1 1, .arg 0, .arg 1, .arg 2, .arg 3, c1 (1 * (1 / Real.sqrt 1) * 1),
      rankInfo_ok _ _, ?_, ?_⟩⟩
  · refine crash_axes (s := [some 1]) (hsame _) (fun _ => rfl) (exact_scalar rfl (.inl rfl)) ?_
    show Option.map _ (T.eval _ _ (.bi .mul (.arg 0) (.arg 0))) = _
    rw [mul11]
    rfl
  · exact crash_eps (hsame _) (fun _ => rfl) (exact_scalar rfl (.inr rfl)) rfl
  · have hs : Real.sqrt 1 ≠ 0 := by simp
    simp only [T.eval, Option.bind_some, nun1 (u := .sqrt) (show (0 : ℝ) ≤ 1 by norm_num)]
    rw [show nunR .sqrt 1 = Real.sqrt 1 from rfl, nbin11 (b := .div) (u := 1) hs, Option.bind_some,
      nbin11 (b := .mul) (by trivial), Option.bind_some, nbin11 (b := .mul) (by trivial)]
    rfl
  · rfl

/-! Non-trivial cases of the hypotheses. -/

/-- The centred tensor and its square. -/
theorem two_square (g : Bool → ℝ → ℝ) :
    (centred (.arg 0) [0]).eval g (fun _ => v2 3 1) = some (v2 (3 - (3 + 1) / 2) (1 - (3 + 1) / 2)) ∧
    (T.bi .mul (centred (.arg 0) [0]) (centred (.arg 0) [0])).eval g (fun _ => v2 3 1) =
      some (v2 ((3 - (3 + 1) / 2) * (3 - (3 + 1) / 2)) ((1 - (3 + 1) / 2) * (1 - (3 + 1) / 2))) := by
  have h : (centred (.arg 0) [0]).eval g (fun _ => v2 3 1) = some (v2 (3 - (3 + 1) / 2) (1 - (3 + 1) / 2)) := by
    unfold centred
    simp only [T.eval, Option.bind_some, mean2 3 1 (axes := some [0]) rfl]
    exact nbin21 (b := .sub) (by trivial) (by trivial)
  refine ⟨h, ?_⟩
  rw [T.eval, h, Option.bind_some, Option.bind_some]
  exact nbin22 (b := .mul) (by trivial) (by trivial)

/-- LayerNormalization of two elements with the default epsilon. -/
theorem two_eval (g : Bool → ℝ → ℝ) : ∃ a b, (T.bi .mul (.bi .div (centred (.arg 0) [0])
    (deviation (centred (.arg 0) [0]) [0] (.cst (.dense (c0 epsDefault))))) (.arg 0)).eval g (fun _ => v2 3 1) =
      some (v2 a b) := by
  obtain ⟨h1, h2⟩ := two_square g
  have h3 : ∃ w, w ≠ 0 ∧ (deviation (centred (.arg 0) [0]) [0] (.cst (.dense (c0 epsDefault)))).eval g
      (fun _ => v2 3 1) = some (c1 w) := by
    have hw : 0 < (((3 - (3 + 1) / 2) * (3 - (3 + 1) / 2) + (1 - (3 + 1) / 2) * (1 - (3 + 1) / 2)) / 2 + epsDefault : ℝ) := by
      norm_num [epsDefault]
    refine ⟨_, (Real.sqrt_pos.2 hw).ne', ?_⟩
    unfold deviation
    have e : ∀ f, (T.un .sqrt (.bi .add (.mean f (some [0]) true) (.cst (.dense (c0 epsDefault))))).eval g
        (fun _ => v2 3 1) = (((f.eval g fun _ => v2 3 1).bind fun x => meanR x (some [0]) true).bind fun x =>
          nbinary .add x (c0 epsDefault)).bind (nunary .sqrt) := fun _ => rfl
    rw [e, h2, Option.bind_some, mean2 _ _ (axes := some [0]) rfl, Option.bind_some, nbin10 (b := .add) (by trivial),
      Option.bind_some]
    exact nun1 (u := .sqrt) hw.le
  obtain ⟨w, hw, h3⟩ := h3
  have e : ∀ f, (T.bi .mul f (.arg 0)).eval g (fun _ => v2 3 1) =
      (f.eval g fun _ => v2 3 1).bind fun x => nbinary .mul x (v2 3 1) := fun _ => rfl
  rw [e, T.eval, h1, h3, Option.bind_some, Option.bind_some, nbin21 (b := .div) hw hw, Option.bind_some]
  exact ⟨_, _, nbin22 (b := .mul) (by trivial) (by trivial)⟩

theorem centred_sub (p q : T) : ¬ Sub (.bi .add p q) (centred (.arg 0) [0]) := by
  intro h
  cases h with
  | bil h => cases h
  | bir h =>
    cases h with
    | mean h => cases h

/-- `C98_norm_partial`, `C98_layerNorm_recognised` and `C98_no_crash_partial` apply to it. -/
example : ∃ y, (T.bi .mul (.bi .div (centred (.arg 0) [0]) (deviation (centred (.arg 0) [0]) [0]
      (.cst (.dense (c0 epsDefault))))) (.arg 0)).eval geluR (fun _ => v2 3 1) = some y ∧
    (T.layerNorm (.arg 0) (.arg 0) 0 none).eval geluR (fun _ => v2 3 1) = some y := by
  obtain ⟨a, b, h⟩ := two_eval geluR
  refine ⟨_, h, C98_norm_partial (exactInfo_ok geluR (fun _ => v2 3 1) fun _ => false)
    (C98_layerNorm_recognised (x := .arg 0) (scale := .arg 0) (axes := [0]) (c := .dense (c0 epsDefault))
      (exact_known rfl (two_square _).2 rfl rfl) last01 (exact_scalar rfl (.inl rfl)) (by simp) .div).1 h ?_ ?_⟩
  · intro x axes keep t h
    cases last_data centred_sub (fun p q h => by cases h) h
    rfl
  · rintro X ⟨⟩
    rfl

/-- The same with Reciprocal, and the scale on the left. -/
example : recomposeNorm (exactInfo geluR (fun _ => v2 3 1) fun _ => false) (.arg 0)
    (.bi .mul (.un .recip (deviation (centred (.arg 0) [0]) [0] (.cst (.float 2)))) (centred (.arg 0) [0])) =
      .ok (.layerNorm (.arg 0) (.arg 0) 0 (some 2)) :=
  (C98_layerNorm_recognised (x := .arg 0) (scale := .arg 0) (axes := [0]) (c := .float 2)
    (exact_known rfl (two_square _).2 rfl rfl) last01 (exact_scalar rfl (.inl rfl)) (by simp) .recipl).2

/-- `C98_gelu_partial` applies to a tensor with one element. -/
example : ∃ y, (T.bi .mul (.cst (.dense (c0 (1 / 2)))) (.bi .mul (.arg 0) (.bi .add (.cst (.dense (c0 1)))
      (.un .erf (.bi .div (.arg 0) (.cst (.dense (c0 1.41421354)))))))).eval (geluRnd id) (fun _ => c1 2) = some y ∧
    (T.gelu false (.arg 0)).eval (geluRnd id) (fun _ => c1 2) = some y := by
  have hc : (1.41421354 : ℝ) ≠ 0 := by norm_num
  have nbin01 : ∀ {b : NBi} {u v : ℝ}, NBiDef b u v → nbinary b (c0 u) (c1 v) = some (c1 (nbiR b u v)) := by
    intro b u v h
    refine nbinary_some.2 ⟨[1], rfl, fun i hi => ?_, ?_⟩
    · rw [bounds1.1 hi]; exact h
    · refine build_congr fun i hi => ?_
      rw [bounds1.1 hi]
      rfl
  have h : ∃ v, (T.bi .mul (.cst (.dense (c0 (1 / 2)))) (.bi .mul (.arg 0) (.bi .add (.cst (.dense (c0 1)))
      (.un .erf (.bi .div (.arg 0) (.cst (.dense (c0 1.41421354)))))))).eval (geluRnd id) (fun _ => c1 2) =
        some (c1 v) := by
    simp only [T.eval, Cst.tensor, Option.bind_some, nbin10 (b := .div) (u := 2) hc, nun1 (u := .erf) (by trivial),
      nbin01 (b := .add) (by trivial), nbin11 (b := .mul) (by trivial), nbin01 (b := .mul) (by trivial)]
    exact ⟨_, rfl⟩
  obtain ⟨v, h⟩ := h
  refine ⟨_, h, C98_gelu_partial (exactInfo_ok (geluRnd id) (fun _ => c1 2) fun _ => false) ⟨rfl, rfl, rfl⟩
    (C98_gelu_recognised (fun e => ?_) ⟨_, rfl, ?_⟩ ⟨_, rfl, ?_⟩ ⟨_, rfl, ?_⟩ (by simp) (by simp) .left .outer) h ?_⟩
  · exact @decide_eq_true _ (Classical.propDecidable _) rfl
  · intro w hw
    change w ∈ [(1 / 2 : ℝ)] at hw
    simpa using hw
  · intro w hw
    change w ∈ [(1 : ℝ)] at hw
    simpa using hw
  · intro w hw
    change w ∈ [(1.41421354 : ℝ)] at hw
    simpa using hw
  · rintro X ⟨⟩
    rfl

/-- There are rounding functions as `C98_gelu_error` assumes them. -/
example : ∃ rnd, RoundsF32 rnd ∧ ExactSmall rnd :=
  ⟨fun v => if v = 1.41421354 then 11863283 / 8388608 else if v = 0.797884583 then 6693141 / 8388608
    else if v = 0.044715 then 12003091 / 268435456 else v,
    ⟨by norm_num, by norm_num, by norm_num⟩, ⟨by norm_num, by norm_num, by norm_num⟩⟩

end Verif.Props
