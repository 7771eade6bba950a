import Verif.Rewrite.BatchNormLemmas
import Mathlib.Order.Lattice
import Mathlib.Order.MinMax

/-! # The patterns for Clip, Less, Pow and MaxPool keep results -/

namespace Verif.Rewrite

variable {V : Type} [Inhabited V] {A : Alg V} {env : ℕ → Tensor V}

/-! ### Clip -/

/-- Max and Min of elements are those of a linear order. -/
structure OrderAlg [LinearOrder V] (A : Alg V) : Prop where
  max : ∀ x y, A.bin .max x y = Max.max x y
  min : ∀ x y, A.bin .min x y = Min.min x y

theorem eval_clip {x lo hi : Ex V} {ty : STy} {v : Option (Tensor V)} :
    eval A env (.op .clip [x, lo, hi] ty) = some v ↔
      ∃ x' l h y, eval A env x = some (some x') ∧ eval A env lo = some l ∧ eval A env hi = some h ∧
        clip A x' l h = some y ∧ v = some y := by
  rw [eval_op3]
  constructor
  · rintro ⟨s, t, u, z, h1, h2, h3, h4, h5⟩
    match s, h4 with
    | some s, h4 => exact ⟨s, t, u, z, h1, h2, h3, h4, h5⟩
    | none, h4 => simp [sem] at h4
  · rintro ⟨s, t, u, z, h1, h2, h3, h4, h5⟩
    exact ⟨some s, t, u, z, h1, h2, h3, h4, h5⟩

theorem clip_some {x y : Tensor V} {lo hi : Option (Tensor V)} : clip A x lo hi = some y ↔
    ((∀ t, lo = some t → t.shape = []) ∧ (∀ t, hi = some t → t.shape = [])) ∧
      y = x.map fun v => bound (A.bin .min) hi (bound (A.bin .max) lo v) := by
  unfold clip
  have e : ∀ o : Option (Tensor V), (o.all fun t => t.shape = []) = true ↔ ∀ t, o = some t → t.shape = [] := by
    intro o
    cases o <;> simp
  rw [← e, ← e]
  split
  · rename_i h
    constructor
    · intro h'; cases h'; exact ⟨h, rfl⟩
    · rintro ⟨-, rfl⟩; rfl
  · rename_i h
    constructor
    · intro h'; cases h'
    · rintro ⟨h', -⟩; exact absurd h' h

theorem map_map (f g : V → V) (t : Tensor V) : (t.map f).map g = t.map fun v => g (f v) := by
  unfold Tensor.map
  simp [List.map_map, Function.comp_def]

theorem map_congr {f g : V → V} {t : Tensor V} (h : ∀ v ∈ t.data, f v = g v) : t.map f = t.map g := by
  unfold Tensor.map
  congr 1
  exact List.map_congr_left h

/-- The combination of two optional bounds. -/
def Combined (A : Alg V) (f : Bin) : Option (Tensor V) → Option (Tensor V) → Option (Tensor V) → Prop
  | none, b, c => c = b
  | some a, none, c => c = some a
  | some a, some b, c => ∃ u, c = some u ∧ u.get [] = A.bin f (a.get []) (b.get [])

/-- The value of a pair of optional bounds. -/
theorem eval_combineOr {f : Bin} {a b : Ex V} {a' b' : Option (Tensor V)} (ha : eval A env a = some a')
    (hb : eval A env b = some b') (h1 : ∀ t, a' = some t → t.shape = []) (h2 : ∀ t, b' = some t → t.shape = []) :
    ∃ c, eval A env (combineOr f a b) = some c ∧ (∀ t, c = some t → t.shape = []) ∧
      Combined A f a' b' c := by
  have hop : ∀ {e : Ex V} {v : Option (Tensor V)}, eval A env e = some v → e ≠ .none → ∃ t, v = some t := by
    intro e v he hne
    cases e with
    | none => exact absurd rfl hne
    | arg i ty => rw [eval] at he; cases he; exact ⟨_, rfl⟩
    | const t d => rw [eval] at he; cases he; exact ⟨_, rfl⟩
    | op o as ty =>
      rw [eval] at he
      obtain ⟨vs, -, hvs⟩ := Option.bind_eq_some_iff.1 he
      obtain ⟨u, -, hu⟩ := Option.map_eq_some_iff.1 hvs
      exact ⟨u, hu.symm⟩
  by_cases han : a = .none
  · subst han
    rw [eval] at ha
    cases ha
    have : combineOr f .none b = b := rfl
    rw [this]
    exact ⟨b', hb, h2, rfl⟩
  · obtain ⟨s, rfl⟩ := hop ha han
    by_cases hbn : b = .none
    · subst hbn
      rw [eval] at hb
      cases hb
      have : combineOr f a .none = a := by
        cases a with
        | none => rfl
        | _ => rfl
      rw [this]
      exact ⟨some s, ha, h1, rfl⟩
    · obtain ⟨t, rfl⟩ := hop hb hbn
      have hc : combineOr f a b = .op (.binary f) [a, b] a.ty := by
        cases a with
        | none => exact absurd rfl han
        | _ => cases b with
          | none => exact absurd rfl hbn
          | _ => rfl
      rw [hc]
      have e1 := h1 s rfl
      have e2 := h2 t rfl
      refine ⟨some (build [] fun i => A.bin f (s.get i) (t.get i)), ?_, ?_, _, rfl, ?_⟩
      · exact eval_binary.2 ⟨s, t, _, ha, hb, binary_same e1 e2, rfl⟩
      · rintro t ht; cases ht; rfl
      · exact get_build _ (by simp)

theorem typed_combineOr {f : Bin} (hf : f = .max ∨ f = .min) {a b : Ex V} {d : DT} {a' b' : Option (Tensor V)}
    (ha : eval A env a = some a') (hb : eval A env b = some b') (h1 : ∀ t, a' = some t → t.shape = [])
    (h2 : ∀ t, b' = some t → t.shape = []) (ta : Typed A env a) (tb : Typed A env b) (da : OptElt d a)
    (db : OptElt d b) : Typed A env (combineOr f a b) := by
  by_cases han : a = .none
  · subst han; exact tb
  · by_cases hbn : b = .none
    · subst hbn
      have : combineOr f a .none = a := by
        cases a with
        | none => rfl
        | _ => rfl
      rw [this]; exact ta
    · have hc : combineOr f a b = .op (.binary f) [a, b] a.ty := by
        cases a with
        | none => exact absurd rfl han
        | _ => cases b with
          | none => exact absurd rfl hbn
          | _ => rfl
      rw [hc, typed_op]
      have da' : a.ty.elt = d := by
        cases a with
        | none => exact absurd rfl han
        | _ => exact da
      have db' : b.ty.elt = d := by
        cases b with
        | none => exact absurd rfl hbn
        | _ => exact db
      refine ⟨fun t ht => ?_, ?_, ?_⟩
      · obtain ⟨s, u, z, k1, k2, k3, k4⟩ := eval_binary.1 ht
        cases k4
        have e1 : s.shape = [] := h1 s (by rw [ha] at k1; exact Option.some.inj k1)
        have e2 : u.shape = [] := h2 u (by rw [hb] at k2; exact Option.some.inj k2)
        rw [binary_same e1 e2] at k3
        cases k3
        have := typed_fits ta k1
        rwa [e1] at this
      · have : a.ty.elt = b.ty.elt ∧ a.ty.elt = a.ty.elt := ⟨da'.trans db'.symm, rfl⟩
        rcases hf with rfl | rfl <;> exact this
      · simp only [typedL_cons]
        exact ⟨ta, tb, typedL_nil⟩

/-- The bounds have the element type of the data, and the second lower bound is not above the first upper bound. -/
def BoundsMeet [LE V] (A : Alg V) (env : ℕ → Tensor V) : Ex V → Prop
  | .op _ [.op _ [_, lo1, hi1] cty, lo2, hi2] ty =>
    (OptElt cty.elt lo1 ∧ OptElt cty.elt hi1 ∧ OptElt ty.elt lo2 ∧ OptElt ty.elt hi2) ∧
      ∀ h l, eval A env hi1 = some (some h) → eval A env lo2 = some (some l) → l.get [] ≤ h.get []
  | _ => True

theorem bounds_eq [LinearOrder V] (hA : OrderAlg A) {lo1 hi1 lo2 hi2 lo hi : Option (Tensor V)}
    (hlo : Combined A .max lo1 lo2 lo) (hhi : Combined A .min hi1 hi2 hi)
    (hm : ∀ h l, hi1 = some h → lo2 = some l → l.get [] ≤ h.get []) (v : V) :
    bound (A.bin .min) hi (bound (A.bin .max) lo v) =
      bound (A.bin .min) hi2 (bound (A.bin .max) lo2 (bound (A.bin .min) hi1 (bound (A.bin .max) lo1 v))) := by
  have h1 : ∀ w, bound (A.bin .max) lo w = bound (A.bin .max) lo2 (bound (A.bin .max) lo1 w) := by
    intro w
    cases lo1 with
    | none => rw [show lo = _ from hlo]; rfl
    | some s => cases lo2 with
      | none => rw [show lo = _ from hlo]; rfl
      | some t =>
        obtain ⟨u, rfl, hu⟩ := hlo
        simp only [bound, hu, hA.max]
        rw [max_assoc]
  have h2 : ∀ w, bound (A.bin .min) hi w = bound (A.bin .min) hi2 (bound (A.bin .min) hi1 w) := by
    intro w
    cases hi1 with
    | none => rw [show hi = _ from hhi]; rfl
    | some s => cases hi2 with
      | none => rw [show hi = _ from hhi]; rfl
      | some t =>
        obtain ⟨u, rfl, hu⟩ := hhi
        simp only [bound, hu, hA.min]
        rw [min_assoc]
  have h3 : ∀ w, bound (A.bin .min) hi1 (bound (A.bin .max) lo2 w) =
      bound (A.bin .max) lo2 (bound (A.bin .min) hi1 w) := by
    intro w
    cases hi1 with
    | none => rfl
    | some s => cases lo2 with
      | none => rfl
      | some t =>
        simp only [bound, hA.min, hA.max]
        rw [max_min_distrib_right, max_eq_left (hm s t rfl rfl)]
  rw [h2, h1, h3]

theorem fuseClips_sound [LinearOrder V] (hA : OrderAlg A) : SoundOn A (BoundsMeet A) (fuseClips (V := V)) := by
  intro env e e' hr ht hp v hv
  unfold fuseClips at hr
  split at hr
  · rename_i x lo1 hi1 cty lo2 hi2 ty
    cases hr
    obtain ⟨⟨d1, d2, d3, d4⟩, hm⟩ := hp
    obtain ⟨y, l2, h2, z, g1, g2, g3, g4, rfl⟩ := eval_clip.1 hv
    obtain ⟨x', l1, h1, y', k1, k2, k3, k4, k5⟩ := eval_clip.1 g1
    cases k5
    obtain ⟨⟨q1, q2⟩, rfl⟩ := clip_some.1 k4
    obtain ⟨⟨q3, q4⟩, rfl⟩ := clip_some.1 g4
    obtain ⟨lo, p1, p2, p3⟩ := eval_combineOr (f := .max) k2 g2 q1 q3
    obtain ⟨hi, p4, p5, p6⟩ := eval_combineOr (f := .min) k3 g3 q2 q4
    have hty := ht
    rw [typed_op] at ht
    obtain ⟨-, hk, hl⟩ := ht
    simp only [typedL_cons] at hl
    obtain ⟨l1', l2', l3', -⟩ := hl
    rw [typed_op] at l1'
    obtain ⟨-, hkm, hlm⟩ := l1'
    simp only [typedL_cons] at hlm
    have e1 : ty.elt = cty.elt := hk
    have e2 : cty.elt = x.ty.elt := hkm
    refine replaced hty hv ?_ ?_ ?_
    · refine eval_clip.2 ⟨x', lo, hi, _, k1, p1, p4, clip_some.2 ⟨⟨p2, p5⟩, rfl⟩, ?_⟩
      rw [map_map]
      congr 1
      refine map_congr fun v _ => ?_
      refine (bounds_eq hA p3 p6 (fun h l hh hl => ?_) v).symm
      subst hh hl
      exact hm h l k3 g2
    · exact e1.trans e2
    · simp only [typedL_cons]
      rw [e1] at d3 d4
      exact ⟨hlm.1, typed_combineOr (.inl rfl) k2 g2 q1 q3 hlm.2.1 l2' d1 d3,
        typed_combineOr (.inr rfl) k3 g3 q2 q4 hlm.2.2.1 l3' d2 d4, typedL_nil⟩
  · cases hr

/-! ### Less -/

/-- The conversion keeps the order of the elements that are compared. -/
def CastKeepsOrder (A : Alg V) (env : ℕ → Tensor V) : Ex V → Prop
  | .op _ [.op (.cast _ d) [a] _, .op _ [b] _] _ => ∀ x y, eval A env a = some (some x) →
      eval A env b = some (some y) → ∀ u ∈ x.data, ∀ w ∈ y.data,
        A.bin .less (A.cast d u) (A.cast d w) = A.bin .less u w
  | _ => True

/-- An element-wise operator on two images. -/
theorem binary_map {f : V → V → V} {g : V → V} {x y : Tensor V}
    (h : ∀ u ∈ x.data, ∀ w ∈ y.data, f (g u) (g w) = f u w) : binary f (x.map g) (y.map g) = binary f x y := by
  unfold binary
  simp only [map_shape]
  cases hb : bshape x.shape y.shape with
  | none => rfl
  | some s =>
    simp only [Option.map_some]
    congr 1
    refine build_congr fun i hi => ?_
    have i1 := (bto_bshape hb).inBounds hi
    have i2 := (bto_bshape_right hb).inBounds hi
    rw [get_map _ _ i1, get_map _ _ i2]
    exact h _ (get_mem i1) _ (get_mem i2)

theorem lessSameCast_sound : SoundOn A (CastKeepsOrder A) (lessSameCast (V := V)) := by
  intro env e e' hr ht hp v hv
  unfold lessSameCast at hr
  split at hr
  · rename_i s1 d1 a cty s2 d2 b cty2 ty
    split at hr
    · rename_i hc
      cases hr
      simp only [Bool.and_eq_true, decide_eq_true_eq] at hc
      obtain ⟨⟨⟨⟨hab, -⟩, hd⟩, -⟩, -⟩ := hc
      subst hd
      obtain ⟨x, y, z, h1, h2, h3, rfl⟩ := eval_binary.1 hv
      obtain ⟨x', g1, g2⟩ := eval_cast.1 h1
      obtain ⟨y', g3, g4⟩ := eval_cast.1 h2
      cases g2
      cases g4
      rw [binary_map (hp x' y' g1 g3)] at h3
      have hty := ht
      rw [typed_op] at ht
      obtain ⟨-, hk, hl⟩ := ht
      simp only [typedL_cons] at hl
      refine replaced hty hv (eval_binary.2 ⟨x', y', z, g1, g3, h3, rfl⟩) ?_ ?_
      · have : cty.elt = cty2.elt ∧ ty.elt.kind = .bool := hk
        exact ⟨hab, this.2⟩
      · simp only [typedL_cons]
        obtain ⟨la, lb, -⟩ := hl
        rw [typed_op] at la lb
        obtain ⟨-, -, la⟩ := la
        obtain ⟨-, -, lb⟩ := lb
        simp only [typedL_cons] at la lb
        exact ⟨la.1, lb.1, typedL_nil⟩
    · cases hr
  · cases hr

/-! ### Pow -/

/-- Multiplication and powers of elements are those of a commutative monoid. -/
structure PowAlg [CommMonoid V] (A : Alg V) : Prop where
  mul : ∀ x y, A.bin .mul x y = x * y
  one : A.ofInt 1 = 1
  pow : ∀ x (n : ℕ), A.bin .pow x (A.ofInt n) = x ^ n

/-- The exponent has no more axes than the base. -/
def ExponentRank (A : Alg V) (env : ℕ → Tensor V) : Ex V → Prop
  | .op _ [x, y] _ => ∀ t u, eval A env x = some (some t) → eval A env y = some (some u) →
      u.shape.length ≤ t.shape.length
  | _ => True

theorem prod_one {s : List ℕ} (h : s.prod = 1) : s = List.replicate s.length 1 := by
  induction s with
  | nil => rfl
  | cons d s ih =>
    rw [List.prod_cons] at h
    have h := Nat.eq_one_of_mul_eq_one_right h |> fun h1 => (⟨h1, Nat.eq_one_of_mul_eq_one_left h⟩ : d = 1 ∧ s.prod = 1)
    rw [List.length_cons, List.replicate_succ, ← ih h.2, h.1]

/-- An operator whose second operand has one element and not more axes than the first one. -/
theorem binary_single {f : V → V → V} {a b : Tensor V} {w : V} (hb : b.data = [w])
    (h : b.shape.length ≤ a.shape.length) : binary f a b = some (a.map fun v => f v w) := by
  have hs : b.shape = List.replicate b.shape.length 1 := prod_one (by rw [← b.wf, hb]; rfl)
  have hbt : Bto b.shape a.shape := by
    refine ⟨h, fun j hj => .inl ?_⟩
    rw [hs] at hj ⊢
    rw [List.getD_eq_getElem _ _ hj]
    simp
  rw [binary_bto (bshape_of_bto hbt)]
  congr 1
  refine ((eq_build (t := a.map fun v => f v w) rfl fun i hi => ?_)).symm
  rw [get_map (fun v => f v w) a hi]
  congr 1
  have hin := hbt.inBounds hi
  unfold Tensor.get
  rw [hb]
  have : rowMajor b.shape (bidx b.shape i) = 0 := by
    rw [hs] at hin ⊢
    exact rowMajor_ones _ _ (by simpa using hin)
  rw [this]
  rfl

theorem mul_powers [CommMonoid V] (hA : PowAlg A) (t : Tensor V) (a b : ℕ) :
    binary (A.bin .mul) (t.map (· ^ a)) (t.map (· ^ b)) = some (t.map (· ^ (a + b))) := by
  rw [binary_same (a := t.map (· ^ a)) (b := t.map (· ^ b)) (s := t.shape) rfl rfl]
  congr 1
  refine (eq_build (t := t.map (· ^ (a + b))) rfl fun i hi => ?_).symm
  rw [get_map (· ^ a) t hi, get_map (· ^ b) t hi, get_map (· ^ (a + b)) t hi, hA.mul, pow_add]

/-- A value is a power of a tensor and its recorded type is right. -/
def IsPow [CommMonoid V] (A : Alg V) (env : ℕ → Tensor V) (t : Tensor V) (d : DT) (n : ℕ) (e : Ex V) : Prop :=
  eval A env e = some (some (t.map (· ^ n))) ∧ Typed A env e ∧ e.ty.elt = d

theorem isPow_mul [CommMonoid V] (hA : PowAlg A) {t : Tensor V} {ty : STy} {a b : ℕ} {e f : Ex V}
    (hfit : ty.Fits t.shape) (he : IsPow A env t ty.elt a e) (hf : IsPow A env t ty.elt b f) :
    IsPow A env t ty.elt (a + b) (.op (.binary .mul) [e, f] ty) := by
  have hv : eval A env (.op (.binary .mul) [e, f] ty) = some (some (t.map (· ^ (a + b)))) :=
    eval_binary.2 ⟨_, _, _, he.1, hf.1, mul_powers hA t a b, rfl⟩
  refine ⟨hv, typed_op.2 ⟨fun u hu => ?_, ?_, ?_⟩, rfl⟩
  · rw [hv] at hu
    cases hu
    exact hfit
  · have : e.ty.elt = f.ty.elt ∧ ty.elt = e.ty.elt := ⟨he.2.2.trans hf.2.2.symm, he.2.2.symm⟩
    exact this
  · simp only [typedL_cons]
    exact ⟨he.2.1, hf.2.1, typedL_nil⟩

theorem powLoop_spec [CommMonoid V] (hA : PowAlg A) {t : Tensor V} {ty : STy} (hfit : ty.Fits t.shape) :
    ∀ (fuel n a b : ℕ) (r : Option (Ex V)) (x : Ex V), 1 ≤ n → n ≤ fuel →
      (∀ e, r = some e → IsPow A env t ty.elt a e) → (r = none → a = 0) → IsPow A env t ty.elt b x →
      ∃ e, powLoop ty fuel n r x = some e ∧ IsPow A env t ty.elt (a + b * n) e
  | 0, n, _, _, _, _, h1, h2, _, _, _ => by omega
  | fuel + 1, n, a, b, r, x, h1, h2, hr, hr0, hx => by
    unfold powLoop
    simp only
    by_cases hodd : n % 2 = 1
    · rw [if_pos hodd]
      have hnew : ∃ e, some (mulOr ty r x) = some e ∧ IsPow A env t ty.elt (a + b) e := by
        cases r with
        | none => rw [hr0 rfl, Nat.zero_add]; exact ⟨x, rfl, hx⟩
        | some r => exact ⟨_, rfl, isPow_mul hA hfit (hr r rfl) hx⟩
      obtain ⟨e, he1, he2⟩ := hnew
      rw [he1]
      by_cases h0 : n / 2 = 0
      · rw [if_pos h0]
        have : n = 1 := by omega
        subst this
        rw [Nat.mul_one]
        exact ⟨e, rfl, he2⟩
      · rw [if_neg h0]
        obtain ⟨e', q1, q2⟩ := powLoop_spec hA hfit fuel (n / 2) (a + b) (b + b) (some e)
          (.op (.binary .mul) [x, x] ty) (by omega) (by omega) (fun e1 h => by cases h; exact he2) (by simp)
          (isPow_mul hA hfit hx hx)
        refine ⟨e', q1, ?_⟩
        have : a + b * n = a + b + (b + b) * (n / 2) := by
          have : n = 2 * (n / 2) + 1 := by omega
          conv_lhs => rw [this]
          ring
        rw [this]
        exact q2
    · rw [if_neg hodd]
      have h0 : n / 2 ≠ 0 := by omega
      rw [if_neg h0]
      obtain ⟨e', q1, q2⟩ := powLoop_spec hA hfit fuel (n / 2) a (b + b) r
        (.op (.binary .mul) [x, x] ty) (by omega) (by omega) hr hr0 (isPow_mul hA hfit hx hx)
      refine ⟨e', q1, ?_⟩
      have : a + b * n = a + (b + b) * (n / 2) := by
        have : n = 2 * (n / 2) := by omega
        conv_lhs => rw [this]
        ring
      rw [this]
      exact q2

omit [Inhabited V] in
theorem intExponent_const [DecidableEq V] {y : Ex V} {n : ℤ} (h : intExponent A y = some n) :
    ∃ t d, y = .const t d ∧ t.data = [A.ofInt n] := by
  unfold intExponent at h
  split at h
  · rename_i t d
    split at h
    · rename_i v hv
      split at h
      · rename_i hz
        cases h
        exact ⟨t, d, rfl, by rw [hv, hz]⟩
      · cases h
    · cases h
  · cases h

theorem fits_allStatic {ds : List (Option ℕ)} {s : List ℕ} (h : FitsDims ds s) (ha : ds.all Option.isSome = true) :
    ds.map (fun d => d.getD 0) = s ∧ ds = s.map some := by
  unfold FitsDims at h
  induction h with
  | nil => exact ⟨rfl, rfl⟩
  | cons hx _ ih =>
    simp only [List.all_cons, Bool.and_eq_true] at ha
    obtain ⟨i1, i2⟩ := ih ha.2
    rcases hx with rfl | rfl
    · simp at ha
    · exact ⟨by simp [i1], by simp [← i2]⟩

theorem powToMul_sound [DecidableEq V] [CommMonoid V] (hA : PowAlg A) (maxPower : ℤ) :
    SoundOn A (ExponentRank A) (powToMul A maxPower) := by
  intro env e e' hr ht hp v hv
  unfold powToMul at hr
  split at hr
  · rename_i x y ty
    split at hr
    · cases hr
    · rename_i n hn
      by_cases hneg : n < 0 ∨ maxPower < n
      · rw [if_pos hneg] at hr; cases hr
      · rw [if_neg hneg] at hr
        obtain ⟨yt, yd, rfl, hyd⟩ := intExponent_const hn
        have hfit := typed_fits ht (t := v.getD yt)
        obtain ⟨t, u, z, h1, h2, h3, rfl⟩ := eval_binary.1 hv
        have hpr := hp t u h1 h2
        rw [eval] at h2
        cases h2
        rw [binary_single hyd hpr] at h3
        cases h3
        obtain ⟨k, rfl⟩ : ∃ k : ℕ, n = k := ⟨n.toNat, by omega⟩
        have hz : (t.map fun v => A.bin .pow v (A.ofInt (k : ℤ))) = t.map (· ^ k) :=
          map_congr fun v _ => hA.pow v k
        rw [hz] at hv ⊢
        have hfit' : ty.Fits t.shape := by
          have := hfit (by rw [hv, hz]; rfl)
          intro ds hds
          exact this ds hds
        rw [typed_op] at ht
        obtain ⟨-, hk, hl⟩ := ht
        simp only [typedL_cons] at hl
        have e1 : ty.elt = x.ty.elt := hk
        by_cases h0 : (k : ℤ) = 0
        · rw [if_pos h0] at hr
          have h0' : k = 0 := by omega
          subst h0'
          split at hr
          · rename_i ds hds
            split at hr
            · rename_i hall
              cases hr
              have hs := fits_allStatic (hfit' ds hds) hall
              refine ⟨?_, typed_const, rfl⟩
              rw [eval, hs.1]
              congr 2
              refine (eq_build (t := t.map (· ^ 0)) rfl fun i hi => ?_).symm
              rw [get_map (· ^ 0) t hi, pow_zero, hA.one]
            · cases hr
          · cases hr
        · rw [if_neg h0] at hr
          obtain ⟨r, q1, q2⟩ := powLoop_spec (env := env) hA hfit' k k 0 1 none x (by omega) le_rfl (by simp) (by simp)
            ⟨by
              rw [h1]
              congr 2
              refine (Tensor.ext' (a := t.map (· ^ 1)) (b := t) rfl fun i hi => ?_).symm
              rw [get_map (· ^ 1) t hi, pow_one], hl.1, e1.symm⟩
          rw [Int.toNat_natCast, q1] at hr
          cases hr
          rw [Nat.zero_add, Nat.one_mul] at q2
          exact q2
  · cases hr

/-! ### MaxPool -/

theorem winPos_inBounds : ∀ {ax : List WinAx} {os ks p : List ℕ}, winPos ax os ks = some p →
    InBounds (ax.map WinAx.inp) p
  | [], [], [], p, h => by
    simp [winPos] at h
    subst h
    simp
  | a :: as, o :: os, k :: ks, p, h => by
    unfold winPos at h
    split at h
    · rename_i hc
      obtain ⟨q, h1, rfl⟩ := Option.map_eq_some_iff.1 h
      rw [List.map_cons, inBounds_cons]
      exact ⟨hc.2, winPos_inBounds h1⟩
    · cases h
  | [], _ :: _, _, _, h => by simp [winPos] at h
  | [], [], _ :: _, _, h => by simp [winPos] at h
  | _ :: _, [], _, _, h => by simp [winPos] at h
  | _ :: _, _ :: _, [], _, h => by simp [winPos] at h

theorem winAxis_inp {s : String} {c : Bool} {i k st d pb pe : ℕ} {a : WinAx}
    (h : winAxis s c i k st d pb pe = some a) : a.inp = i := by
  unfold winAxis at h
  simp only at h
  by_cases h1 : st = 0
  · rw [if_pos h1] at h; cases h
  · rw [if_neg h1] at h
    by_cases h2 : s = "SAME_UPPER" ∨ s = "SAME_LOWER"
    · rw [if_pos h2] at h; cases h; rfl
    · rw [if_neg h2] at h
      by_cases h3 : i + (if s = "VALID" then 0 else pb) + (if s = "VALID" then 0 else pe) < (k - 1) * d + 1
      · rw [if_pos h3] at h; cases h
      · rw [if_neg h3] at h; cases h; rfl

theorem winAxes_inp {w : WinAttrs} {xs ks : List ℕ} {ax : List WinAx} (h : winAxes w xs ks = some ax) :
    ax.map WinAx.inp = xs := by
  unfold winAxes at h
  simp only at h
  split at h
  · have := mapM_forall₂.1 h
    have h2 : List.Forall₂ (fun i (a : WinAx) => a.inp = xs.getD i 0) (List.range xs.length) ax :=
      this.imp fun i a ha => winAxis_inp ha
    have h3 : ax.map WinAx.inp = (List.range xs.length).map fun i => xs.getD i 0 := by
      clear this h
      generalize List.range xs.length = l at h2
      induction h2 with
      | nil => rfl
      | cons hx _ ih => simp [hx, ih]
    rw [h3]
    apply List.ext_getElem
    · simp
    · intro i h1 h2
      simp [h2]
  · cases h

theorem maxOf_map {f : V → V} (hf : ∀ a b, f (A.bin .max a b) = A.bin .max (f a) (f b)) {l : List V}
    (h : l.length ≠ 0) : maxOf A (l.map f) = f (maxOf A l) := by
  cases l with
  | nil => simp at h
  | cons a l =>
    unfold maxOf
    simp only [List.map_cons, List.tail_cons, List.headD_cons]
    clear h
    induction l generalizing a with
    | nil => rfl
    | cons b l ih => rw [List.map_cons, List.foldl_cons, List.foldl_cons, ← hf, ih]

theorem poolWindow_map {f : V → V} {ax : List WinAx} {ks idx : List ℕ} {x : Tensor V} {n c : ℕ}
    (hx : x.shape = n :: c :: ax.map WinAx.inp) (hi : InBounds [n, c] (idx.take 2)) :
    poolWindow ax ks (x.map f) idx = (poolWindow ax ks x idx).map f := by
  unfold poolWindow
  rw [List.map_filterMap]
  refine List.filterMap_congr fun k _ => ?_
  rw [Option.map_map]
  cases h : winPos ax (idx.drop 2) k with
  | none => rfl
  | some p =>
    simp only [Option.map_some, Function.comp_apply]
    congr 1
    refine get_map _ _ ?_
    rw [hx]
    exact (inBounds_append (s := [n, c]) hi.length).2 ⟨hi, winPos_inBounds h⟩

theorem eval_maxPool {w : WinAttrs} {e : Ex V} {ty : STy} {v : Option (Tensor V)} :
    eval A env (.op (.maxPool w) [e] ty) = some v ↔
      ∃ x y, eval A env e = some (some x) ∧ maxPool A w x = some y ∧ v = some y := by
  rw [eval_op1]
  constructor
  · rintro ⟨x, t, hx, ht, rfl⟩
    cases x with
    | none => simp [sem] at ht
    | some x => exact ⟨x, t, hx, ht, rfl⟩
  · rintro ⟨x, y, hx, hy, rfl⟩
    exact ⟨some x, y, hx, hy, rfl⟩

theorem maxPool_map {f : V → V} (hf : ∀ a b, f (A.bin .max a b) = A.bin .max (f a) (f b)) {w : WinAttrs}
    {x y : Tensor V} (h : maxPool A w (x.map f) = some y) : ∃ z, maxPool A w x = some z ∧ y = z.map f := by
  unfold maxPool at h ⊢
  rw [map_shape] at h
  match hx : x.shape, h with
  | n :: c :: xs, h =>
    simp only at h ⊢
    obtain ⟨ks, h1, h2⟩ := Option.bind_eq_some_iff.1 h
    obtain ⟨ax, h3, h4⟩ := Option.bind_eq_some_iff.1 h2
    rw [h1, Option.bind_some, h3, Option.bind_some]
    have hinp := winAxes_inp h3
    have hw : ∀ idx, InBounds (n :: c :: ax.map WinAx.out) idx →
        poolWindow ax ks (x.map f) idx = (poolWindow ax ks x idx).map f := by
      intro idx hi
      refine poolWindow_map (n := n) (c := c) (by rw [hx, hinp]) ?_
      match idx, hi with
      | a :: b :: r, hi =>
        rw [inBounds_cons, inBounds_cons] at hi
        simp [hi.1, hi.2.1]
      | [_], hi => simp at hi
      | [], hi => simp at hi
    split at h4
    · rename_i hne
      cases h4
      rw [if_pos]
      · refine ⟨_, rfl, ?_⟩
        rw [map_build]
        refine build_congr fun i hi => ?_
        have hn := hne i (mem_allIndices.2 hi)
        rw [hw i hi] at hn ⊢
        exact maxOf_map hf (by simpa using hn)
      · intro i hi
        have hn := hne i hi
        rw [hw i (mem_allIndices.1 hi)] at hn
        simpa using hn
    · cases h4
  | [], h => simp at h
  | [_], h => simp at h

theorem reorderReluMaxPool_sound
    (hA : ∀ a b, A.un "Relu" [] (A.bin .max a b) = A.bin .max (A.un "Relu" [] a) (A.un "Relu" [] b)) :
    Sound A (reorderReluMaxPool (V := V)) := by
  intro env e e' hr ht v hv
  unfold reorderReluMaxPool at hr
  split at hr
  · rename_i w n as x xty ty
    split at hr
    · rename_i hc
      cases hr
      simp only [Bool.and_eq_true, decide_eq_true_eq] at hc
      obtain ⟨⟨⟨⟨rfl, rfl⟩, -⟩, -⟩, -⟩ := hc
      obtain ⟨r, y, h1, h2, rfl⟩ := eval_maxPool.1 hv
      obtain ⟨x', g1, g2⟩ := eval_unary.1 h1
      cases g2
      obtain ⟨z, k1, rfl⟩ := maxPool_map hA h2
      have hty := ht
      rw [typed_op] at ht
      obtain ⟨-, hk, hl⟩ := ht
      simp only [typedL_cons] at hl
      obtain ⟨lx, -⟩ := hl
      rw [typed_op] at lx
      obtain ⟨-, hkx, hlx⟩ := lx
      simp only [typedL_cons] at hlx
      have e1 : ty.elt = xty.elt := hk
      have e2 : xty.elt = x.ty.elt := hkx
      refine replaced hty hv (eval_unary.2 ⟨z, eval_maxPool.2 ⟨x', z, g1, k1, rfl⟩, rfl⟩) ?_ ?_
      · have : ty.elt = x.ty.elt := e1.trans e2
        exact this
      · simp only [typedL_cons]
        refine ⟨typed_unranked ?_ ?_, typedL_nil⟩
        · simp only [typedL_cons]
          exact ⟨hlx.1, typedL_nil⟩
        · have : x.ty.elt = x.ty.elt := rfl
          exact this
    · cases hr
  · cases hr

end Verif.Rewrite
