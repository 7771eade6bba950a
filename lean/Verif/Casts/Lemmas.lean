import Verif.Casts.Model
import Mathlib.Tactic.Ring
import Mathlib.Tactic.Linarith
import Mathlib.Tactic.NormNum
import Mathlib.Algebra.Order.Ring.Abs

/-! # Conversions are correct -/

namespace Verif.Casts
open Scalar (Num)

theorem intOf_mod (w : ℕ) (u : Bool) (b : BitVec w) : (2 : ℤ) ^ w ∣ intOf w u b - b.toNat := by
  unfold intOf
  split
  · simp
  · rw [BitVec.toInt_eq_toNat_cond]
    split
    · simp
    · simp

theorem intOf_range {w : ℕ} (hw : 0 < w) (u : Bool) (b : BitVec w) :
    lowest w u ≤ intOf w u b ∧ intOf w u b ≤ highest w u := by
  unfold lowest highest intOf
  split
  · have := b.isLt
    refine ⟨by omega, ?_⟩
    have : ((b.toNat : ℕ) : ℤ) < ((2 ^ w : ℕ) : ℤ) := by exact_mod_cast this
    push_cast at this
    omega
  · have h1 := b.le_toInt
    have h2 := b.toInt_lt
    omega

theorem range_length {w : ℕ} (hw : 0 < w) (u : Bool) : highest w u - lowest w u + 1 = 2 ^ w := by
  unfold lowest highest
  split
  · omega
  · obtain ⟨k, rfl⟩ : ∃ k, w = k + 1 := ⟨w - 1, by omega⟩
    rw [Nat.add_sub_cancel, pow_succ]
    ring

theorem intOf_unique {w : ℕ} (hw : 0 < w) (u : Bool) (b : BitVec w) (z : ℤ)
    (h1 : lowest w u ≤ z) (h2 : z ≤ highest w u) (hd : (2 : ℤ) ^ w ∣ z - b.toNat) :
    intOf w u b = z := by
  obtain ⟨h3, h4⟩ := intOf_range hw u b
  have hl := range_length hw u
  have hm := dvd_sub (intOf_mod w u b) hd
  have e : intOf w u b - b.toNat - (z - b.toNat) = intOf w u b - z := by ring
  rw [e] at hm
  have := Int.eq_zero_of_abs_lt_dvd hm (by rw [abs_lt]; constructor <;> omega)
  omega

theorem ofInt_mod (w : ℕ) (z : ℤ) : (2 : ℤ) ^ w ∣ z - (BitVec.ofInt w z).toNat := by
  rw [BitVec.toNat_ofInt]
  have h0 : (0 : ℤ) < ((2 ^ w : ℕ) : ℤ) := by positivity
  rw [Int.toNat_of_nonneg (Int.emod_nonneg _ h0.ne')]
  push_cast
  exact Int.dvd_self_sub_emod

theorem trunc_mod {w w' : ℕ} (b : BitVec w') (h : w ≤ w') :
    (2 : ℤ) ^ w ∣ (b.toNat : ℤ) - (b.setWidth w).toNat := by
  rw [BitVec.toNat_setWidth]
  push_cast
  exact Int.dvd_self_sub_emod

theorem toNat_ext {w w' : ℕ} (b : BitVec w') (h : w' ≤ w) : (b.setWidth w).toNat = b.toNat := by
  rw [BitVec.toNat_setWidth, Nat.mod_eq_of_lt]
  exact b.isLt.trans_le (Nat.pow_le_pow_right two_pos h)

/-- The bits of an integer that is congruent to the source. -/
theorem toInt_of_mod {w w' : ℕ} (u u' u'' : Bool) (b' : BitVec w') (b : BitVec w)
    (h : (2 : ℤ) ^ w ∣ intOf w' u' b' - b.toNat) : ToInt w u'' (.int w' u' b') (.int w u b) := by
  refine ⟨intOf w u b, rfl, ?_⟩
  have := dvd_sub (intOf_mod w u b) h
  have e : intOf w u b - (b.toNat : ℤ) - (intOf w' u' b' - b.toNat) = intOf w u b - intOf w' u' b' := by
    ring
  rwa [e] at this

theorem trunc_ok {w w' : ℕ} (u' : Bool) (b : BitVec w') (h : w ≤ w') :
    (2 : ℤ) ^ w ∣ intOf w' u' b - (b.setWidth w).toNat := by
  have h1 := (pow_dvd_pow (2 : ℤ) h).trans (intOf_mod w' u' b)
  have := dvd_add h1 (trunc_mod b h)
  have e : intOf w' u' b - (b.toNat : ℤ) + (b.toNat - (b.setWidth w).toNat) =
    intOf w' u' b - (b.setWidth w).toNat := by ring
  rwa [e] at this

theorem extUI_ok {w w' : ℕ} (u' : Bool) (hu : u' = true ∨ w' = 1) (b : BitVec w') (h : w' ≤ w) :
    intOf w' u' b = (b.setWidth w).toNat := by
  rw [intOf, if_pos hu, toNat_ext b h]

theorem extSI_ok {w w' : ℕ} (h1 : w' ≠ 1) (b : BitVec w') (h : w' ≤ w) :
    intOf w' false b = (b.signExtend w).toInt := by
  rw [intOf, if_neg (by simp [h1]), BitVec.toInt_signExtend_of_le h]

theorem toInt_mod {w : ℕ} (b : BitVec w) : (2 : ℤ) ^ w ∣ b.toInt - b.toNat := by
  rw [BitVec.toInt_eq_toNat_cond]
  split <;> simp

theorem intOf_signed {w : ℕ} (h : w ≠ 1) (b : BitVec w) : intOf w false b = b.toInt := by
  rw [intOf, if_neg (by simp [h])]

theorem intOf_unsigned {w : ℕ} (b : BitVec w) : intOf w true b = b.toNat := by
  rw [intOf, if_pos (by simp)]

theorem bool_cases (b : BitVec 1) : b = 0 ∨ b = 1 := by
  revert b; decide

/-- The pairs of types between which there is a conversion. -/
def Supported (s d : Ty) : Prop :=
  s = d ∨
  match s, d with
  | .int w' u', .int w u =>
    if w' = 1 then u = false else if w = 1 then True else if u' then True else u = false ∨ w = w'
  | .int _ u', .index => u' = false
  | .int _ _, .flt _ => True
  | .index, .int w u => w = 1 ∨ u = false ∨ w = 64
  | .index, _ => True
  | .flt f, .flt g => f.width ≠ g.width
  | .flt f, .int w _ => w = 1 → f ≠ .bf16
  | .flt _, .index => True

variable (rnd : FTy → ℝ → Num)

theorem width_gt (f : FTy) : 1 < f.width := by cases f <;> decide

/-- From integer to integer. -/
theorem int_int (w' : ℕ) (u' : Bool) (b : BitVec w') (w : ℕ) (u : Bool) (h1 : w' ≠ 1) (h2 : w ≠ 1)
    (h0 : 0 < w) (hne : ¬ (w' = w ∧ u' = u)) (hs : u' = true ∨ u = false ∨ w = w') :
    ∃ r, direct rnd (.int w u) false (.int w' u' b) = .ok (.int w u r) ∧
      (2 : ℤ) ^ w ∣ intOf w' u' b - r.toNat ∧
      (w' ≤ w → u' = u → intOf w u r = intOf w' u' b) := by
  unfold direct
  dsimp only
  rw [if_neg h1, if_neg h2]
  cases u' with
  | true =>
    rw [if_pos rfl, unsignedToInt]
    by_cases he : w' = w
    · subst he
      cases u with
      | true => simp at hne
      | false =>
        refine ⟨b, by simp [castToSignless], ?_, by simp⟩
        exact intOf_mod w' true b
    · rw [if_neg (by tauto), if_neg he]
      simp only [castToSignless, if_true, Res.bind]
      by_cases hl : w' < w
      · refine ⟨b.setWidth w, by cases u <;> simp [hl, extUI, castToUnsigned], ?_, ?_⟩
        · rw [extUI_ok true (.inl rfl) b hl.le]; simp
        · intro _ hu
          rw [← hu, intOf_unsigned, ← extUI_ok true (.inl rfl) b hl.le]
      · have hg : w < w' := by omega
        refine ⟨b.setWidth w, by cases u <;> simp [hl, hg, truncI, castToUnsigned], ?_, ?_⟩
        · exact trunc_ok true b hg.le
        · intro h; omega
  | false =>
    rw [if_neg (by simp), signedToInt]
    cases u with
    | true =>
      simp only [Bool.false_eq_true, reduceCtorEq, false_or] at hs
      subst hs
      exact ⟨b, by simp [castToUnsigned], intOf_mod w false b, by simp⟩
    | false =>
      have hw : w' ≠ w := fun h => hne ⟨h, rfl⟩
      rw [if_neg (by simp), resize]
      by_cases hl : w' < w
      · refine ⟨b.signExtend w, by simp [hl, extSI, Res.bind], ?_, ?_⟩
        · rw [extSI_ok h1 b hl.le]; exact toInt_mod _
        · intro _ _
          rw [intOf_signed h2, extSI_ok h1 b hl.le]
      · have hg : w < w' := by omega
        refine ⟨b.setWidth w, by simp [hl, hg, truncI, Res.bind], trunc_ok false b hg.le, ?_⟩
        intro h; omega

/-- From float to an integer. -/
theorem float_int (f : FTy) (a : ℝ) (w : ℕ) (u : Bool) (h1 : w ≠ 1) (h0 : 0 < w)
    (hl : lowest w u ≤ chop a) (hh : chop a ≤ highest w u) :
    direct rnd (.int w u) false (.flt f (.fin a)) = .ok (.int w u (BitVec.ofInt w (chop a))) ∧
      intOf w u (BitVec.ofInt w (chop a)) = chop a := by
  refine ⟨?_, intOf_unique h0 u _ _ hl hh (ofInt_mod w _)⟩
  unfold direct
  dsimp only
  rw [if_neg h1, floatToInt]
  cases u with
  | true =>
    simp only [lowest, highest, true_or, if_true] at hl hh
    simp [fpToUI, hl, hh, Res.bind, castToUnsigned]
  | false =>
    simp only [lowest, highest, h1, Bool.false_eq_true, or_self, if_false] at hl hh
    simp [fpToSI, hl, hh, Res.bind]

theorem range_mono {w w' : ℕ} (h : w ≤ w') (h1 : 1 < w) (u : Bool) :
    lowest w' u ≤ lowest w u ∧ highest w u ≤ highest w' u := by
  unfold lowest highest
  have h2 : w ≠ 1 := by omega
  have h3 : w' ≠ 1 := by omega
  simp only [h2, h3, or_false]
  have p1 : (2 : ℤ) ^ w ≤ 2 ^ w' := pow_le_pow_right₀ (by norm_num) h
  have p2 : (2 : ℤ) ^ (w - 1) ≤ 2 ^ (w' - 1) := pow_le_pow_right₀ (by norm_num) (by omega)
  cases u <;> simp <;> omega

/-- From float to integer, possibly in two steps. -/
theorem float_int_two (f : FTy) (a : ℝ) (w : ℕ) (u : Bool) (h1 : 1 < w)
    (hl : lowest w u ≤ chop a) (hh : chop a ≤ highest w u) :
    ∃ r, twoSteps rnd (.int w u) false (.flt f (.fin a)) = .ok (.int w u r) ∧
      intOf w u r = chop a := by
  unfold twoSteps
  dsimp only
  by_cases hw : w < f.width
  · rw [if_pos ⟨hw, h1⟩]
    obtain ⟨m1, m2⟩ := range_mono hw.le h1 u
    have hf := width_gt f
    obtain ⟨e1, e2⟩ := float_int rnd f a f.width u (by omega) (by omega) (m1.trans hl) (hh.trans m2)
    rw [e1, Res.bind]
    obtain ⟨r, e3, e4, _⟩ := int_int rnd f.width u (BitVec.ofInt f.width (chop a)) w u (by omega)
      (by omega) (by omega) (by omega) (by cases u <;> simp)
    refine ⟨r, e3, intOf_unique (by omega) u r _ hl hh ?_⟩
    rwa [e2] at e4
  · rw [if_neg (by omega)]
    obtain ⟨e1, e2⟩ := float_int rnd f a w u (by omega) (by omega) hl hh
    exact ⟨_, e1, e2⟩

/-- From integer to float, possibly in two steps. -/
theorem int_float (w' : ℕ) (u' : Bool) (b : BitVec w') (f : FTy) (h0 : 0 < w')
    (hu : w' = 1 → u' = false) (di : Bool) :
    twoSteps rnd (.flt f) di (.int w' u' b) = .ok (.flt f (rnd f (intOf w' u' b))) := by
  have hf := width_gt f
  have key : ∀ (n : ℕ) (u : Bool) (c : BitVec n) (di : Bool), n ≠ 1 →
      direct rnd (.flt f) di (.int n u c) = .ok (.flt f (rnd f (intOf n u c))) := by
    intro n u c di hn
    unfold direct
    dsimp only
    rw [if_neg hn, intToFloat]
    cases u with
    | true =>
      rw [if_pos rfl]
      simp only [V.ty, Ty.bits, castToSignless, if_true, Res.bind, uiToFP, intOf_unsigned]
      norm_cast
    | false =>
      rw [if_neg (by simp)]
      simp only [siToFP, intOf_signed hn]
  unfold twoSteps
  dsimp only
  by_cases hw : w' < f.width
  · rw [if_pos hw]
    by_cases h1 : w' = 1
    · subst h1
      obtain rfl := hu rfl
      have e : direct rnd (.int f.width false) false (.int 1 false b) =
          .ok (.int f.width false (b.setWidth f.width)) := by
        simp [direct, fromBool, extUI, hw, Res.bind]
      rw [e, Res.bind, key _ _ _ _ (by omega)]
      congr 3
      congr 1
      refine intOf_unique (by omega) false _ _ ?_ ?_ ?_
      · have := (intOf_range one_pos false b).1
        simp only [lowest, or_true, if_true] at this
        refine le_trans ?_ this
        have h2 : f.width ≠ 1 := by omega
        simp [lowest, h2]
      · have := (intOf_range one_pos false b).2
        simp only [highest, or_true, if_true] at this
        refine this.trans ?_
        have h2 : f.width ≠ 1 := by omega
        simp only [highest, h2, Bool.false_eq_true, or_self, if_false]
        have : (2 : ℤ) ^ 1 ≤ 2 ^ (f.width - 1) := pow_le_pow_right₀ (by norm_num) (by omega)
        omega
      · rw [extUI_ok false (.inr rfl) b hw.le]; simp
    · obtain ⟨r, e1, _, e3⟩ := int_int rnd w' u' b f.width u' h1 (by omega) (by omega) (by omega)
        (by cases u' <;> simp)
      rw [e1, Res.bind, key _ _ _ _ (by omega), e3 hw.le rfl]
  · rw [if_neg hw]
    exact key _ _ _ _ (by omega)

/-- To a boolean. -/
theorem to_bool (v : V) (h0 : v.ty.Ok) (h1 : v.ty ≠ .int 1 false) (h2 : v.ty ≠ .index)
    (hn : v.num ≠ .nan) (hb : v.ty ≠ .flt .bf16) (di : Bool) :
    ∃ r, twoSteps rnd (.int 1 false) di v = .ok (.int 1 false r) ∧ ToBool v (.int 1 false r) := by
  cases v with
  | index b => exact (h2 rfl).elim
  | int w u b =>
    have hw : w ≠ 1 := by
      rintro rfl
      have := h0.2 rfl
      subst this
      exact h1 rfl
    refine ⟨if b = 0 then 0 else 1, ?_, ?_⟩
    · unfold twoSteps direct
      dsimp only
      rw [if_neg hw, if_pos rfl]
      cases u <;> simp [toBool, castToSignless, Res.bind, neqZero]
    · simp only [ToBool, V.num]
      have hz : intOf w u b = 0 ↔ b = 0 := by
        constructor
        · intro e
          have := intOf_mod w u b
          rw [e, zero_sub, dvd_neg] at this
          have hl := b.isLt
          have := Nat.eq_zero_of_dvd_of_lt (by exact_mod_cast this) hl
          exact BitVec.eq_of_toNat_eq (by simpa using this)
        · rintro rfl
          simp [intOf]
      by_cases hb0 : b = 0
      · rw [if_pos hb0, hz.2 hb0]
        simp [intOf]
      · rw [if_neg hb0]
        refine ⟨fun e => ?_, fun _ => by simp [intOf]⟩
        injection e with e
        exact (hb0 (hz.1 (by exact_mod_cast e))).elim
  | flt f x =>
    have hc : hasConstant (.flt f) = true := by
      cases f <;> first | rfl | exact (hb rfl).elim
    simp only [V.num] at hn
    unfold twoSteps direct
    dsimp only
    rw [if_neg (by simp), if_pos rfl]
    simp only [toBool, neqZero, hc, if_true, ToBool, V.num]
    cases x with
    | nan => exact (hn rfl).elim
    | ninf => exact ⟨1, rfl, by simp [intOf]⟩
    | pinf => exact ⟨1, rfl, by simp [intOf]⟩
    | fin a =>
      refine ⟨_, rfl, ?_⟩
      by_cases ha : a = 0 <;> simp [ha, intOf]

/-- A value of the right type is its own conversion. -/
theorem refl_ok (v : V) (h0 : v.ty.Ok) : IsCast rnd v.ty v v := by
  refine ⟨rfl, ?_⟩
  cases v with
  | int w u b =>
    simp only [V.ty]
    by_cases h1 : w = 1
    · subst h1
      rw [if_pos rfl]
      simp only [ToBool, V.num]
      rcases bool_cases b with rfl | rfl <;> simp [intOf]
    · rw [if_neg h1]
      exact ⟨intOf w u b, rfl, by simp⟩
  | flt f x => exact ⟨fun _ => rfl, fun h => (lt_irrefl _ h).elim⟩
  | index b => exact ⟨b.toInt, rfl, by simp⟩

theorem cast_of_two {d : Ty} {v : V} (h : v.ty ≠ d) (h1 : v.ty ≠ .index) (h2 : d ≠ .index) :
    cast rnd d v = twoSteps rnd d false v := by
  unfold cast
  rw [if_neg h]
  have : sourceOf v = .ok v := by cases v <;> first | rfl | exact (h1 rfl).elim
  rw [this, Res.bind]
  cases d <;> first | rfl | exact (h2 rfl).elim

theorem cast_index {d : Ty} (b : BitVec 64) (h2 : d ≠ .index) :
    cast rnd d (.index b) = twoSteps rnd d false (.int 64 false b) := by
  unfold cast
  rw [if_neg (by simpa [V.ty] using h2.symm)]
  cases d <;> first | rfl | exact (h2 rfl).elim

theorem cast_to_index (v : V) (h : v.ty ≠ .index) :
    cast rnd .index v = twoSteps rnd (.int 64 false) true v := by
  unfold cast
  rw [if_neg h]
  have : sourceOf v = .ok v := by cases v <;> first | rfl | exact (h rfl).elim
  rw [this, Res.bind]

/-- Conversion to an index ends with a change of type only. -/
theorem direct_index (v : V) (hv : ∀ w u b, v = .int w u b → u = false) (r : BitVec 64)
    (h : direct rnd (.int 64 false) false v = .ok (.int 64 false r)) :
    direct rnd (.int 64 false) true v = .ok (.index r) := by
  cases v with
  | index b => simp [direct] at h
  | flt f x =>
    simp only [direct, floatToInt] at h ⊢
    rw [if_neg (by decide), if_neg (by simp)] at h ⊢
    cases hx : fpToSI (.int 64 false) (.flt f x) with
    | ok a =>
      rw [hx] at h
      simp only [Res.bind, Bool.false_eq_true, if_false, Res.ok.injEq] at h
      subst h
      rfl
    | invalid => rw [hx] at h; cases h
    | poison => rw [hx] at h; cases h
  | int w u b =>
    obtain rfl := hv w u b rfl
    simp only [direct] at h ⊢
    by_cases h1 : w = 1
    · rw [if_pos h1] at h ⊢
      unfold fromBool at h ⊢
      cases hx : extUI (.int 64 false) (.int w false b) with
      | ok a =>
        rw [hx] at h
        simp only [Res.bind, Bool.false_eq_true, if_false, Res.ok.injEq] at h
        subst h
        rfl
      | invalid => rw [hx] at h; cases h
      | poison => rw [hx] at h; cases h
    · rw [if_neg h1, if_neg (by decide), if_neg (by simp)] at h ⊢
      unfold signedToInt at h ⊢
      rw [if_neg (by simp)] at h ⊢
      cases hx : resize (.int 64 false) 64 w (.int w false b) with
      | ok a =>
        rw [hx] at h
        simp only [Res.bind, Bool.false_eq_true, if_false, Res.ok.injEq] at h
        subst h
        rfl
      | invalid => rw [hx] at h; cases h
      | poison => rw [hx] at h; cases h

theorem index_intOf (b : BitVec 64) : intOf 64 false b = b.toInt := intOf_signed (by decide) b

/-- Integers to an integer type other than booleans, whatever the source. -/
theorem int_any (w' : ℕ) (u' : Bool) (b : BitVec w') (w : ℕ) (u : Bool) (h0 : 0 < w')
    (hb : w' = 1 → u' = false ∧ u = false)
    (h2 : 1 < w) (hs : w' ≠ 1 → u' = true ∨ u = false ∨ w = w') :
    (w' = w ∧ u' = u) ∨ ∃ r, direct rnd (.int w u) false (.int w' u' b) = .ok (.int w u r) ∧
      (2 : ℤ) ^ w ∣ intOf w' u' b - r.toNat := by
  by_cases h1 : w' = 1
  · subst h1
    obtain ⟨rfl, rfl⟩ := hb rfl
    refine .inr ⟨b.setWidth w, by simp [direct, fromBool, extUI, h2, Res.bind], ?_⟩
    rw [extUI_ok false (.inr rfl) b h2.le]; simp
  · by_cases hne : w' = w ∧ u' = u
    · exact .inl hne
    · obtain ⟨r, e1, e2, _⟩ := int_int rnd w' u' b w u h1 (by omega) (by omega) hne (hs h1)
      exact .inr ⟨r, e1, e2⟩

theorem cast_ok (d : Ty) (v : V) (h0 : v.ty.Ok) (h1 : d.Ok) (hs : Supported v.ty d) (hf : Fits d v)
    (hn : d = .int 1 false → v.num ≠ .nan) : ∃ r, cast rnd d v = .ok r ∧ IsCast rnd d v r := by
  by_cases he : v.ty = d
  · refine ⟨v, by rw [cast, if_pos he], ?_⟩
    subst he
    exact refl_ok rnd v h0
  rcases hs with hs | hs
  · exact (he hs).elim
  cases d with
  | flt f =>
    cases v with
    | int w' u' b =>
      refine ⟨_, (cast_of_two rnd he (by simp [V.ty]) (by simp)).trans
        (int_float rnd w' u' b f h0.1 h0.2 false), rfl, ?_⟩
      rfl
    | index b =>
      refine ⟨_, (cast_index rnd b (by simp)).trans
        (int_float rnd 64 false b f (by decide) (by simp) false), rfl, ?_⟩
      simp only [ToFloat, V.num, index_intOf]
    | flt g x =>
      rw [cast_of_two rnd he (by simp [V.ty]) (by simp)]
      simp only [V.ty] at hs
      change ∃ r, (if g.width < f.width then extF (.flt f) (.flt g x)
        else if f.width < g.width then truncF rnd (.flt f) (.flt g x) else Res.invalid) = .ok r ∧ _
      by_cases hl : g.width < f.width
      · rw [if_pos hl]
        refine ⟨.flt f x, by simp [extF, hl], rfl, fun _ => rfl, fun h => ?_⟩
        omega
      · have hg : f.width < g.width := by omega
        rw [if_neg hl, if_pos hg]
        have e : truncF rnd (.flt f) (.flt g x) =
            .ok (.flt f (narrow rnd f x)) := by
          simp only [truncF, if_pos hg]
        refine ⟨_, e, rfl, fun h => ?_, fun _ => ⟨?_, ?_⟩⟩
        · omega
        · rintro a rfl; rfl
        · intro hx
          cases x <;> first | rfl | exact (hx _ rfl).elim
  | int w u =>
    by_cases hw : w = 1
    · subst hw
      obtain rfl := h1.2 rfl
      have hb : v.ty ≠ .flt .bf16 := by
        intro e
        rw [e] at hs
        exact hs rfl rfl
      cases v with
      | index b =>
        obtain ⟨r, e1, e2⟩ := to_bool rnd (.int 64 false b) (by simp [V.ty, Ty.Ok]) (by simp [V.ty])
          (by simp [V.ty]) (by simp [V.num]) (by simp [V.ty]) false
        refine ⟨_, (cast_index rnd b (by simp)).trans e1, rfl, ?_⟩
        dsimp only
        rw [if_pos rfl]
        simp only [ToBool, V.num, index_intOf] at e2 ⊢
        exact e2
      | int w' u' b =>
        obtain ⟨r, e1, e2⟩ := to_bool rnd (.int w' u' b) h0 he (by simp [V.ty]) (hn rfl) hb false
        refine ⟨_, (cast_of_two rnd he (by simp [V.ty]) (by simp)).trans e1, rfl, ?_⟩
        dsimp only
        rw [if_pos rfl]; exact e2
      | flt g x =>
        obtain ⟨r, e1, e2⟩ := to_bool rnd (.flt g x) h0 he (by simp [V.ty]) (hn rfl) hb false
        refine ⟨_, (cast_of_two rnd he (by simp [V.ty]) (by simp)).trans e1, rfl, ?_⟩
        dsimp only
        rw [if_pos rfl]; exact e2
    · have hw1 : 1 < w := by have := h1.1; omega
      cases v with
      | flt g x =>
        obtain ⟨a, rfl, hl, hh⟩ := hf hw
        obtain ⟨r, e1, e2⟩ := float_int_two rnd g a w u hw1 hl hh
        refine ⟨_, (cast_of_two rnd he (by simp [V.ty]) (by simp)).trans e1, rfl, ?_⟩
        simp only [hw, if_false]
        rintro a' ⟨⟩ _ _
        simp only [V.num, e2]
      | int w' u' b =>
        simp only [V.ty] at hs
        rcases int_any rnd w' u' b w u h0.1 (fun e => ⟨h0.2 e, by simpa [e] using hs⟩) hw1
          (fun e => by
            simp only [e, hw, if_false] at hs
            cases u' with
            | true => simp
            | false => simpa using hs) with ⟨rfl, rfl⟩ | ⟨r, e1, e2⟩
        · exact (he rfl).elim
        · refine ⟨_, (cast_of_two rnd he (by simp [V.ty]) (by simp)).trans e1, rfl, ?_⟩
          simp only [hw, if_false]
          exact toInt_of_mod u u' u b r e2
      | index b =>
        simp only [V.ty, hw, false_or] at hs
        rw [cast_index rnd b (by simp)]
        rcases int_any rnd 64 false b w u (by decide) (fun h => by omega) hw1
          (fun _ => .inr hs) with ⟨rfl, rfl⟩ | ⟨r, e1, e2⟩
        · refine ⟨.int 64 false b, by simp [twoSteps, direct, signedToInt, resize, Res.bind], rfl, ?_⟩
          simp only [hw, if_false]
          exact ⟨b.toInt, by simp [V.num, index_intOf], by simp⟩
        · refine ⟨_, e1, rfl, ?_⟩
          simp only [hw, if_false]
          have := toInt_of_mod u false u b r e2
          simp only [ToInt, index_intOf] at this ⊢
          exact this
  | index =>
    rw [cast_to_index rnd v he]
    cases v with
    | index b => exact (he rfl).elim
    | flt g x =>
      obtain ⟨a, rfl, hl, hh⟩ := hf
      obtain ⟨e1, e2⟩ := float_int rnd g a 64 false (by decide) (by decide) hl hh
      have e3 := direct_index rnd (.flt g (.fin a)) (by simp) _ e1
      have hg : ¬ (64 < g.width ∧ 1 < 64) := by cases g <;> decide
      refine ⟨_, by rw [twoSteps, if_neg hg]; exact e3, rfl, ?_⟩
      rintro a' ⟨⟩ _ _
      rw [index_intOf] at e2
      simp only [V.num, e2]
    | int w' u' b =>
      simp only [V.ty] at hs
      subst hs
      rcases int_any rnd w' false b 64 false h0.1 (by simp) (by decide) (by simp)
        with ⟨rfl, _⟩ | ⟨r, e1, e2⟩
      · refine ⟨.index b, by simp [twoSteps, direct, signedToInt, resize, Res.bind, indexCast], rfl, ?_⟩
        exact ⟨b.toInt, rfl, by simp [index_intOf]⟩
      · have e3 := direct_index rnd (.int w' false b) (by rintro _ _ _ ⟨⟩; rfl) r e1
        refine ⟨_, e3, rfl, ?_⟩
        have := toInt_of_mod false false false b r e2
        simp only [ToInt, V.num, index_intOf] at this ⊢
        exact this

end Verif.Casts
