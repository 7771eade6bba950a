import Verif.Casts.Lemmas

/-!
# C106: Cast

`Spec.lean` says what ONNX asks of a conversion (`IsCast`); `Model.lean` is the code that the compiler
emits for one.
-/

namespace Verif.Props
open Verif Verif.Casts
open Verif.Scalar (Num)

/-- Between the types that are supported, the result is the one of ONNX: for integers of any width and
any rounding of floats.  Missing are the other pairs of types, and booleans from NaN. -/
theorem C106_cast_partial (rnd : FTy → ℝ → Num) (d : Ty) (v : V) (h0 : v.ty.Ok) (h1 : d.Ok)
    (hs : Supported v.ty d) (hf : Fits d v) (hn : d = .int 1 false → v.num ≠ .nan) :
    ∃ r, cast rnd d v = .ok r ∧ IsCast rnd d v r :=
  cast_ok rnd d v h0 h1 hs hf hn

/-- -7 as 16 bits to 8 bits, 300 to 8 bits, and 2.5 to 8 unsigned bits. -/
example (rnd : FTy → ℝ → Num) : ∃ r, cast rnd (.int 8 false) (.int 16 false 300) = .ok r ∧
    IsCast rnd (.int 8 false) (.int 16 false 300) r :=
  C106_cast_partial rnd _ _ ⟨by decide, by decide⟩ ⟨by decide, by decide⟩ (.inr (by simp [V.ty]))
    trivial (by simp)

example : Fits (.int 8 true) (.flt .f32 (.fin (5 / 2))) := by
  intro _
  refine ⟨5 / 2, rfl, ?_, ?_⟩
  · rw [chop, if_pos (by norm_num)]
    norm_num [lowest, Int.le_floor]
  · rw [chop, if_pos (by norm_num)]
    norm_num [highest]

/-- Between all other types no value of the right type comes out, whatever the value. -/
theorem C106_unsupported (rnd : FTy → ℝ → Num) (d : Ty) (v : V) (h0 : v.ty.Ok) (h1 : d.Ok)
    (hs : ¬ Supported v.ty d) : ∀ r, cast rnd d v = .ok r → r.ty ≠ d := by
  intro r hr
  have he : v.ty ≠ d := fun e => hs (.inl e)
  have hs' := fun h => hs (.inr h)
  have bad : ∀ (w' w : ℕ) (b : BitVec w') (di : Bool), w' ≠ 1 → w ≠ 1 → w ≠ w' →
      direct rnd (.int w true) di (.int w' false b) = .invalid := by
    intro w' w b di h1 h2 h3
    have : resize (.int w true) w w' (.int w' false b) = .invalid := by
      unfold resize
      rcases lt_or_gt_of_ne h3 with h | h
      · rw [if_neg (by omega), if_pos h]; rfl
      · rw [if_pos h]; rfl
    simp only [direct]
    rw [if_neg h1, if_neg h2, if_neg (by simp), signedToInt, if_neg (by simp [h3.symm]), this]
    rfl
  cases v with
  | flt f x =>
    cases d with
    | flt g =>
      have e : f.width = g.width := by simpa [V.ty] using hs'
      rw [cast_of_two rnd he (by simp [V.ty]) (by simp)] at hr
      simp [twoSteps, direct, floatToFloat, V.ty, Ty.bits, e] at hr
    | int w u =>
      obtain ⟨rfl, rfl⟩ : w = 1 ∧ f = .bf16 := by simpa [V.ty] using hs'
      rw [cast_of_two rnd he (by simp [V.ty]) (by simp)] at hr
      simp [twoSteps, direct, Casts.toBool, neqZero, hasConstant] at hr
    | index => simp [V.ty] at hs'
  | index b =>
    cases d with
    | flt g => simp [V.ty] at hs'
    | index => simp [V.ty] at hs'
    | int w u =>
      obtain ⟨a1, rfl, a3⟩ : w ≠ 1 ∧ u = true ∧ w ≠ 64 := by simpa [V.ty] using hs'
      rw [cast_index rnd b (by simp), twoSteps] at hr
      · rw [bad 64 w b false (by decide) a1 a3] at hr
        cases hr
      all_goals simp
  | int w' u' b =>
    cases d with
    | flt g => simp [V.ty] at hs'
    | index =>
      have e : u' = true := by simpa [V.ty] using hs'
      subst e
      rw [cast_to_index rnd _ he] at hr
      have h1' : w' ≠ 1 := fun e => by simpa using h0.2 e
      simp only [twoSteps, direct] at hr
      rw [if_neg h1', if_neg (by decide), if_pos trivial, unsignedToInt] at hr
      by_cases h64 : w' = 64
      · rw [if_pos ⟨h64, rfl⟩] at hr
        simp only [castToSignless, if_true, Res.ok.injEq] at hr
        subst hr
        simp [V.ty]
      · rw [if_neg (by simp [h64]), if_neg h64] at hr
        simp only [castToSignless, if_true, Res.bind] at hr
        by_cases hl : w' < 64
        · simp [hl, extUI] at hr
          subst hr
          simp [V.ty]
        · have hg : 64 < w' := by omega
          simp [hl, hg, truncI] at hr
          subst hr
          simp [V.ty]
    | int w u =>
      rw [cast_of_two rnd he (by simp [V.ty]) (by simp), twoSteps] at hr
      · by_cases h1' : w' = 1
        · subst h1'
          obtain rfl := h0.2 rfl
          have e : u = true := by simpa [V.ty] using hs'
          subst e
          simp [direct, fromBool, extUI, Res.bind] at hr
        · by_cases h2 : w = 1
          · simp [V.ty, h1', h2] at hs'
          · cases u' with
            | true => simp [V.ty, h1', h2] at hs'
            | false =>
              obtain ⟨rfl, a3⟩ : u = true ∧ w ≠ w' := by simpa [V.ty, h1', h2] using hs'
              rw [bad w' w b false h1' h2 a3] at hr
              cases hr
      all_goals simp

/-- No code for booleans or signed integers to unsigned ones of another width, for unsigned integers to
indices, between the two formats of 16 bits, and for bf16 to booleans. -/
theorem C106_types_false :
    ¬ Supported (.int 1 false) (.int 8 true) ∧ ¬ Supported (.int 8 false) (.int 32 true) ∧
    ¬ Supported (.int 64 false) (.int 8 true) ∧ ¬ Supported (.int 32 true) .index ∧
    ¬ Supported (.flt .f16) (.flt .bf16) ∧ ¬ Supported (.flt .bf16) (.int 1 false) := by
  refine ⟨?_, ?_, ?_, ?_, ?_, ?_⟩ <;> simp [Supported, FTy.width]

/-- NaN becomes the boolean false, although it is not zero. -/
theorem C106_nan_false (rnd : FTy → ℝ → Num) :
    ∃ r, cast rnd (.int 1 false) (.flt .f32 .nan) = .ok r ∧
      ¬ IsCast rnd (.int 1 false) (.flt .f32 .nan) r := by
  refine ⟨.int 1 false 0, ?_, ?_⟩
  · simp [Casts.cast, V.ty, sourceOf, Res.bind, twoSteps, direct, Casts.toBool, neqZero, hasConstant]
  · rintro ⟨_, h⟩
    have := h.2 (by simp [V.num])
    simp [V.num, intOf] at this

/-- An integer that is widened and narrowed again comes back. -/
theorem C106_round_trip (rnd : FTy → ℝ → Num) (w w' : ℕ) (u : Bool) (b : BitVec w) (h1 : 1 < w)
    (hw : w < w') :
    (cast rnd (.int w' u) (.int w u b)).bind (cast rnd (.int w u)) = .ok (.int w u b) := by
  obtain ⟨r, e1, e2, e3⟩ := int_int rnd w u b w' u (by omega) (by omega) (by omega) (by omega)
    (by cases u <;> simp)
  obtain ⟨s, f1, f2, _⟩ := int_int rnd w' u r w u (by omega) (by omega) (by omega) (by omega)
    (by cases u <;> simp)
  have g1 : cast rnd (.int w' u) (.int w u b) = .ok (.int w' u r) := by
    rw [cast_of_two rnd (by simp [V.ty]; omega) (by simp [V.ty]) (by simp)]; exact e1
  have g2 : cast rnd (.int w u) (.int w' u r) = .ok (.int w u s) := by
    rw [cast_of_two rnd (by simp [V.ty]; omega) (by simp [V.ty]) (by simp)]; exact f1
  rw [g1, Res.bind, g2]
  have hs : s = b := by
    rw [e3 hw.le rfl] at f2
    have hd := dvd_sub f2 (intOf_mod w u b)
    have e : intOf w u b - (s.toNat : ℤ) - (intOf w u b - b.toNat) = b.toNat - s.toNat := by ring
    rw [e] at hd
    have hb : (b.toNat : ℤ) < 2 ^ w := by exact_mod_cast b.isLt
    have hs : (s.toNat : ℤ) < 2 ^ w := by exact_mod_cast s.isLt
    have := Int.eq_zero_of_abs_lt_dvd hd (by rw [abs_lt]; constructor <;> omega)
    exact BitVec.eq_of_toNat_eq (by omega)
  rw [hs]

example : 1 < 8 ∧ 8 < 32 := by decide

end Verif.Props
