import Verif.Float.Dlf16

/-!
# C14 to C18, C43: conversions between float32 and the 16-bit formats

A bit pattern is a natural number. `u / 2^31` is the sign of a float32 and `u % 2^31` its magnitude
pattern, whose real value is `f32 (u % 2^31)`; likewise with `2^15` for the 16-bit formats.
-/

namespace Verif.Props

open Verif.Float

/-- C14: every float32 goes to the nearest bfloat16, ties to even; the sign is kept, infinities stay
infinities and NaN stays NaN. -/
theorem C14_bf16_rounding (f : Nat) (hf : f < 2 ^ 32) :
    let r := om_f32_to_bf16 f
    r < 2 ^ 16 ∧ r / 2 ^ 15 = f / 2 ^ 31 ∧
    (f % 2 ^ 31 < inf32 → NearestEven bf16 infB16 (f32 (f % 2 ^ 31)) (r % 2 ^ 15)) ∧
    (f % 2 ^ 31 = inf32 → r % 2 ^ 15 = infB16) ∧
    (inf32 < f % 2 ^ 31 → infB16 < r % 2 ^ 15) := by
  intro r
  rcases Nat.lt_or_ge inf32 (f % 2 ^ 31) with hn | hn
  · obtain ⟨h1, h2⟩ := om_f32_to_bf16_nan f hf hn
    refine ⟨?_, h1, fun h => by omega, fun h => by omega, fun _ => h2⟩
    have : f / 2 ^ 31 < 2 := by omega
    omega
  · have hr : r = f / 2 ^ 31 * 2 ^ 15 + rhe (f % 2 ^ 31) (2 ^ 16) := om_f32_to_bf16_eq f hf hn
    have hle : rhe (f % 2 ^ 31) (2 ^ 16) ≤ infB16 := by
      apply rhe_le (by norm_num)
      unfold inf32 at hn; unfold infB16; omega
    have hm : r % 2 ^ 15 = rhe (f % 2 ^ 31) (2 ^ 16) := by rw [hr]; unfold infB16 at hle; omega
    refine ⟨by unfold infB16 at hle; omega, by unfold infB16 at hle; omega, ?_, ?_, fun h => by omega⟩
    · intro h
      rw [hm]
      exact nearest_drop 127 7 16 (f % 2 ^ 31) infB16 (by unfold inf32 at h; unfold infB16; omega)
    · intro h
      rw [hm, h]; decide +kernel

/-- A tie at an odd pattern rounds up, below at an even one, and the halfway point to infinity
rounds to infinity. -/
example : om_f32_to_bf16 0x3F818000 = 0x3F82 ∧ om_f32_to_bf16 0x3F808000 = 0x3F80 ∧
    om_f32_to_bf16 0xFF7F8000 = 0xFF80 ∧ om_f32_to_bf16 0x7F7F7FFF = 0x7F7F ∧
    om_f32_to_bf16 0x7F800001 = 0x7FC0 ∧ om_f32_to_bf16 0xFFFFFFFF = 0xFFFF := by decide +kernel

/-- C15: widening a bfloat16 is exact. -/
theorem C15_bf16_widen (u : Nat) (hu : u < 2 ^ 16) :
    let r := om_bf16_to_f32 u
    r < 2 ^ 32 ∧ r / 2 ^ 31 = u / 2 ^ 15 ∧ f32 (r % 2 ^ 31) = bf16 (u % 2 ^ 15) ∧
    (u % 2 ^ 15 = infB16 ↔ r % 2 ^ 31 = inf32) ∧ (infB16 < u % 2 ^ 15 ↔ inf32 < r % 2 ^ 31) := by
  intro r
  have hr : r = u * 2 ^ 16 := by
    show om_bf16_to_f32 u = _
    unfold om_bf16_to_f32
    rw [Nat.shiftLeft_eq]; omega
  have hm : r % 2 ^ 31 = u % 2 ^ 15 * 2 ^ 16 := by omega
  refine ⟨by omega, by omega, ?_, ?_, ?_⟩
  · rw [hm]; exact bf16_value _
  · rw [hm]; unfold infB16 inf32; omega
  · rw [hm]; unfold infB16 inf32; omega

/-- C15: and narrowing it back returns the same bits, or a NaN of the same sign for a NaN. -/
theorem C15_bf16_round_trip (u : Nat) (hu : u < 2 ^ 16) :
    (u % 2 ^ 15 ≤ infB16 → om_f32_to_bf16 (om_bf16_to_f32 u) = u) ∧
    (infB16 < u % 2 ^ 15 → om_f32_to_bf16 (om_bf16_to_f32 u) / 2 ^ 15 = u / 2 ^ 15 ∧
      infB16 < om_f32_to_bf16 (om_bf16_to_f32 u) % 2 ^ 15) := by
  have hr : om_bf16_to_f32 u = u * 2 ^ 16 := by
    unfold om_bf16_to_f32
    rw [Nat.shiftLeft_eq]; omega
  constructor
  · intro h
    unfold infB16 at h
    rw [om_f32_to_bf16_eq _ (by omega) (by omega), hr]
    unfold rhe
    have h1 : u * 2 ^ 16 % 2 ^ 31 % 2 ^ 16 = 0 := by omega
    rw [h1, if_pos (by norm_num)]
    omega
  · intro h
    obtain ⟨h1, h2, _, _, h5⟩ := C15_bf16_widen u hu
    obtain ⟨_, g2, _, _, g5⟩ := C14_bf16_rounding _ h1
    exact ⟨by rw [g2, h2], g5 (h5.1 h)⟩

/-- NaN bits are in fact unchanged. -/
theorem C15_bf16_round_trip_bits (u : Nat) (hu : u < 2 ^ 16) :
    om_f32_to_bf16 (om_bf16_to_f32 u) = u := by
  rcases Nat.lt_or_ge infB16 (u % 2 ^ 15) with h | h
  · have hr : om_bf16_to_f32 u = u * 2 ^ 16 := by
      unfold om_bf16_to_f32
      rw [Nat.shiftLeft_eq]; omega
    unfold infB16 at h
    have hnan : isNan32 (u * 2 ^ 16) = true := by simp [isNan32]; omega
    have h1 : u * 2 ^ 16 &&& 0x1FFFF = u * 2 ^ 16 % 2 ^ 17 := and_low _ 17
    have h2 : ∀ v : Nat, v &&& 0x7FFF = v % 2 ^ 15 := fun v => and_low v 15
    rw [hr]
    unfold om_f32_to_bf16
    simp only [hnan, h1, h2, and_true, Nat.shiftRight_eq_div_pow]
    split <;> split <;> (try split) <;> omega
  · exact (C15_bf16_round_trip u hu).1 h

example : om_bf16_to_f32 0xC049 = 0xC0490000 ∧ om_f32_to_bf16 0xC0490000 = 0xC049 := by
  decide +kernel

/-- C16: widening a float16 keeps sign and real value (subnormals included), infinity and NaN. -/
theorem C16_f16_widen (u : Nat) (hu : u < 2 ^ 16) :
    let r := om_f16_to_f32 u
    r < 2 ^ 32 ∧ r / 2 ^ 31 = u / 2 ^ 15 ∧
    (u % 2 ^ 15 < inf16 → r % 2 ^ 31 < inf32 ∧ f32 (r % 2 ^ 31) = f16 (u % 2 ^ 15)) ∧
    (u % 2 ^ 15 = inf16 → r % 2 ^ 31 = inf32) ∧
    (inf16 < u % 2 ^ 15 → inf32 < r % 2 ^ 31) := by
  intro r
  obtain ⟨q, h1, h2, h3⟩ := om_f16_to_f32_spec u hu
  have hm : u % 2 ^ 15 < 2 ^ 15 := Nat.mod_lt _ (by norm_num)
  have hs : u / 2 ^ 15 < 2 := by omega
  rcases Nat.lt_or_ge (u % 2 ^ 15) (31 * 2 ^ 10) with hf | hf
  · have hr : r = u / 2 ^ 15 * 2 ^ 31 + q := by
      show om_f16_to_f32 u = _
      rw [h3, if_pos hf, Nat.or_zero]
    have hq : r % 2 ^ 31 = q := by omega
    refine ⟨by omega, by omega, fun _ => ⟨?_, ?_⟩, ?_, ?_⟩
    · rw [hq]; exact h2
    · rw [hq]; exact f16_f32_value h1
    · intro h; unfold inf16 at h; omega
    · intro h; unfold inf16 at h; omega
  · have hq := f16_special hf hm h1
    have hr : r = u / 2 ^ 15 * 2 ^ 31 + 255 * 2 ^ 23 + (u % 2 ^ 15 - 31 * 2 ^ 10) * 2 ^ 13 := by
      show om_f16_to_f32 u = _
      rw [h3, if_neg (by omega), hq]
      have : 112 * 2 ^ 23 + u % 2 ^ 15 * 2 ^ 13 =
          143 * 2 ^ 23 + (u % 2 ^ 15 - 31 * 2 ^ 10) * 2 ^ 13 := by omega
      rw [this]
      exact or_exponent hs (by omega)
    unfold inf16 inf32
    refine ⟨by omega, by omega, fun h => by omega, fun h => by omega, fun h => by omega⟩

/-- The smallest subnormal, one, the largest number, minus infinity. -/
example : om_f16_to_f32 1 = 0x33800000 ∧ om_f16_to_f32 0x3C00 = 0x3F800000 ∧
    om_f16_to_f32 0x7BFF = 0x477FE000 ∧ om_f16_to_f32 0xFC00 = 0xFF800000 := by decide +kernel

/-- C17: every float32 goes to the nearest float16, ties to even; sign, infinity and NaN are kept. -/
theorem C17_f16_rounding (f : Nat) (hf : f < 2 ^ 32) :
    let r := om_f32_to_f16 f
    r < 2 ^ 16 ∧ r / 2 ^ 15 = f / 2 ^ 31 ∧
    (f % 2 ^ 31 < inf32 → NearestEven f16 inf16 (f32 (f % 2 ^ 31)) (r % 2 ^ 15)) ∧
    (f % 2 ^ 31 = inf32 → r % 2 ^ 15 = inf16) ∧
    (inf32 < f % 2 ^ 31 → inf16 < r % 2 ^ 15) := by
  intro r
  have hr : r = _ := om_f32_to_f16_eq f hf
  have hs : f / 2 ^ 31 < 2 := by omega
  generalize hp : f % 2 ^ 31 = p at hr ⊢
  rcases Nat.lt_or_ge (255 * 2 ^ 23) p with hn | hn
  · rw [if_pos hn] at hr
    unfold inf32 inf16
    refine ⟨by omega, by omega, fun h => by omega, fun h => by omega, fun h => by omega⟩
  rw [if_neg (by omega)] at hr
  rcases Nat.lt_or_ge p (113 * 2 ^ 23) with hsub | hsub
  · rw [if_pos hsub] at hr
    have hle := (sub_path hsub).2
    have hnear := f16_nearest_sub hsub
    generalize rhe (mag 23 p) (2 ^ 125) = n at hr hle hnear
    have hm : r % 2 ^ 15 = n := by omega
    unfold inf32
    refine ⟨by omega, by omega, fun _ => by rw [hm]; exact hnear, fun h => by omega, fun h => by omega⟩
  rw [if_neg (by omega)] at hr
  by_cases hinf : p = 255 * 2 ^ 23
  · rw [if_pos hinf] at hr
    unfold inf32
    refine ⟨by omega, by omega, fun h => by omega, fun _ => by unfold inf16; omega, fun h => by omega⟩
  rw [if_neg hinf] at hr
  have hnear := f16_nearest_norm hsub
  have hle : min (31 * 2 ^ 10) (rhe (p - 112 * 2 ^ 23) (2 ^ 13)) ≤ 31 * 2 ^ 10 := Nat.min_le_left _ _
  generalize min (31 * 2 ^ 10) (rhe (p - 112 * 2 ^ 23) (2 ^ 13)) = n at hr hnear hle
  have hm : r % 2 ^ 15 = n := by omega
  unfold inf32
  refine ⟨by omega, by omega, fun _ => by rw [hm]; exact hnear, fun h => by omega, fun h => by omega⟩

/-- C17: narrowing inverts widening on every float16 that is not a NaN. -/
theorem C17_f16_round_trip (u : Nat) (hu : u < 2 ^ 16) (hn : u % 2 ^ 15 ≤ inf16) :
    om_f32_to_f16 (om_f16_to_f32 u) = u := by
  obtain ⟨h1, h2, h3, h4, _⟩ := C16_f16_widen u hu
  obtain ⟨g1, g2, g3, g4, _⟩ := C17_f16_rounding _ h1
  have : om_f32_to_f16 (om_f16_to_f32 u) % 2 ^ 15 = u % 2 ^ 15 := by
    rcases Nat.lt_or_ge (u % 2 ^ 15) inf16 with h | h
    · obtain ⟨a, b⟩ := h3 h
      have hnear := g3 a
      rw [b] at hnear
      exact nearest_unique (ieee_strictMono 15 10) hnear
        (nearest_exact (ieee_strictMono 15 10) (le_of_lt h))
    · have he : u % 2 ^ 15 = inf16 := le_antisymm hn h
      rw [g4 (h4 he), he]
  omega

/-- Ties to even at both kinds of result, the halfway point to infinity, and a value just below the
smallest subnormal's half. -/
example : om_f32_to_f16 0x3F801000 = 0x3C00 ∧ om_f32_to_f16 0x3F803000 = 0x3C02 ∧
    om_f32_to_f16 0x477FF000 = 0x7C00 ∧ om_f32_to_f16 0x477FEFFF = 0x7BFF ∧
    om_f32_to_f16 0x33000000 = 0 ∧ om_f32_to_f16 0xB3000001 = 0x8001 ∧
    om_f32_to_f16 0x7F800001 = 0x7E00 := by decide +kernel

/-- C18: widening an NNPA number is exact, zeros keep their sign, `NINF` becomes NaN. -/
theorem C18_dlf16_widen (u : Nat) (hu : u < 2 ^ 16) :
    let r := dlf16ToF32 u
    (u % 2 ^ 15 < ninf → r < 2 ^ 32 ∧ r / 2 ^ 31 = u / 2 ^ 15 ∧ r % 2 ^ 31 < inf32 ∧
      f32 (r % 2 ^ 31) = dlf16 (u % 2 ^ 15)) ∧
    (u % 2 ^ 15 = ninf → r < 2 ^ 32 ∧ inf32 < r % 2 ^ 31) := by
  intro r
  have hs : u / 2 ^ 15 < 2 := by omega
  constructor
  · intro h
    by_cases h0 : u % 2 ^ 15 = 0
    · have hr : r = u / 2 ^ 15 * 2 ^ 31 := by
        show dlf16ToF32 u = _
        unfold dlf16ToF32
        rw [if_pos h0]
        split <;> omega
      have hm : r % 2 ^ 31 = 0 := by omega
      rw [hm, h0, dlf16_zero]
      refine ⟨by omega, by omega, by decide, ?_⟩
      unfold f32
      rw [ieee_eq_mag, mag_zero]; simp
    · have hr : r = _ := dlf16ToF32_eq h0 (by omega)
      have hb : u % 2 ^ 15 < 2 ^ 15 := Nat.mod_lt _ (by norm_num)
      have hm : r % 2 ^ 31 = u % 2 ^ 15 * 2 ^ 14 + 96 * 2 ^ 23 := by omega
      refine ⟨by omega, by omega, by unfold inf32; omega, ?_⟩
      rw [hm, f32_as_dlf16, dlf16_eq (by omega)]
      have e : u % 2 ^ 15 * 2 ^ 14 + 1 * 2 ^ 23 = (u % 2 ^ 15 + 1 * 2 ^ 9) * 2 ^ 14 := by omega
      rw [e, ← dlf16_widen (by omega), dlf16_eq (by omega)]
  · intro h
    have hr : r = 0x7FC00000 := by
      show dlf16ToF32 u = _
      unfold dlf16ToF32
      unfold ninf at h
      rw [if_neg (by omega), if_pos h]
    rw [hr]
    exact ⟨by norm_num, by unfold inf32; norm_num⟩

/-- C18: the round trip returns the same bits for every number of the format, signed zeros and the
largest number included. -/
theorem C18_dlf16_round_trip (u : Nat) (hu : u < 2 ^ 16) (h : u % 2 ^ 15 ≠ ninf) :
    f32ToDlf16 (dlf16ToF32 u) = u := by
  have hs : u / 2 ^ 15 < 2 := by omega
  have hb : u % 2 ^ 15 < 2 ^ 15 := Nat.mod_lt _ (by norm_num)
  rw [f32ToDlf16_eq, nmax_eq]
  by_cases h0 : u % 2 ^ 15 = 0
  · have hr : dlf16ToF32 u = u / 2 ^ 15 * 2 ^ 31 := by
      unfold dlf16ToF32
      rw [if_pos h0]
      split <;> omega
    rw [hr, if_pos (by omega)]
    omega
  · rw [dlf16ToF32_eq h0 h]
    unfold ninf at *
    rw [if_neg (by omega), if_pos (by omega)]
    omega

example : f32ToDlf16 (dlf16ToF32 0x7FFE) = 0x7FFE ∧ f32ToDlf16 (dlf16ToF32 0x8001) = 0x8001 ∧
    f32ToDlf16 (dlf16ToF32 0x8000) = 0x8000 := by decide +kernel

/-- C43, the range in which it holds: from `2^-31 * (1 + 2^-10)` on, a float32 goes to the nearest
NNPA number, ties away from zero, and to `NINF` from the point on where rounding leaves the finite
numbers; infinities and NaN also give `NINF`. -/
theorem C43_dlf16_rounding_partial (f : Nat) (hf : f < 2 ^ 32) :
    let r := f32ToDlf16 f
    r < 2 ^ 16 ∧ r / 2 ^ 15 = f / 2 ^ 31 ∧
    (96 * 2 ^ 23 + 2 ^ 13 ≤ f % 2 ^ 31 → f % 2 ^ 31 < inf32 →
      NearestAway dlf16 ninf (f32 (f % 2 ^ 31)) (r % 2 ^ 15)) ∧
    (inf32 ≤ f % 2 ^ 31 → r % 2 ^ 15 = ninf) ∧
    (f % 2 ^ 31 < 96 * 2 ^ 23 + 2 ^ 13 → r % 2 ^ 15 = 0) := by
  intro r
  have hr : r = _ := f32ToDlf16_eq f
  have hs : f / 2 ^ 31 < 2 := by omega
  have hp : f % 2 ^ 31 < 2 ^ 31 := Nat.mod_lt _ (by norm_num)
  generalize f % 2 ^ 31 = p at hr hp ⊢
  rw [nmax_eq] at hr
  rcases Nat.lt_or_ge p (96 * 2 ^ 23 + 2 ^ 13) with h1 | h1
  · rw [if_pos h1] at hr
    refine ⟨by omega, by omega, fun h => by omega, fun h => by unfold inf32 at h; omega, fun _ => by omega⟩
  rw [if_neg (by omega)] at hr
  obtain ⟨t, rfl⟩ : ∃ t, p = t + 96 * 2 ^ 23 := ⟨p - 96 * 2 ^ 23, by omega⟩
  rw [Nat.add_sub_cancel] at hr
  split at hr
  · rename_i h2
    have hm : r % 2 ^ 15 = (t + 2 ^ 13) / 2 ^ 14 := by omega
    refine ⟨by omega, by omega, fun _ _ => ?_, fun h => by unfold inf32 at h; omega, fun h => by omega⟩
    rw [hm]
    exact dlf16_nearest (by omega) (by unfold ninf; omega)
  · rename_i h2
    unfold ninf at hr
    have hm : r % 2 ^ 15 = ninf := by unfold ninf; omega
    refine ⟨by omega, by omega, fun _ _ => ?_, fun _ => hm, fun h => by omega⟩
    rw [hm]
    rcases Nat.lt_or_ge (t / 2 ^ 14) ninf with h3 | h3
    · have he : (t + 2 ^ 13) / 2 ^ 14 = ninf := by unfold ninf at *; omega
      have := dlf16_nearest (r := t) (by omega) h3
      rwa [he] at this
    · apply nearestAway_top dlf16_strictMono
      rw [f32_as_dlf16]
      rw [dlf16_widen (by decide)]
      apply (ieee_strictMono 32 (9 + 14)).monotone
      unfold ninf at *
      omega

example : f32ToDlf16 0x3F802000 = 0x3E01 ∧ f32ToDlf16 0x3F801FFF = 0x3E00 ∧
    f32ToDlf16 0xCFFF9FFF = 0xFFFE ∧ f32ToDlf16 0xCFFFA000 = 0xFFFF := by decide +kernel

/-- The unrestricted form of C43 is false: `2^-31` becomes zero, although the smallest NNPA number
`2^-31 * (1 + 2^-9)` is far nearer. -/
theorem C43_dlf16_rounding_false :
    ¬ ∀ f, f < inf32 → NearestAway dlf16 ninf (f32 f) (f32ToDlf16 f % 2 ^ 15) := by
  intro h
  have e : f32ToDlf16 (0 + 96 * 2 ^ 23) % 2 ^ 15 = 0 := by decide +kernel
  have h1 := (h (0 + 96 * 2 ^ 23) (by decide)).2.1 1 (by decide)
  have v0 : f32 (0 + 96 * 2 ^ 23) = (2 : ℚ) ^ (-31 : ℤ) := by
    rw [f32_as_dlf16, ieee_eq_mag]
    have m1 : mag (9 + 14) (0 + 1 * 2 ^ 23) = 2 ^ 23 := by decide +kernel
    rw [m1]; norm_num
  have v1 : dlf16 1 = 513 * (2 : ℚ) ^ (-40 : ℤ) := by
    rw [dlf16_eq (by norm_num), ieee_eq_mag]
    have m2 : mag 9 (1 + 1 * 2 ^ 9) = 513 := by decide +kernel
    rw [m2]; norm_num
  rw [e, dlf16_zero, v0, v1] at h1
  norm_num [abs_of_nonneg, abs_of_neg] at h1

end Verif.Props
