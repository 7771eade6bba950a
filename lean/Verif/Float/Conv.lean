import Verif.Float.Lemmas

/-! # Lemmas about the conversion functions -/

namespace Verif.Float

/-! ## Bit fields -/

theorem and_low (u k : Nat) : u &&& (2 ^ k - 1) = u % 2 ^ k := Nat.and_two_pow_sub_one_eq_mod u k

theorem and_signbit {u k : Nat} (hu : u < 2 ^ (k + 1)) : u &&& 2 ^ k = u / 2 ^ k * 2 ^ k := by
  rw [Nat.and_two_pow]
  have h1 : u / 2 ^ k < 2 := by
    rw [Nat.div_lt_iff_lt_mul (Nat.two_pow_pos k)]; rw [pow_succ] at hu; omega
  have h2 : (u.testBit k).toNat = u / 2 ^ k := by
    rw [Nat.toNat_testBit]
    generalize u / 2 ^ k = v at *
    omega
  rw [h2]

theorem xor_signbit {u k : Nat} (hu : u < 2 ^ (k + 1)) : u ^^^ (u / 2 ^ k * 2 ^ k) = u % 2 ^ k := by
  have h1 : u / 2 ^ k < 2 := by
    rw [Nat.div_lt_iff_lt_mul (Nat.two_pow_pos k)]; rw [pow_succ] at hu; omega
  have hd : (u ^^^ (u / 2 ^ k * 2 ^ k)) / 2 ^ k = 0 := by
    rw [← Nat.shiftRight_eq_div_pow, Nat.shiftRight_xor_distrib, Nat.shiftRight_eq_div_pow,
      Nat.shiftRight_eq_div_pow, Nat.mul_div_cancel _ (Nat.two_pow_pos k), Nat.xor_self]
  have hm : (u ^^^ (u / 2 ^ k * 2 ^ k)) % 2 ^ k = u % 2 ^ k := by
    rw [Nat.xor_mod_two_pow, Nat.mul_mod_left, Nat.xor_zero]
  rw [← hm]
  have := Nat.div_add_mod (u ^^^ (u / 2 ^ k * 2 ^ k)) (2 ^ k)
  rw [hd] at this; omega

theorem or_disjoint (a k : Nat) {b : Nat} (h : b < 2 ^ k) : a * 2 ^ k ||| b = a * 2 ^ k + b := by
  have := Nat.shiftLeft_add_eq_or_of_lt h a
  rw [Nat.shiftLeft_eq] at this
  exact this.symm

/-! ## Multiplication by a power of two -/

theorem mag_pow (e : Nat) (he : 0 < e) : mag 23 (e * 2 ^ 23) = 2 ^ (22 + e) := by
  have := mag_shift 23 (e - 1) (2 ^ 23) (le_refl _) (by norm_num)
  have h1 : (e - 1) * 2 ^ 23 + 2 ^ 23 = e * 2 ^ 23 := by omega
  rw [h1] at this
  rw [this, ← pow_add]
  congr 1; omega

theorem fields {s x e : Nat} (hs : s < 2) (hx : x < 255 * 2 ^ 23) (he : e < 255) :
    (s * 2 ^ 31 + x) / 2 ^ 31 = s ∧ (s * 2 ^ 31 + x) % 2 ^ 31 = x ∧ e * 2 ^ 23 / 2 ^ 31 = 0 ∧
      e * 2 ^ 23 % 2 ^ 31 = e * 2 ^ 23 := by
  refine ⟨?_, ?_, ?_, ?_⟩ <;> omega

/-- Exact product with a power of two: `x * 2^(e-127)` is representable as `q`. -/
theorem fmul_pow_exact {x e q s : Nat} (hs : s < 2) (hx : x < 255 * 2 ^ 23) (he : 0 < e) (he' : e < 255)
    (hq : q ≤ 255 * 2 ^ 23) (h : mag 23 x * 2 ^ (22 + e) = mag 23 q * 2 ^ 149) :
    fmul (s * 2 ^ 31 + x) (e * 2 ^ 23) = s * 2 ^ 31 + q := by
  unfold fmul
  obtain ⟨a1, a2, a3, a4⟩ := fields hs hx he'
  simp only [a1, a2, a3, a4]
  rw [if_neg (by omega), if_neg (by omega), mag_pow e he,
    roundPat_exact (q := q) (by norm_num) (Nat.two_pow_pos _) hq h]
  rw [Nat.add_zero, Nat.mod_eq_of_lt hs]

theorem mag_add_exp (fw p k : Nat) (h : 2 ^ fw ≤ p) : mag fw (p + k * 2 ^ fw) = mag fw p * 2 ^ k := by
  have hpos := Nat.two_pow_pos fw
  have h1 : 1 ≤ p / 2 ^ fw := (Nat.one_le_div_iff hpos).2 h
  unfold mag
  rw [Nat.add_mul_mod_self_right, Nat.add_mul_div_right _ _ hpos, if_neg (by omega),
    if_neg (by omega), mul_assoc, ← pow_add]
  congr 2; omega

/-- `N * 2^j` with at most `fw+1` significant bits is representable. -/
theorem mag_exists (fw N j : Nat) (hN : N < 2 ^ (fw + 1)) : ∃ q, mag fw q = N * 2 ^ j := by
  rcases Nat.eq_zero_or_pos N with rfl | hpos
  · exact ⟨0, by simp [mag_zero]⟩
  have hl : 2 ^ Nat.log 2 N ≤ N := Nat.pow_log_le_self 2 (by omega)
  have hu : N < 2 ^ (Nat.log 2 N + 1) := Nat.lt_pow_succ_log_self (by norm_num) N
  have hlog : Nat.log 2 N ≤ fw := by
    by_contra hc
    have : 2 ^ (fw + 1) ≤ 2 ^ Nat.log 2 N := Nat.pow_le_pow_right (by norm_num) (by omega)
    omega
  by_cases hj : fw - Nat.log 2 N ≤ j
  · refine ⟨(j - (fw - Nat.log 2 N)) * 2 ^ fw + N * 2 ^ (fw - Nat.log 2 N), ?_⟩
    rw [mag_shift]
    · rw [mul_assoc, ← pow_add]; congr 2; omega
    · calc 2 ^ fw = 2 ^ Nat.log 2 N * 2 ^ (fw - Nat.log 2 N) := by rw [← pow_add]; congr 1; omega
        _ ≤ _ := Nat.mul_le_mul_right _ hl
    · calc N * 2 ^ (fw - Nat.log 2 N) ≤ 2 ^ (Nat.log 2 N + 1) * 2 ^ (fw - Nat.log 2 N) :=
            Nat.mul_le_mul_right _ (by omega)
        _ = 2 ^ (fw + 1) := by rw [← pow_add]; congr 1; omega
  · refine ⟨N * 2 ^ j, mag_small fw _ ?_⟩
    calc N * 2 ^ j ≤ 2 ^ (Nat.log 2 N + 1) * 2 ^ (fw - Nat.log 2 N) :=
          Nat.mul_le_mul (by omega) (Nat.pow_le_pow_right (by norm_num) (by omega))
      _ = 2 ^ (fw + 1) := by rw [← pow_add]; congr 1; omega

/-! ## float16 to float32 -/

theorem f16_f32_value {p q : Nat} (h : mag 23 q = mag 10 p * 2 ^ 125) : f32 q = f16 p := by
  unfold f32 f16
  rw [ieee_eq_mag, ieee_eq_mag, h]
  push_cast
  rw [mul_assoc]
  congr 1
  norm_num

theorem f16_exists (p : Nat) (hp : p < 2 ^ 15) :
    ∃ q, mag 23 q = mag 10 p * 2 ^ 125 ∧ q < 255 * 2 ^ 23 := by
  have hm : ∃ N j, N < 2 ^ 24 ∧ mag 10 p = N * 2 ^ j := by
    unfold mag
    refine ⟨_, _, ?_, rfl⟩
    have := Nat.mod_lt p (Nat.two_pow_pos 10)
    split <;> omega
  obtain ⟨N, j, hN, he⟩ := hm
  obtain ⟨q, hq⟩ := mag_exists 23 N (j + 125) hN
  refine ⟨q, by rw [hq, he, pow_add]; ring, ?_⟩
  by_contra hc
  have h1 : mag 23 (255 * 2 ^ 23) ≤ mag 23 q := (mag_strictMono 23).monotone (by omega)
  rw [mag_pow 255 (by norm_num), hq, pow_add 2 j, ← mul_assoc, ← he] at h1
  have h2 : mag 10 p ≤ mag 10 (32 * 2 ^ 10) := (mag_strictMono 10).monotone (by omega)
  have h3 : mag 10 (32 * 2 ^ 10) = 2 ^ 41 := by decide +kernel
  rw [h3] at h2
  have h4 : mag 10 p * 2 ^ 125 ≤ 2 ^ 41 * 2 ^ 125 := Nat.mul_le_mul_right _ h2
  have h5 : (2 : Nat) ^ 41 * 2 ^ 125 < 2 ^ (22 + 255) := by decide +kernel
  omega

theorem om_f16_to_f32_eq (u : Nat) (hu : u < 2 ^ 16) :
    om_f16_to_f32 u = fmul (u / 2 ^ 15 * 2 ^ 31 + u % 2 ^ 15 * 2 ^ 13) (239 * 2 ^ 23) |||
      (if u % 2 ^ 15 < 31 * 2 ^ 10 then 0 else 255 * 2 ^ 23) := by
  have h1 : u &&& 0x8000 = u / 2 ^ 15 * 2 ^ 15 := and_signbit (k := 15) hu
  have h2 := xor_signbit (k := 15) (u := u) hu
  have hm : u % 2 ^ 15 < 2 ^ 15 := Nat.mod_lt _ (by norm_num)
  have hs : u / 2 ^ 15 < 2 := by omega
  unfold om_f16_to_f32
  simp only [h1, h2]
  have h3 : (u / 2 ^ 15 * 2 ^ 15) <<< 16 % 2 ^ 32 ||| (u % 2 ^ 15) <<< 13 % 2 ^ 32 =
      u / 2 ^ 15 * 2 ^ 31 + u % 2 ^ 15 * 2 ^ 13 := by
    rw [Nat.shiftLeft_eq, Nat.shiftLeft_eq,
      Nat.mod_eq_of_lt (a := u % 2 ^ 15 * 2 ^ 13) (by omega),
      Nat.mod_eq_of_lt (a := u / 2 ^ 15 * 2 ^ 15 * 2 ^ 16) (by omega)]
    have : u / 2 ^ 15 * 2 ^ 15 * 2 ^ 16 = u / 2 ^ 15 * 2 ^ 31 := by omega
    rw [this, or_disjoint _ 31 (by omega)]
  rw [h3]
  have h4 : (2 * 127 - 15) <<< 23 = 239 * 2 ^ 23 := by decide
  rw [h4]
  congr 1
  simp

theorem om_f16_to_f32_spec (u : Nat) (hu : u < 2 ^ 16) :
    ∃ q, mag 23 q = mag 10 (u % 2 ^ 15) * 2 ^ 125 ∧ q < 255 * 2 ^ 23 ∧
      om_f16_to_f32 u = (u / 2 ^ 15 * 2 ^ 31 + q) ||| (if u % 2 ^ 15 < 31 * 2 ^ 10 then 0 else 255 * 2 ^ 23) := by
  have hm : u % 2 ^ 15 < 2 ^ 15 := Nat.mod_lt _ (by norm_num)
  obtain ⟨q, h1, h2⟩ := f16_exists (u % 2 ^ 15) hm
  refine ⟨q, h1, h2, ?_⟩
  rw [om_f16_to_f32_eq u hu, fmul_pow_exact (q := q) (by omega) (by omega) (by norm_num) (by norm_num) (by omega)]
  have := mag_widen 10 13 (u % 2 ^ 15)
  rw [show (10 + 13 : Nat) = 23 from rfl] at this
  rw [this, h1, mul_assoc, mul_assoc, ← pow_add, ← pow_add]

/-- Patterns from infinity upwards: the exponent becomes 143 before it is filled with ones. -/
theorem f16_special {p q : Nat} (h1 : 31 * 2 ^ 10 ≤ p) (h2 : p < 2 ^ 15)
    (h : mag 23 q = mag 10 p * 2 ^ 125) : q = 112 * 2 ^ 23 + p * 2 ^ 13 := by
  apply (mag_strictMono 23).injective
  rw [h, Nat.add_comm, mag_add_exp 23 _ 112 (by omega)]
  have := mag_widen 10 13 p
  rw [show (10 + 13 : Nat) = 23 from rfl] at this
  rw [this]; ring

theorem or_exponent {s m : Nat} (hs : s < 2) (hm : m < 2 ^ 23) :
    (s * 2 ^ 31 + (143 * 2 ^ 23 + m)) ||| 255 * 2 ^ 23 = s * 2 ^ 31 + 255 * 2 ^ 23 + m := by
  have e : s * 2 ^ 31 + (143 * 2 ^ 23 + m) = (s * 256 + 143) * 2 ^ 23 + m := by omega
  have hdiv : ((s * 2 ^ 31 + (143 * 2 ^ 23 + m)) ||| 255 * 2 ^ 23) / 2 ^ 23 = s * 256 + 255 := by
    rw [e, ← Nat.shiftRight_eq_div_pow, Nat.shiftRight_or_distrib, Nat.shiftRight_eq_div_pow,
      Nat.shiftRight_eq_div_pow]
    have : ((s * 256 + 143) * 2 ^ 23 + m) / 2 ^ 23 = s * 256 + 143 := by omega
    rw [this, Nat.mul_div_cancel _ (by norm_num)]
    rcases Nat.lt_or_ge s 1 with h | h
    · have : s = 0 := by omega
      subst this; decide
    · have : s = 1 := by omega
      subst this; decide
  have hmod : ((s * 2 ^ 31 + (143 * 2 ^ 23 + m)) ||| 255 * 2 ^ 23) % 2 ^ 23 = m := by
    rw [Nat.or_mod_two_pow, Nat.mul_mod_left, Nat.or_zero]; omega
  have := Nat.div_add_mod ((s * 2 ^ 31 + (143 * 2 ^ 23 + m)) ||| 255 * 2 ^ 23) (2 ^ 23)
  rw [hdiv, hmod] at this
  omega

/-! ## float32 to float16 -/

theorem fmul_zero_sign (a b : Nat) (ha : a < 2 ^ 31) (hb : b < 2 ^ 31) (hb' : b < 255 * 2 ^ 23)
    (ha' : a < 255 * 2 ^ 23) :
    fmul a b = roundPat 23 (255 * 2 ^ 23) (mag 23 a * mag 23 b) (2 ^ 149) := by
  unfold fmul
  simp only [Nat.mod_eq_of_lt ha, Nat.mod_eq_of_lt hb, Nat.div_eq_of_lt ha, Nat.div_eq_of_lt hb]
  rw [if_neg (by omega), if_neg (by omega)]
  simp

theorem rhe_mul (a b c : Nat) (hc : 0 < c) : rhe (a * c) (b * c) = rhe a b := by
  unfold rhe
  rw [Nat.mul_mod_mul_right, Nat.mul_div_mul_right _ _ hc, ← mul_assoc]
  simp only [Nat.mul_lt_mul_right hc]

theorem rhe_le {a b n : Nat} (hb : 0 < b) (h : a ≤ n * b) : rhe a b ≤ n := by
  have h1 : a / b ≤ n := Nat.div_le_of_le_mul (by rw [Nat.mul_comm]; exact h)
  unfold rhe
  split
  · exact h1
  · rename_i h2
    have hlt : a / b < n := by
      rcases Nat.lt_or_ge (a / b) n with h3 | h3
      · exact h3
      · exfalso
        have : a / b = n := by omega
        have h4 := Nat.div_add_mod a b
        rw [this] at h4
        have : a % b = 0 := by rw [Nat.mul_comm] at h4; omega
        omega
    split <;> omega

/-- The subnormal path: two multiplications round the value to a multiple of `2^-24`. -/
theorem sub_path {p : Nat} (hp : p < 113 * 2 ^ 23) :
    fmul (fmul p (2 * 2 ^ 23)) (140 * 2 ^ 23) = rhe (mag 23 p) (2 ^ 125) * 2 ^ 13 ∧
      rhe (mag 23 p) (2 ^ 125) ≤ 2 ^ 10 := by
  have hmag : mag 23 p ≤ 2 ^ 10 * 2 ^ 125 := by
    have h := (mag_strictMono 23).monotone (le_of_lt hp)
    rw [mag_pow 113 (by norm_num)] at h
    have : (2 : Nat) ^ (22 + 113) = 2 ^ 10 * 2 ^ 125 := by decide +kernel
    omega
  have hn := rhe_le (Nat.two_pow_pos 125) hmag
  refine ⟨?_, hn⟩
  have e1 : fmul p (2 * 2 ^ 23) = rhe (mag 23 p) (2 ^ 125) := by
    rw [fmul_zero_sign _ _ (by omega) (by norm_num) (by norm_num) (by omega), mag_pow 2 (by norm_num)]
    unfold roundPat
    have h149 : (2 : Nat) ^ 149 = 2 ^ 125 * 2 ^ (22 + 2) := by rw [← pow_add]
    rw [h149, rhe_mul _ _ _ (Nat.two_pow_pos _), Nat.mul_div_mul_right _ _ (Nat.two_pow_pos _)]
    have : mag 23 p / 2 ^ 125 ≤ 2 ^ 10 := Nat.div_le_of_le_mul (by rw [Nat.mul_comm]; exact hmag)
    rw [if_pos (by omega)]
    exact Nat.min_eq_right (by omega)
  rw [e1]
  generalize rhe (mag 23 p) (2 ^ 125) = n at hn
  have := fmul_pow_exact (x := n) (e := 140) (q := n * 2 ^ 13) (s := 0) (by norm_num) (by omega)
    (by norm_num) (by norm_num) (by omega) (by
      rw [mag_small 23 n (by omega), mag_small 23 (n * 2 ^ 13) (by omega)]; ring)
  simpa using this

/-- The normal path rebiases the exponent exactly. -/
theorem norm_path {p : Nat} (h1 : 113 * 2 ^ 23 ≤ p) (h2 : p < 255 * 2 ^ 23) :
    fmul p (15 * 2 ^ 23) = p - 112 * 2 ^ 23 := by
  have := fmul_pow_exact (x := p) (e := 15) (q := p - 112 * 2 ^ 23) (s := 0) (by norm_num) h2
    (by norm_num) (by norm_num) (by omega) (by
      obtain ⟨r, rfl⟩ : ∃ r, p = r + 112 * 2 ^ 23 := ⟨p - 112 * 2 ^ 23, by omega⟩
      rw [mag_add_exp 23 r 112 (by omega), Nat.add_sub_cancel]; ring)
  simpa using this

theorem rhe_bias {p : Nat} (d : Nat) (hd : d = 13) :
    (p + (p / 2 ^ d) % 2 + (2 ^ (d - 1) - 1)) / 2 ^ d = rhe p (2 ^ d) := by
  subst hd
  unfold rhe
  simp only [Nat.reducePow, Nat.reduceSub]
  split
  · omega
  · split <;> omega

theorem om_f32_to_f16_eq (f : Nat) (hf : f < 2 ^ 32) :
    om_f32_to_f16 f = f / 2 ^ 31 * 2 ^ 15 +
      (if 255 * 2 ^ 23 < f % 2 ^ 31 then 0x7E00
       else if f % 2 ^ 31 < 113 * 2 ^ 23 then rhe (mag 23 (f % 2 ^ 31)) (2 ^ 125)
       else if f % 2 ^ 31 = 255 * 2 ^ 23 then 31 * 2 ^ 10
       else min (31 * 2 ^ 10) (rhe (f % 2 ^ 31 - 112 * 2 ^ 23) (2 ^ 13))) := by
  have h1 : f &&& 0x80000000 = f / 2 ^ 31 * 2 ^ 31 := and_signbit (k := 31) hf
  have h2 := xor_signbit (k := 31) (u := f) hf
  unfold om_f32_to_f16
  simp only [h1, h2]
  have hpm : f % 2 ^ 31 < 2 ^ 31 := Nat.mod_lt _ (by norm_num)
  have hs : f / 2 ^ 31 < 2 := by omega
  have hshift : (f / 2 ^ 31 * 2 ^ 31) >>> 16 = f / 2 ^ 31 * 2 ^ 15 := by
    rw [Nat.shiftRight_eq_div_pow]; omega
  rw [hshift]
  generalize f / 2 ^ 31 = s at *
  generalize f % 2 ^ 31 = p at *
  have c1 : (127 - 15 + 1) <<< 23 = 113 * 2 ^ 23 := by decide
  have c2 : (15 - 13) <<< 23 = 2 * 2 ^ 23 := by decide
  have c3 : (127 + 13) <<< 23 = 140 * 2 ^ 23 := by decide
  have c4 : 15 <<< 23 = 15 * 2 ^ 23 := by decide
  have c5 : (1 <<< (13 - 1)) - 1 = 2 ^ (13 - 1) - 1 := by decide
  have c6 : (0x7F800000 : Nat) = 255 * 2 ^ 23 := by norm_num
  have c7 : (0x7C00 : Nat) = 31 * 2 ^ 10 := by norm_num
  rw [c1, c2, c3, c4, c5, c6, c7]
  have fin : ∀ b, b < 2 ^ 15 → (b ||| s * 2 ^ 15) % 2 ^ 16 = s * 2 ^ 15 + b := by
    intro b hb
    rw [Nat.or_comm, or_disjoint s 15 hb]
    omega
  simp only [decide_eq_true_eq]
  by_cases hnan : 255 * 2 ^ 23 < p
  · rw [if_pos hnan, if_pos hnan]
    exact fin _ (by norm_num)
  rw [if_neg hnan, if_neg hnan]
  by_cases hsub : p < 113 * 2 ^ 23
  · obtain ⟨e1, e2⟩ := sub_path hsub
    rw [if_pos hsub, if_pos hsub, e1, Nat.shiftRight_eq_div_pow, Nat.mul_div_cancel _ (by norm_num)]
    generalize rhe (mag 23 p) (2 ^ 125) = n at e2
    rw [if_neg (by omega)]
    exact fin n (by omega)
  rw [if_neg hsub, if_neg hsub]
  by_cases hinf : p = 255 * 2 ^ 23
  · subst hinf
    have : fmul (255 * 2 ^ 23) (15 * 2 ^ 23) = 255 * 2 ^ 23 := by decide +kernel
    rw [this, if_pos rfl]
    have e : (((255 * 2 ^ 23 + ((255 * 2 ^ 23) >>> 13 &&& 1)) % 2 ^ 32 + (2 ^ (13 - 1) - 1)) % 2 ^ 32) >>> 13 = 261120 := by
      decide +kernel
    rw [e, if_pos (by norm_num)]
    exact fin _ (by norm_num)
  rw [if_neg hinf, norm_path (by omega) (by omega)]
  have hb : (((p - 112 * 2 ^ 23 + ((p - 112 * 2 ^ 23) >>> 13 &&& 1)) % 2 ^ 32 + (2 ^ (13 - 1) - 1)) % 2 ^ 32) >>> 13 =
      rhe (p - 112 * 2 ^ 23) (2 ^ 13) := by
    rw [← rhe_bias 13 rfl, Nat.shiftRight_eq_div_pow, Nat.shiftRight_eq_div_pow]
    have : (p - 112 * 2 ^ 23) / 2 ^ 13 &&& 1 = (p - 112 * 2 ^ 23) / 2 ^ 13 % 2 := and_low _ 1
    rw [this]
    omega
  rw [hb]
  generalize rhe (p - 112 * 2 ^ 23) (2 ^ 13) = n
  have : (if 31 * 2 ^ 10 < n then 31 * 2 ^ 10 else n) = min (31 * 2 ^ 10) n := by
    split <;> omega
  rw [this]
  exact fin _ (by omega)

theorem f32_unit_f16 : (2 : ℚ) ^ (1 - ((127 : ℕ) : ℤ) - (23 : ℕ)) =
    (2 : ℚ) ^ (1 - ((15 : ℕ) : ℤ) - (10 : ℕ)) / 2 ^ 125 := by
  norm_num

theorem f16_nearest_sub {p : Nat} (hp : p < 113 * 2 ^ 23) :
    NearestEven f16 inf16 (f32 p) (rhe (mag 23 p) (2 ^ 125)) := by
  have hn := (sub_path hp).2
  have h := roundPat_nearest 15 10 inf16 (mag 23 p) (2 ^ 125) (by norm_num) (Nat.two_pow_pos _)
  have e : roundPat 10 inf16 (mag 23 p) (2 ^ 125) = rhe (mag 23 p) (2 ^ 125) := by
    unfold roundPat
    have hle : mag 23 p / 2 ^ 125 ≤ 2 ^ 10 := by
      have hr : mag 23 p / 2 ^ 125 ≤ rhe (mag 23 p) (2 ^ 125) := by
        unfold rhe; split
        · exact le_refl _
        · split <;> omega
      omega
    rw [if_pos (by omega)]
    apply Nat.min_eq_right
    unfold inf16; omega
  rw [e] at h
  have hv : f32 p = ((mag 23 p : ℕ) : ℚ) / (2 ^ 125 : ℕ) * (2 : ℚ) ^ (1 - ((15 : ℕ) : ℤ) - (10 : ℕ)) := by
    unfold f32
    rw [ieee_eq_mag, f32_unit_f16]
    push_cast
    ring
  rw [hv]; exact h

theorem f16_nearest_norm {p : Nat} (h1 : 113 * 2 ^ 23 ≤ p) :
    NearestEven f16 inf16 (f32 p) (min (31 * 2 ^ 10) (rhe (p - 112 * 2 ^ 23) (2 ^ 13))) := by
  obtain ⟨r, rfl⟩ : ∃ r, p = r + 112 * 2 ^ 23 := ⟨p - 112 * 2 ^ 23, by omega⟩
  rw [Nat.add_sub_cancel]
  have hv : f32 (r + 112 * 2 ^ 23) = ieee 15 (10 + 13) r := by
    unfold f32
    rw [ieee_eq_mag, ieee_eq_mag, mag_add_exp 23 r 112 (by omega)]
    push_cast
    rw [mul_assoc]
    congr 1
    norm_num
  rw [hv]
  rcases Nat.lt_or_ge (r / 2 ^ 13) inf16 with h | h
  · have hmin : min (31 * 2 ^ 10) (rhe r (2 ^ 13)) = rhe r (2 ^ 13) := by
      apply Nat.min_eq_right
      apply rhe_le (by norm_num)
      unfold inf16 at h; omega
    rw [hmin]
    exact nearest_drop 15 10 13 r inf16 h
  · have hmin : min (31 * 2 ^ 10) (rhe r (2 ^ 13)) = inf16 := by
      have : r / 2 ^ 13 ≤ rhe r (2 ^ 13) := by
        unfold rhe; split
        · exact le_refl _
        · split <;> omega
      unfold inf16 at *
      omega
    rw [hmin]
    apply nearest_top (ieee_strictMono 15 10)
    have e : ieee 15 10 inf16 = ieee 15 (10 + 13) (inf16 * 2 ^ 13) := by
      rw [ieee_eq_mag, ieee_eq_mag, mag_widen]
      push_cast
      rw [mul_assoc]
      congr 1
      norm_num
    rw [e]
    apply (ieee_strictMono 15 (10 + 13)).monotone
    unfold inf16 at *
    omega

/-! ## float32 to bfloat16 -/

theorem om_f32_to_bf16_eq (f : Nat) (hf : f < 2 ^ 32) (hn : f % 2 ^ 31 ≤ 255 * 2 ^ 23) :
    om_f32_to_bf16 f = f / 2 ^ 31 * 2 ^ 15 + rhe (f % 2 ^ 31) (2 ^ 16) := by
  unfold om_f32_to_bf16
  have hnan : isNan32 f = false := by simp [isNan32]; omega
  have h1 : f &&& 0x1FFFF = f % 2 ^ 17 := and_low f 17
  simp only [hnan, h1]
  simp only [Bool.false_eq_true, and_false, if_false, Nat.shiftRight_eq_div_pow]
  unfold rhe
  split <;> split
  · omega
  · split <;> omega
  · omega
  · split <;> omega

theorem om_f32_to_bf16_nan (f : Nat) (hf : f < 2 ^ 32) (hn : 255 * 2 ^ 23 < f % 2 ^ 31) :
    om_f32_to_bf16 f / 2 ^ 15 = f / 2 ^ 31 ∧ infB16 < om_f32_to_bf16 f % 2 ^ 15 := by
  unfold om_f32_to_bf16 infB16
  have hnan : isNan32 f = true := by simp [isNan32]; omega
  have h1 : f &&& 0x1FFFF = f % 2 ^ 17 := and_low f 17
  have h2 : ∀ v : Nat, v &&& 0x7FFF = v % 2 ^ 15 := fun v => and_low v 15
  simp only [hnan, h1, h2, and_true, Nat.shiftRight_eq_div_pow]
  split <;> split <;> (try split) <;> omega

theorem bf16_value (p : Nat) : f32 (p * 2 ^ 16) = bf16 p := by
  unfold f32 bf16
  rw [ieee_eq_mag, ieee_eq_mag]
  have := mag_widen 7 16 p
  rw [show (7 + 16 : Nat) = 23 from rfl] at this
  rw [this]
  push_cast
  rw [mul_assoc]
  congr 1
  norm_num

end Verif.Float
