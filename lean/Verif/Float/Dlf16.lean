import Verif.Float.Conv

/-! # Lemmas about the NNPA conversions -/

namespace Verif.Float

theorem dlf16_eq {p : Nat} (hp : 0 < p) : dlf16 p = ieee 32 9 (p + 1 * 2 ^ 9) := by
  unfold dlf16 ieee
  rw [if_neg (by omega), Nat.add_mul_mod_self_right, Nat.add_mul_div_right _ _ (by norm_num),
    if_neg (by omega)]
  congr 2
  push_cast
  ring

theorem dlf16_zero : dlf16 0 = 0 := by simp [dlf16]

theorem dlf16_widen {p : Nat} (hp : 0 < p) :
    dlf16 p = ieee 32 (9 + 14) ((p + 1 * 2 ^ 9) * 2 ^ 14) := by
  rw [dlf16_eq hp, ieee_eq_mag, ieee_eq_mag, mag_widen]
  push_cast
  rw [mul_assoc]
  congr 1
  norm_num

theorem dlf16_pos {p : Nat} (hp : 0 < p) : 0 < dlf16 p := by
  rw [dlf16_eq hp, ieee_eq_mag]
  apply mul_pos _ (unit_pos _ _)
  have : mag 9 0 < mag 9 (p + 1 * 2 ^ 9) := mag_strictMono 9 (by omega)
  rw [mag_zero] at this
  exact_mod_cast this

theorem dlf16_strictMono : StrictMono dlf16 := by
  intro a b h
  rcases Nat.eq_zero_or_pos a with rfl | ha
  · rw [dlf16_zero]; exact dlf16_pos (by omega)
  · rw [dlf16_eq ha, dlf16_eq (by omega)]
    exact ieee_strictMono 32 9 (by omega)

/-- A float32 of at least `2^-31`, read with 14 more fraction bits than the NNPA format. -/
theorem f32_as_dlf16 (r : Nat) : f32 (r + 96 * 2 ^ 23) = ieee 32 (9 + 14) (r + 1 * 2 ^ 23) := by
  have e : r + 96 * 2 ^ 23 = (r + 1 * 2 ^ 23) + 95 * 2 ^ 23 := by omega
  unfold f32
  rw [e, ieee_eq_mag, ieee_eq_mag, mag_add_exp 23 _ 95 (by omega)]
  push_cast
  rw [mul_assoc]
  congr 1
  norm_num

theorem nearestAway_of_bracket {f : Nat → ℚ} (hf : StrictMono f) {top q0 q : Nat} {x : ℚ}
    (hlo : f q0 ≤ x) (hhi : x < f (q0 + 1)) (htop : q0 < top)
    (hq : (2 * (x - f q0) < f (q0 + 1) - f q0 ∧ q = q0) ∨
      (f (q0 + 1) - f q0 ≤ 2 * (x - f q0) ∧ q = q0 + 1)) :
    NearestAway f top x q := by
  have below : ∀ z, z ≤ q0 → f z ≤ f q0 := fun z hz => hf.monotone hz
  have above : ∀ z, q0 + 1 ≤ z → f (q0 + 1) ≤ f z := fun z hz => hf.monotone hz
  have d0 : |x - f q0| = x - f q0 := abs_of_nonneg (by linarith)
  have d1 : |x - f (q0 + 1)| = f (q0 + 1) - x := by
    rw [abs_sub_comm]; exact abs_of_nonneg (by linarith)
  have dz : ∀ z, (z ≤ q0 ∧ |x - f z| = x - f z ∧ f z ≤ f q0) ∨
      (q0 + 1 ≤ z ∧ |x - f z| = f z - x ∧ f (q0 + 1) ≤ f z) := by
    intro z
    rcases Nat.lt_or_ge q0 z with h | h
    · right
      have := above z h
      exact ⟨h, by rw [abs_sub_comm]; exact abs_of_nonneg (by linarith), this⟩
    · left
      have := below z h
      exact ⟨h, abs_of_nonneg (by linarith), this⟩
  rcases hq with ⟨hc, rfl⟩ | ⟨hc, rfl⟩
  · refine ⟨by omega, ?_, ?_⟩
    · intro z hz
      rcases dz z with ⟨_, h2, h3⟩ | ⟨_, h2, h3⟩ <;> rw [h2, d0] <;> linarith
    · intro z hz hne he
      rcases dz z with ⟨h1, h2, h3⟩ | ⟨h1, h2, h3⟩
      · omega
      · exfalso; rw [h2, d0] at he; linarith
  · refine ⟨by omega, ?_, ?_⟩
    · intro z hz
      rcases dz z with ⟨_, h2, h3⟩ | ⟨_, h2, h3⟩ <;> rw [h2, d1] <;> linarith
    · intro z hz hne he
      rcases dz z with ⟨h1, h2, h3⟩ | ⟨h1, h2, h3⟩
      · omega
      · exfalso
        have := hf (Nat.lt_of_le_of_ne h1 (Ne.symm hne))
        rw [h2, d1] at he; linarith

theorem nearestAway_top {f : Nat → ℚ} (hf : StrictMono f) {top : Nat} {x : ℚ} (h : f top ≤ x) :
    NearestAway f top x top := by
  obtain ⟨h1, h2, _⟩ := nearest_top hf h
  exact ⟨h1, h2, fun z hz hne _ => by omega⟩

theorem dlf16_nearest {r : Nat} (hr : 2 ^ 13 ≤ r) (ht : r / 2 ^ 14 < ninf) :
    NearestAway dlf16 ninf (f32 (r + 96 * 2 ^ 23)) ((r + 2 ^ 13) / 2 ^ 14) := by
  rw [f32_as_dlf16]
  set w : ℚ := (2 : ℚ) ^ (1 - ((32 : ℕ) : ℤ) - (9 + 14 : ℕ)) with hw
  have hwp : 0 < w := unit_pos _ _
  have hunit : (2 : ℚ) ^ (1 - ((32 : ℕ) : ℤ) - (9 : ℕ)) = w * 2 ^ 14 := by
    rw [hw]; norm_num
  set q0 := r / 2 ^ 14 with hq0
  set t := r % 2 ^ 14 with ht'
  have htlt : t < 2 ^ 14 := Nat.mod_lt _ (by norm_num)
  have hre : r + 1 * 2 ^ 23 = (q0 + 1 * 2 ^ 9) * 2 ^ 14 + t := by omega
  set Q := q0 + 1 * 2 ^ 9 with hQ
  set u : Nat := 2 ^ (Q / 2 ^ 9 - 1) with hu
  have hup : (0 : ℚ) < u := by rw [hu]; positivity
  have huw : 0 < (u : ℚ) * w := mul_pos hup hwp
  have hx : ieee 32 (9 + 14) (r + 1 * 2 ^ 23) = ((mag 9 Q : ℚ) * 2 ^ 14 + t * u) * w := by
    rw [ieee_eq_mag, hre, mag_affine 9 14 Q t (by omega), mag_widen, ← hw, ← hu]
    rw [Nat.cast_add, Nat.cast_mul, Nat.cast_mul, Nat.cast_pow, Nat.cast_ofNat]
  have g0 : ieee 32 9 Q = (mag 9 Q : ℚ) * 2 ^ 14 * w := by
    rw [ieee_eq_mag, hunit]; ring
  have g1 : ieee 32 9 (Q + 1) = ((mag 9 Q : ℚ) + u) * 2 ^ 14 * w := by
    rw [ieee_eq_mag, hunit, mag_succ, ← hu, Nat.cast_add]; ring
  have f1 : dlf16 (q0 + 1) = ((mag 9 Q : ℚ) + u) * 2 ^ 14 * w := by
    rw [dlf16_eq (by omega), ← g1]; congr 1
  generalize ieee 32 (9 + 14) (r + 1 * 2 ^ 23) = X at hx
  have htq : (t : ℚ) < 2 ^ 14 := by exact_mod_cast htlt
  have hthi : (t : ℚ) * (u * w) < 2 ^ 14 * (u * w) := mul_lt_mul_of_pos_right htq huw
  rcases Nat.eq_zero_or_pos q0 with hz | hpos
  · -- between zero and the smallest number
    have hq : (r + 2 ^ 13) / 2 ^ 14 = q0 + 1 := by omega
    have hm : mag 9 Q = 2 ^ 9 := by rw [hQ, hz]; decide +kernel
    have hu1 : u = 1 := by rw [hu, hQ, hz]; decide
    have f0 : dlf16 q0 = 0 := by rw [hz]; exact dlf16_zero
    rw [hm, hu1] at hx f1
    rw [hu1] at hthi
    push_cast at hx f1 hthi
    have htn : (0 : ℚ) ≤ t * w := by positivity
    apply nearestAway_of_bracket dlf16_strictMono (q0 := q0)
    · rw [f0, hx]; positivity
    · rw [f1, hx]; linarith
    · exact ht
    · right
      refine ⟨?_, hq⟩
      rw [f0, f1, hx]
      have e : 2 * ((512 * 2 ^ 14 + (t : ℚ) * 1) * w - 0) = 16777216 * w + 2 * (t * w) := by ring
      have e' : (512 + 1) * 2 ^ 14 * w - 0 = 8404992 * w := by ring
      rw [e, e']
      linarith
  · have f0 : dlf16 q0 = (mag 9 Q : ℚ) * 2 ^ 14 * w := by rw [dlf16_eq hpos, ← g0]
    have htn : (0 : ℚ) ≤ t * (u * w) := by positivity
    apply nearestAway_of_bracket dlf16_strictMono (q0 := q0)
    · rw [f0, hx]; linarith
    · rw [f1, hx]; linarith
    · exact ht
    · have e1 : 2 * (X - dlf16 q0) = ((2 * t : ℕ) : ℚ) * (u * w) := by
        rw [f0, hx]; push_cast; ring
      have e2 : dlf16 (q0 + 1) - dlf16 q0 = ((2 ^ 14 : ℕ) : ℚ) * (u * w) := by
        rw [f0, f1]; push_cast; ring
      rw [e1, e2]
      by_cases h : 2 * t < 2 ^ 14
      · left
        exact ⟨mul_lt_mul_of_pos_right (by exact_mod_cast h) huw, by omega⟩
      · right
        exact ⟨mul_le_mul_of_nonneg_right (by exact_mod_cast (by omega : 2 ^ 14 ≤ 2 * t)) huw.le, by omega⟩

theorem nmax_eq : nnp1NMax = 96 * 2 ^ 23 + 0x7FFE * 2 ^ 14 + (2 ^ 13 - 1) := by decide +kernel

theorem f32ToDlf16_eq (f : Nat) :
    f32ToDlf16 f = f / 2 ^ 31 * 2 ^ 15 +
      (if f % 2 ^ 31 < 96 * 2 ^ 23 + 2 ^ 13 then 0
       else if f % 2 ^ 31 ≤ nnp1NMax then (f % 2 ^ 31 - 96 * 2 ^ 23 + 2 ^ 13) / 2 ^ 14
       else ninf) := by
  have hor : 2 ^ 15 * (f / 2 ^ 31) ||| 0x7FFF = f / 2 ^ 31 * 2 ^ 15 + 0x7FFF := by
    rw [Nat.mul_comm]; exact or_disjoint _ 15 (by norm_num)
  have hmm : f % 2 ^ 31 % 2 ^ 23 = f % 2 ^ 23 := by omega
  unfold f32ToDlf16 ninf
  simp only [hor, nmax_eq]
  rw [← hmm]
  have hp : f % 2 ^ 31 < 2 ^ 31 := Nat.mod_lt _ (by norm_num)
  generalize f % 2 ^ 31 = p at *
  generalize f / 2 ^ 31 = s at *
  simp only [decide_eq_true_eq, gt_iff_lt]
  by_cases hc : 2 ^ 23 - 1 < p % 2 ^ 23 + 2 ^ 13
  · simp only [if_pos hc]
    split
    · split
      · split <;> omega
      · split <;> omega
    · split <;> omega
  · simp only [if_neg hc]
    split
    · split
      · split <;> omega
      · split <;> omega
    · split <;> omega

theorem dlf16ToF32_eq {u : Nat} (h0 : u % 2 ^ 15 ≠ 0) (h1 : u % 2 ^ 15 ≠ ninf) :
    dlf16ToF32 u = u / 2 ^ 15 * 2 ^ 31 + (u % 2 ^ 15 * 2 ^ 14 + 96 * 2 ^ 23) := by
  unfold dlf16ToF32 ninf at *
  rw [if_neg h0, if_neg h1]
  omega

end Verif.Float
