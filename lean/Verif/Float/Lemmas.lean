import Verif.Float.Spec
import Verif.Float.Model
import Mathlib.Tactic.Linarith
import Mathlib.Tactic.Ring
import Mathlib.Tactic.FieldSimp
import Mathlib.Tactic.Positivity
import Mathlib.Tactic.NormNum
import Mathlib.Order.Monotone.Basic

/-! # Magnitudes in units of the smallest subnormal, and rounding to nearest even -/

namespace Verif.Float

theorem ieee_eq_mag (bias fw p : Nat) :
    ieee bias fw p = (mag fw p : ℚ) * (2 : ℚ) ^ (1 - (bias : ℤ) - fw) := by
  unfold ieee mag
  split
  · rename_i h; simp [h]
  · rename_i h
    obtain ⟨e, he⟩ := Nat.exists_eq_succ_of_ne_zero h
    rw [he]
    simp only [Nat.succ_eq_add_one, Nat.add_sub_cancel]
    push_cast
    rw [mul_assoc, ← zpow_natCast (2 : ℚ) e, ← zpow_add₀ (by norm_num)]
    rw [add_comm]
    congr 2
    push_cast
    ring

theorem mag_succ (fw p : Nat) : mag fw (p + 1) = mag fw p + 2 ^ (p / 2 ^ fw - 1) := by
  have hpos : 0 < 2 ^ fw := Nat.two_pow_pos fw
  unfold mag
  set M := 2 ^ fw with hM
  obtain ⟨e, m, hm, rfl⟩ : ∃ e m, m < M ∧ p = M * e + m :=
    ⟨p / M, p % M, Nat.mod_lt _ hpos, (Nat.div_add_mod p M).symm⟩
  have h1 : (M * e + m) / M = e := by
    rw [Nat.mul_add_div hpos, Nat.div_eq_of_lt hm]; rfl
  have h2 : (M * e + m) % M = m := by rw [Nat.mul_add_mod, Nat.mod_eq_of_lt hm]
  rw [h1, h2]
  by_cases hc : m + 1 < M
  · have h3 : (M * e + m + 1) / M = e := by
      rw [Nat.add_assoc, Nat.mul_add_div hpos, Nat.div_eq_of_lt hc]; rfl
    have h4 : (M * e + m + 1) % M = m + 1 := by
      rw [Nat.add_assoc, Nat.mul_add_mod, Nat.mod_eq_of_lt hc]
    rw [h3, h4]; ring
  · have hme : m + 1 = M := by omega
    have h5 : M * e + m + 1 = M * (e + 1) := by rw [Nat.mul_add]; omega
    rw [h5, Nat.mul_div_cancel_left _ hpos, Nat.mul_mod_right]
    rw [if_neg (by omega)]
    simp only [Nat.add_sub_cancel, Nat.zero_add]
    cases e with
    | zero => simp; omega
    | succ e =>
      simp only [Nat.succ_ne_zero, if_false, Nat.add_sub_cancel]
      rw [pow_succ]
      have : m = M - 1 := by omega
      have hM1 : M - 1 + M + 1 = M * 2 := by omega
      calc M * (2 ^ e * 2) = (M * 2) * 2 ^ e := by ring
        _ = (m + M + 1) * 2 ^ e := by rw [this, hM1]
        _ = (m + M) * 2 ^ e + 2 ^ e := by ring

theorem mag_zero (fw : Nat) : mag fw 0 = 0 := by simp [mag]

theorem mag_strictMono (fw : Nat) : StrictMono (mag fw) := by
  apply strictMono_nat_of_lt_succ
  intro p
  rw [mag_succ]
  exact Nat.lt_add_of_pos_right (Nat.two_pow_pos _)

/-- Between two patterns of a format with `d` fewer fraction bits, magnitudes are affine. -/
theorem mag_affine (fw d q r : Nat) (hr : r ≤ 2 ^ d) :
    mag (fw + d) (q * 2 ^ d + r) = mag (fw + d) (q * 2 ^ d) + r * 2 ^ (q / 2 ^ fw - 1) := by
  induction r with
  | zero => simp
  | succ r ih =>
    rw [← Nat.add_assoc, mag_succ, ih (by omega)]
    have : (q * 2 ^ d + r) / 2 ^ (fw + d) = q / 2 ^ fw := by
      rw [Nat.add_comm fw d, pow_add, ← Nat.div_div_eq_div_mul]
      congr 1
      rw [Nat.add_comm, Nat.add_mul_div_right _ _ (Nat.two_pow_pos d),
        Nat.div_eq_of_lt (by omega), Nat.zero_add]
    rw [this]; ring

theorem mag_widen (fw d q : Nat) : mag (fw + d) (q * 2 ^ d) = mag fw q * 2 ^ d := by
  induction q with
  | zero => simp [mag_zero]
  | succ q ih =>
    have h := mag_affine fw d q (2 ^ d) (le_refl _)
    have : (q + 1) * 2 ^ d = q * 2 ^ d + 2 ^ d := by ring
    rw [this, h, ih, mag_succ]; ring

/-- `n * 2^k` for a normalised significand `n`. -/
theorem mag_shift (fw k n : Nat) (h1 : 2 ^ fw ≤ n) (h2 : n ≤ 2 ^ (fw + 1)) :
    mag fw (k * 2 ^ fw + n) = n * 2 ^ k := by
  have hpos : 0 < 2 ^ fw := Nat.two_pow_pos fw
  have key : ∀ r, r ≤ 2 ^ fw → mag fw ((k + 1) * 2 ^ fw + r) = (2 ^ fw + r) * 2 ^ k := by
    intro r hr
    have h := mag_affine 0 fw (k + 1) r hr
    rw [Nat.zero_add, pow_zero, Nat.div_one, Nat.add_sub_cancel] at h
    rw [h]
    have h' := mag_widen 0 fw (k + 1)
    rw [Nat.zero_add] at h'
    rw [h']
    have : mag 0 (k + 1) = 2 ^ k := by
      simp [mag, Nat.mod_one]
    rw [this]; ring
  obtain ⟨r, rfl⟩ : ∃ r, n = 2 ^ fw + r := ⟨n - 2 ^ fw, by omega⟩
  have e : k * 2 ^ fw + (2 ^ fw + r) = (k + 1) * 2 ^ fw + r := by ring
  rw [e]
  exact key r (by rw [pow_succ] at h2; omega)

theorem mag_small (fw n : Nat) (h : n ≤ 2 ^ (fw + 1)) : mag fw n = n := by
  by_cases h1 : 2 ^ fw ≤ n
  · have := mag_shift fw 0 n h1 h
    simpa using this
  · have hlt : n < 2 ^ fw := by omega
    simp [mag, Nat.div_eq_of_lt hlt, Nat.mod_eq_of_lt hlt]

/-- The choice between two neighbours is a rounding to nearest even. -/
theorem nearest_of_bracket {f : Nat → ℚ} (hf : StrictMono f) {top q0 q : Nat} {x : ℚ}
    (hlo : f q0 ≤ x) (hhi : x < f (q0 + 1)) (htop : q0 < top)
    (hq : (2 * (x - f q0) < f (q0 + 1) - f q0 ∧ q = q0) ∨
      (f (q0 + 1) - f q0 < 2 * (x - f q0) ∧ q = q0 + 1) ∨
      (2 * (x - f q0) = f (q0 + 1) - f q0 ∧ q = q0 + q0 % 2)) :
    NearestEven f top x q := by
  have below : ∀ z, z ≤ q0 → f z ≤ f q0 := fun z hz => hf.monotone hz
  have above : ∀ z, q0 + 1 ≤ z → f (q0 + 1) ≤ f z := fun z hz => hf.monotone hz
  have d0 : |x - f q0| = x - f q0 := abs_of_nonneg (by linarith)
  have d1 : |x - f (q0 + 1)| = f (q0 + 1) - x := by rw [abs_sub_comm]; exact abs_of_nonneg (by linarith)
  have dz : ∀ z, (z ≤ q0 ∧ |x - f z| = x - f z ∧ f z ≤ f q0) ∨
      (q0 + 1 ≤ z ∧ |x - f z| = f z - x ∧ f (q0 + 1) ≤ f z) := by
    intro z
    rcases Nat.lt_or_ge q0 z with h | h
    · right
      have := above z h
      exact ⟨h, by rw [abs_sub_comm]; exact abs_of_nonneg (by linarith), this⟩
    · left
      have := below z h
      exact ⟨h, abs_of_nonneg (by linarith), this⟩
  rcases hq with ⟨hc, rfl⟩ | ⟨hc, rfl⟩ | ⟨hc, hqe⟩
  · refine ⟨by omega, ?_, ?_⟩
    · intro z hz
      rcases dz z with ⟨_, h2, h3⟩ | ⟨_, h2, h3⟩ <;> rw [h2, d0] <;> linarith
    · intro z hz hne he
      exfalso
      rcases dz z with ⟨h1, h2, h3⟩ | ⟨h1, h2, h3⟩
      · have := hf (Nat.lt_of_le_of_ne h1 hne)
        rw [h2, d0] at he; linarith
      · rw [h2, d0] at he; linarith
  · refine ⟨by omega, ?_, ?_⟩
    · intro z hz
      rcases dz z with ⟨_, h2, h3⟩ | ⟨_, h2, h3⟩ <;> rw [h2, d1] <;> linarith
    · intro z hz hne he
      exfalso
      rcases dz z with ⟨h1, h2, h3⟩ | ⟨h1, h2, h3⟩
      · rw [h2, d1] at he; linarith
      · have := hf (Nat.lt_of_le_of_ne h1 (Ne.symm hne))
        rw [h2, d1] at he; linarith
  · have hdist : |x - f q| = x - f q0 := by
      rcases Nat.mod_two_eq_zero_or_one q0 with h | h
      · rw [hqe, h, Nat.add_zero, d0]
      · rw [hqe, h, d1]; linarith
    refine ⟨by omega, ?_, ?_⟩
    · intro z hz
      rcases dz z with ⟨_, h2, h3⟩ | ⟨_, h2, h3⟩ <;> rw [h2, hdist] <;> linarith
    · intro z _ _ _; omega

theorem nearest_top {f : Nat → ℚ} (hf : StrictMono f) {top : Nat} {x : ℚ} (h : f top ≤ x) :
    NearestEven f top x top := by
  have hz : ∀ z, z ≤ top → |x - f z| = x - f z := fun z hz => by
    have := hf.monotone hz
    exact abs_of_nonneg (by linarith)
  refine ⟨le_refl _, ?_, ?_⟩
  · intro z h1
    have := hf.monotone h1
    rw [hz z h1, hz top (le_refl _)]; linarith
  · intro z h1 h2 h3
    exfalso
    have := hf (Nat.lt_of_le_of_ne h1 h2)
    rw [hz z h1, hz top (le_refl _)] at h3; linarith

theorem nearest_exact {f : Nat → ℚ} (hf : StrictMono f) {top p : Nat} (h : p ≤ top) :
    NearestEven f top (f p) p := by
  refine ⟨h, ?_, ?_⟩
  · intro z _; simp
  · intro z _ hne he
    exfalso
    simp only [sub_self, abs_zero, abs_eq_zero] at he
    exact hne (hf.injective (by linarith))

theorem nearest_unique {f : Nat → ℚ} (hf : StrictMono f) {top q q' : Nat} {x : ℚ}
    (h : NearestEven f top x q) (h' : NearestEven f top x q') : q = q' := by
  by_contra hne
  wlog hlt : q < q' generalizing q q'
  · exact this h' h (Ne.symm hne) (by omega)
  have he : |x - f q| = |x - f q'| := le_antisymm (h.2.1 q' h'.1) (h'.2.1 q h.1)
  have e1 := h.2.2 q' h'.1 (Ne.symm hne) he.symm
  have e2 := h'.2.2 q h.1 hne he
  have hff := hf hlt
  have hmid : x - f q = f q' - x := by
    rcases abs_eq_abs.1 he with h1 | h1
    · exfalso; linarith
    · linarith
  -- a pattern strictly between is nearer
  have hb : q + 1 < q' := by omega
  have hm1 := hf (show q < q + 1 by omega)
  have hm2 := hf hb
  have := h.2.1 (q + 1) (by have := h'.1; omega)
  rw [abs_of_nonneg (by linarith : 0 ≤ x - f q)] at this
  rcases abs_cases (x - f (q + 1)) with ⟨h3, _⟩ | ⟨h3, _⟩ <;> rw [h3] at this <;> linarith

theorem unit_pos (bias fw : Nat) : (0 : ℚ) < (2 : ℚ) ^ (1 - (bias : ℤ) - fw) :=
  zpow_pos (by norm_num) _

theorem ieee_strictMono (bias fw : Nat) : StrictMono (ieee bias fw) := by
  intro a b h
  rw [ieee_eq_mag, ieee_eq_mag]
  have := mag_strictMono fw h
  exact mul_lt_mul_of_pos_right (by exact_mod_cast this) (unit_pos _ _)

/-- Dropping `d` fraction bits with `rhe` on the pattern rounds to nearest even. -/
theorem nearest_drop (bias fw d p top : Nat) (hp : p / 2 ^ d < top) :
    NearestEven (ieee bias fw) top (ieee bias (fw + d) p) (rhe p (2 ^ d)) := by
  have hd : 0 < 2 ^ d := Nat.two_pow_pos d
  set q0 := p / 2 ^ d with hq0
  set r := p % 2 ^ d with hr
  have hrlt : r < 2 ^ d := Nat.mod_lt _ hd
  have hpe : p = q0 * 2 ^ d + r := by
    rw [Nat.mul_comm]; exact (Nat.div_add_mod p (2 ^ d)).symm
  set u : Nat := 2 ^ (q0 / 2 ^ fw - 1) with hu
  set w : ℚ := (2 : ℚ) ^ (1 - (bias : ℤ) - (fw + d : ℕ)) with hw
  have hwp : 0 < w := unit_pos _ _
  have hunit : (2 : ℚ) ^ (1 - (bias : ℤ) - fw) = w * 2 ^ d := by
    rw [hw, ← zpow_natCast, ← zpow_add₀ (by norm_num)]
    congr 1; push_cast; ring
  have hx : ieee bias (fw + d) p = ((mag fw q0 : ℚ) * 2 ^ d + r * u) * w := by
    rw [ieee_eq_mag]
    have h2 := mag_affine fw d q0 r (le_of_lt hrlt)
    rw [mag_widen] at h2
    have h3 : mag (fw + d) p = mag fw q0 * 2 ^ d + r * u := by rw [hpe]; exact h2
    rw [h3, ← hw, Nat.cast_add, Nat.cast_mul, Nat.cast_mul, Nat.cast_pow, Nat.cast_ofNat]
  have hf0 : ieee bias fw q0 = (mag fw q0 : ℚ) * 2 ^ d * w := by
    rw [ieee_eq_mag, hunit]; ring
  have hf1 : ieee bias fw (q0 + 1) = ((mag fw q0 : ℚ) + u) * 2 ^ d * w := by
    rw [ieee_eq_mag, hunit, mag_succ]; push_cast [hu]; ring
  have hup : (0 : ℚ) < u := by rw [hu]; positivity
  have huw : 0 < (u : ℚ) * w := mul_pos hup hwp
  have diff1 : ieee bias (fw + d) p - ieee bias fw q0 = r * (u * w) := by
    rw [hx, hf0]; ring
  have diff2 : ieee bias fw (q0 + 1) - ieee bias fw q0 = (2 ^ d : ℕ) * (u * w) := by
    rw [hf1, hf0]; push_cast; ring
  apply nearest_of_bracket (ieee_strictMono bias fw) (q0 := q0)
  · have : 0 ≤ (r : ℚ) * (u * w) := by positivity
    linarith
  · have : (r : ℚ) * (u * w) < (2 ^ d : ℕ) * (u * w) :=
      mul_lt_mul_of_pos_right (by exact_mod_cast hrlt) huw
    linarith
  · exact hp
  · rw [diff1, diff2]
    have cast : (2 * ((r : ℚ) * (u * w))) = ((2 * r : ℕ) : ℚ) * (u * w) := by push_cast; ring
    rw [cast]
    unfold rhe
    rw [← hq0, ← hr]
    by_cases h1 : 2 * r < 2 ^ d
    · left
      rw [if_pos h1]
      exact ⟨mul_lt_mul_of_pos_right (by exact_mod_cast h1) huw, rfl⟩
    · right
      rw [if_neg h1]
      by_cases h2 : 2 ^ d < 2 * r
      · left
        rw [if_pos h2]
        exact ⟨mul_lt_mul_of_pos_right (by exact_mod_cast h2) huw, rfl⟩
      · right
        rw [if_neg h2]
        have : 2 * r = 2 ^ d := by omega
        rw [this]
        exact ⟨rfl, rfl⟩

theorem log_bracket {fw n : Nat} (h : 2 ^ (fw + 1) ≤ n) :
    2 ^ fw ≤ n / 2 ^ (Nat.log 2 n - fw) ∧ n / 2 ^ (Nat.log 2 n - fw) < 2 ^ (fw + 1) := by
  have hn : n ≠ 0 := by have := Nat.two_pow_pos (fw + 1); omega
  have h1 : fw + 1 ≤ Nat.log 2 n := Nat.le_log_of_pow_le (by norm_num) h
  have h2 : 2 ^ Nat.log 2 n ≤ n := Nat.pow_log_le_self 2 hn
  have h3 : n < 2 ^ (Nat.log 2 n + 1) := Nat.lt_pow_succ_log_self (by norm_num) n
  obtain ⟨k, hk⟩ : ∃ k, Nat.log 2 n = fw + k := ⟨Nat.log 2 n - fw, by omega⟩
  rw [hk] at h2 h3 ⊢
  rw [Nat.add_sub_cancel_left]
  constructor
  · rw [Nat.le_div_iff_mul_le (Nat.two_pow_pos k), ← pow_add]; exact h2
  · rw [Nat.div_lt_iff_lt_mul (Nat.two_pow_pos k), ← pow_add]
    have : fw + 1 + k = fw + k + 1 := by omega
    rw [this]; exact h3

/-- Core of the rounding: the significand is `a / c` with `c = b * 2^k`. -/
theorem nearest_scaled (bias fw top a b k : Nat) (hfw : 0 < fw) (hb : 0 < b)
    (hm0 : mag fw (k * 2 ^ fw + a / (b * 2 ^ k)) = a / (b * 2 ^ k) * 2 ^ k)
    (hm1 : mag fw (k * 2 ^ fw + a / (b * 2 ^ k) + 1) = (a / (b * 2 ^ k) + 1) * 2 ^ k) :
    NearestEven (ieee bias fw) top ((a : ℚ) / b * (2 : ℚ) ^ (1 - (bias : ℤ) - fw))
      (min top (k * 2 ^ fw + rhe a (b * 2 ^ k))) := by
  set c := b * 2 ^ k with hc
  have hcp : 0 < c := Nat.mul_pos hb (Nat.two_pow_pos k)
  set n := a / c with hn
  set r := a % c with hr
  have hrlt : r < c := Nat.mod_lt _ hcp
  have ha : a = n * c + r := by rw [Nat.mul_comm]; exact (Nat.div_add_mod a c).symm
  set w : ℚ := (2 : ℚ) ^ (1 - (bias : ℤ) - fw) with hw
  have hwp : 0 < w := unit_pos _ _
  have hbq : (0 : ℚ) < b := by exact_mod_cast hb
  have hcq : (c : ℚ) = b * 2 ^ k := by rw [hc]; push_cast; ring
  have hx : (a : ℚ) / b = n * 2 ^ k + r / b := by
    rw [ha]; push_cast; rw [hcq]; field_simp
  have f0 : ieee bias fw (k * 2 ^ fw + n) = n * 2 ^ k * w := by
    rw [ieee_eq_mag, hm0, ← hw]; push_cast; ring
  have f1 : ieee bias fw (k * 2 ^ fw + n + 1) = (n + 1) * 2 ^ k * w := by
    rw [ieee_eq_mag, hm1, ← hw]; push_cast; ring
  have hwb : 0 < w / b := div_pos hwp hbq
  have d0 : (a : ℚ) / b * w - ieee bias fw (k * 2 ^ fw + n) = r * (w / b) := by
    rw [f0, hx]; field_simp; ring
  have d1 : ieee bias fw (k * 2 ^ fw + n + 1) - ieee bias fw (k * 2 ^ fw + n) = c * (w / b) := by
    rw [f0, f1, hcq]; field_simp; ring
  rcases Nat.lt_or_ge (k * 2 ^ fw + n) top with hlt | hge
  · have hrhe : rhe a c = n ∨ rhe a c = n + 1 := by
      unfold rhe; rw [← hn, ← hr]; split
      · left; rfl
      · split
        · right; rfl
        · rcases Nat.mod_two_eq_zero_or_one n with h | h <;> rw [h]
          · left; rfl
          · right; rfl
    have hmin : min top (k * 2 ^ fw + rhe a c) = k * 2 ^ fw + rhe a c := by
      apply Nat.min_eq_right
      rcases hrhe with h | h <;> rw [h] <;> omega
    rw [hmin]
    apply nearest_of_bracket (ieee_strictMono bias fw) (q0 := k * 2 ^ fw + n)
    · have : 0 ≤ (r : ℚ) * (w / b) := by positivity
      linarith
    · have : (r : ℚ) * (w / b) < c * (w / b) :=
        mul_lt_mul_of_pos_right (by exact_mod_cast hrlt) hwb
      linarith
    · exact hlt
    · rw [d0, d1]
      have cast : (2 * ((r : ℚ) * (w / b))) = ((2 * r : ℕ) : ℚ) * (w / b) := by push_cast; ring
      rw [cast]
      unfold rhe
      rw [← hn, ← hr]
      by_cases h1 : 2 * r < c
      · left
        rw [if_pos h1]
        exact ⟨mul_lt_mul_of_pos_right (by exact_mod_cast h1) hwb, rfl⟩
      · right
        rw [if_neg h1]
        by_cases h2 : c < 2 * r
        · left
          rw [if_pos h2]
          exact ⟨mul_lt_mul_of_pos_right (by exact_mod_cast h2) hwb, by omega⟩
        · right
          rw [if_neg h2]
          have : 2 * r = c := by omega
          rw [this]
          refine ⟨rfl, ?_⟩
          obtain ⟨m, rfl⟩ := Nat.exists_eq_succ_of_ne_zero (Nat.pos_iff_ne_zero.1 hfw)
          have : k * 2 ^ (m + 1) = 2 * (k * 2 ^ m) := by rw [pow_succ]; ring
          rw [Nat.succ_eq_add_one, this]; omega
  · have hmin : min top (k * 2 ^ fw + rhe a c) = top := by
      apply Nat.min_eq_left
      have : n ≤ rhe a c := by
        unfold rhe; rw [← hn]; split
        · exact le_refl _
        · split <;> omega
      omega
    rw [hmin]
    apply nearest_top (ieee_strictMono bias fw)
    have h1 := (ieee_strictMono bias fw).monotone hge
    have : 0 ≤ (r : ℚ) * (w / b) := by positivity
    linarith

/-- `roundPat` is rounding to nearest even. -/
theorem roundPat_nearest (bias fw top a b : Nat) (hfw : 0 < fw) (hb : 0 < b) :
    NearestEven (ieee bias fw) top ((a : ℚ) / b * (2 : ℚ) ^ (1 - (bias : ℤ) - fw))
      (roundPat fw top a b) := by
  unfold roundPat
  split
  · rename_i h
    have := nearest_scaled bias fw top a b 0 hfw hb
    simp only [Nat.zero_mul, Nat.zero_add, pow_zero, Nat.mul_one] at this
    exact this (mag_small fw _ (by omega)) (mag_small fw _ (by omega))
  · rename_i h
    obtain ⟨h1, h2⟩ := log_bracket (fw := fw) (n := a / b) (by omega)
    rw [Nat.div_div_eq_div_mul] at h1 h2
    exact nearest_scaled bias fw top a b _ hfw hb (mag_shift fw _ _ h1 (by omega))
      (by rw [Nat.add_assoc]; exact mag_shift fw _ _ (by omega) (by omega))

theorem roundPat_eq {bias fw top a b q : Nat} (hfw : 0 < fw) (hb : 0 < b)
    (h : NearestEven (ieee bias fw) top ((a : ℚ) / b * (2 : ℚ) ^ (1 - (bias : ℤ) - fw)) q) :
    roundPat fw top a b = q :=
  nearest_unique (ieee_strictMono bias fw) (roundPat_nearest bias fw top a b hfw hb) h

/-- An exactly representable quotient is returned. -/
theorem roundPat_exact {fw top a b q : Nat} (hfw : 0 < fw) (hb : 0 < b) (hq : q ≤ top)
    (h : a = mag fw q * b) : roundPat fw top a b = q := by
  apply roundPat_eq (bias := 0) hfw hb
  have : (a : ℚ) / b * (2 : ℚ) ^ (1 - ((0 : ℕ) : ℤ) - fw) = ieee 0 fw q := by
    rw [ieee_eq_mag, h]
    have : (b : ℚ) ≠ 0 := by exact_mod_cast Nat.pos_iff_ne_zero.1 hb
    push_cast; field_simp
  rw [this]
  exact nearest_exact (ieee_strictMono 0 fw) hq

end Verif.Float
