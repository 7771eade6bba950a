import Verif.Elems.CastModel
import Mathlib.Tactic.Linarith
import Mathlib.Tactic.Ring
import Mathlib.Tactic.NormNum
import Mathlib.Tactic.Push

namespace Verif.Elems

/-- `r` is the integer nearest to `q`; of two equally near ones it is the even one. -/
def IsNearestEven (q : ℚ) (r : Int) : Prop := |q - r| < 1 / 2 ∨ (|q - r| = 1 / 2 ∧ Even r)

/-- `r` is `q` without its fraction. -/
def IsTrunc (q : ℚ) (r : Int) : Prop := |(r : ℚ)| ≤ |q| ∧ |q - r| < 1

theorem isNearestEven_unique {q : ℚ} {r s : Int} (h : IsNearestEven q r) (h' : IsNearestEven q s) : r = s := by
  have key : |(r : ℚ) - s| ≤ |q - r| + |q - s| := by
    have := abs_sub_le (r : ℚ) q s
    rw [abs_sub_comm (r : ℚ) q] at this
    exact this
  have cast : |((r - s : Int) : ℚ)| = |(r : ℚ) - s| := by push_cast; rfl
  by_contra hne
  have h1 : (1 : ℚ) ≤ |(r : ℚ) - s| := by
    rw [← cast]
    have : 1 ≤ |r - s| := Int.one_le_abs (sub_ne_zero.2 hne)
    exact_mod_cast this
  rcases h with h | ⟨h, er⟩ <;> rcases h' with h' | ⟨h', es⟩
  · linarith
  · linarith
  · linarith
  · have h2 : |(r : ℚ) - s| = 1 := by linarith
    rw [← cast] at h2
    have h3 : |r - s| = 1 := by exact_mod_cast h2
    obtain ⟨a, rfl⟩ := er
    obtain ⟨b, rfl⟩ := es
    rcases abs_eq (by norm_num : (0 : Int) ≤ 1) |>.1 h3 with h | h <;> omega

theorem isTrunc_unique {q : ℚ} {r s : Int} (h : IsTrunc q r) (h' : IsTrunc q s) : r = s := by
  obtain ⟨h1, h2⟩ := h
  obtain ⟨g1, g2⟩ := h'
  rw [abs_lt] at h2 g2
  rcases le_total 0 q with hq | hq
  · rw [abs_of_nonneg hq] at h1 g1
    have a1 := (abs_le.1 h1).2
    have a2 := (abs_le.1 g1).2
    have b1 : (r : ℚ) < s + 1 := by linarith
    have b2 : (s : ℚ) < r + 1 := by linarith
    have c1 : r < s + 1 := by exact_mod_cast b1
    have c2 : s < r + 1 := by exact_mod_cast b2
    omega
  · rw [abs_of_nonpos hq] at h1 g1
    have a1 := (abs_le.1 h1).1
    have a2 := (abs_le.1 g1).1
    have b1 : (r : ℚ) < s + 1 := by linarith
    have b2 : (s : ℚ) < r + 1 := by linarith
    have c1 : r < s + 1 := by exact_mod_cast b1
    have c2 : s < r + 1 := by exact_mod_cast b2
    omega

theorem rint_spec (q : ℚ) : IsNearestEven q (rint q) := by
  have h1 := Int.floor_le q
  have h2 := Int.lt_floor_add_one q
  unfold rint IsNearestEven
  simp only
  split
  · left; rw [abs_of_nonneg (by linarith)]; assumption
  · split
    · left; push_cast; rw [abs_of_nonpos (by linarith)]; linarith
    · right
      have he : q - ⌊q⌋ = 1 / 2 := by linarith
      split
      · rename_i hev
        exact ⟨by rw [he, abs_of_pos (by norm_num)], Int.even_iff.2 hev⟩
      · rename_i hev
        refine ⟨?_, ?_⟩
        · push_cast
          rw [show q - ((⌊q⌋ : ℚ) + 1) = -(1 / 2) by linarith, abs_neg, abs_of_pos (by norm_num)]
        · rw [Int.even_add_one, Int.even_iff]
          exact hev

theorem rint_int (n : Int) : rint n = n := by
  simp [rint]

theorem rint_mono_le {q : ℚ} {n : Int} (h : q ≤ n) : rint q ≤ n := by
  have h1 := Int.floor_le q
  have h2 : ⌊q⌋ ≤ n := by
    have : (⌊q⌋ : ℚ) ≤ n := by linarith
    exact_mod_cast this
  unfold rint
  simp only
  have h3 : ¬ (q - ⌊q⌋ < 1 / 2) → ⌊q⌋ + 1 ≤ n := by
    intro hc
    by_contra hn
    have : n = ⌊q⌋ := by omega
    rw [← this] at hc
    push Not at hc
    linarith
  split
  · exact h2
  · rename_i hc
    split
    · exact h3 hc
    · split
      · exact h2
      · exact h3 hc

theorem rint_mono_ge {q : ℚ} {n : Int} (h : n ≤ q) : n ≤ rint q := by
  have h2 : n ≤ ⌊q⌋ := Int.le_floor.2 h
  unfold rint
  simp only
  split
  · exact h2
  · split
    · omega
    · split <;> omega

theorem trunc_spec (q : ℚ) : IsTrunc q (q.num.tdiv q.den) := by
  have hd : (0 : ℚ) < q.den := by exact_mod_cast q.den_pos
  have hq : q = q.num / q.den := (Rat.num_div_den q).symm
  have key : (q.num : ℚ) = (q.den : ℚ) * (q.num.tdiv q.den : Int) + (q.num.tmod q.den : Int) := by
    have := Int.mul_tdiv_add_tmod q.num q.den
    exact_mod_cast this.symm
  have hdI : (0 : Int) < q.den := by exact_mod_cast q.den_pos
  set t := q.num.tdiv q.den with ht
  set m := q.num.tmod q.den with hm
  have hsub : q - t = m / q.den := by
    rw [eq_div_iff hd.ne']
    have : q * q.den = q.num := Rat.mul_den_eq_num q
    rw [sub_mul, this, key]; ring
  have hqd : q * q.den = q.num := Rat.mul_den_eq_num q
  constructor
  · rcases le_total 0 q.num with h | h
    · have q0 : 0 ≤ q := Rat.num_nonneg.1 h
      have m0 : 0 ≤ m := Int.tmod_nonneg _ h
      have t0 : 0 ≤ t := Int.tdiv_nonneg h hdI.le
      rw [abs_of_nonneg q0, abs_of_nonneg (by exact_mod_cast t0)]
      have : 0 ≤ q - t := by rw [hsub]; exact div_nonneg (by exact_mod_cast m0) hd.le
      linarith
    · have q0 : q ≤ 0 := by
        by_contra hc
        have := Rat.num_pos.2 (not_le.1 hc)
        omega
      have m0 : m ≤ 0 := by
        have : 0 ≤ (-q.num).tmod q.den := Int.tmod_nonneg _ (by omega)
        rw [Int.neg_tmod] at this
        omega
      have t0 : t ≤ 0 := by
        have : 0 ≤ (-q.num).tdiv q.den := Int.tdiv_nonneg (by omega) hdI.le
        rw [Int.neg_tdiv] at this
        omega
      rw [abs_of_nonpos q0, abs_of_nonpos (by exact_mod_cast t0)]
      have : q - t ≤ 0 := by rw [hsub]; exact div_nonpos_of_nonpos_of_nonneg (by exact_mod_cast m0) hd.le
      linarith
  · rw [hsub, abs_div, abs_of_pos hd, div_lt_one hd]
    have h1 : |m| < q.den := by
      have a := Int.tmod_lt_of_pos q.num hdI
      have b : -(q.den : Int) < m := by
        have := Int.tmod_lt_of_pos (-q.num) hdI
        rw [Int.neg_tmod] at this
        omega
      rw [abs_lt]
      exact ⟨b, a⟩
    exact_mod_cast h1

/-- A double of magnitude at least `2^53` is an integer. -/
theorem IsDbl.int_of_large {q : ℚ} (h : IsDbl q) (hl : (2 : ℚ) ^ 53 ≤ |q|) : ∃ n : Int, q = n := by
  obtain ⟨k, e, rfl, hk⟩ := h
  have he : 0 ≤ e := by
    by_contra hneg
    have h1 : (2 : ℚ) ^ e ≤ 1 := zpow_le_one_of_nonpos₀ (by norm_num) (by omega)
    rw [abs_mul, abs_of_pos (zpow_pos (by norm_num) e : (0 : ℚ) < 2 ^ e)] at hl
    have h2 : |(k : ℚ)| < 2 ^ 53 := by exact_mod_cast hk
    have h3 : (0 : ℚ) ≤ |(k : ℚ)| := abs_nonneg _
    nlinarith
  obtain ⟨n, rfl⟩ := Int.eq_ofNat_of_zero_le he
  exact ⟨k * 2 ^ n, by push_cast; rfl⟩

/-- The subtraction in the conversion to `uint64_t` is exact. -/
theorem isDbl_sub_mid {q : ℚ} (h : IsDbl q) (h1 : 2 ^ 63 ≤ q) (h2 : q < 2 ^ 64) : IsDbl (q - 2 ^ 63) := by
  obtain ⟨k, e, rfl, hk⟩ := h
  have hk' : |(k : ℚ)| < 2 ^ 53 := by exact_mod_cast hk
  have he : 11 ≤ e := by
    by_contra hneg
    have h3 : (2 : ℚ) ^ e ≤ 2 ^ (10 : Int) := zpow_le_zpow_right₀ (by norm_num) (by omega)
    have h4 : (0 : ℚ) < 2 ^ e := zpow_pos (by norm_num) e
    have h5 : (k : ℚ) ≤ |(k : ℚ)| := le_abs_self _
    norm_num at h3
    have h6 : (k : ℚ) * 2 ^ e < 2 ^ 53 * 1024 := by
      calc (k : ℚ) * 2 ^ e < 2 ^ 53 * 2 ^ e := by
            apply mul_lt_mul_of_pos_right _ h4
            linarith
        _ ≤ 2 ^ 53 * 1024 := by
            apply mul_le_mul_of_nonneg_left h3
            norm_num
    norm_num at h1 h6
    linarith
  obtain ⟨n, rfl⟩ : ∃ n : Nat, e = n + 11 := ⟨(e - 11).toNat, by omega⟩
  have e1 : ((k : ℚ) * 2 ^ ((n : Int) + 11)) = ((k * 2 ^ n : Int) : ℚ) * 2 ^ 11 := by
    rw [zpow_add₀ (by norm_num)]
    push_cast
    rw [zpow_natCast]
    norm_num
    ring
  rw [e1] at h1 h2 ⊢
  have g1 : ((2 ^ 52 : Int) : ℚ) ≤ ((k * 2 ^ n : Int) : ℚ) := by
    push_cast
    push_cast at h1
    norm_num at h1 ⊢
    linarith
  have g2 : ((k * 2 ^ n : Int) : ℚ) < ((2 ^ 53 : Int) : ℚ) := by
    push_cast
    push_cast at h2
    norm_num at h2 ⊢
    linarith
  have g1' : (2 : Int) ^ 52 ≤ k * 2 ^ n := by exact_mod_cast g1
  have g2' : k * 2 ^ n < (2 : Int) ^ 53 := by exact_mod_cast g2
  refine ⟨k * 2 ^ n - 2 ^ 52, 11, ?_, ?_⟩
  · push_cast
    norm_num
    ring
  · rw [abs_of_nonneg (by omega)]
    norm_num at g1' g2' ⊢
    omega

theorem log2_pred (m : Nat) (h : 1 ≤ m) : Nat.log2 (2 ^ m - 1) = m - 1 := by
  have h2 : 2 ^ m = 2 * 2 ^ (m - 1) := by
    rw [← Nat.pow_succ', Nat.succ_eq_add_one, Nat.sub_add_cancel h]
  have hp := Nat.two_pow_pos (m - 1)
  have hne : 2 ^ m - 1 ≠ 0 := by omega
  apply Nat.le_antisymm
  · have : Nat.log2 (2 ^ m - 1) < m := (Nat.log2_lt hne).2 (by omega)
    omega
  · exact (Nat.le_log2 hne).2 (by omega)

/-- The largest value of a type, as a double: itself or, if it has more than 53 bits, one more. -/
theorem dblOfInt_max {m : Nat} (h : 1 ≤ m) :
    dblOfInt (2 ^ m - 1) = if m ≤ 53 then 2 ^ m - 1 else 2 ^ m := by
  have hab : ((2 : Int) ^ m - 1).natAbs = 2 ^ m - 1 := by
    have h1 : ((2 : Int) ^ m - 1) = ((2 ^ m - 1 : Nat) : Int) := by
      rw [Nat.cast_sub (Nat.one_le_two_pow)]; push_cast; rfl
    rw [h1]; rfl
  unfold dblOfInt
  rw [hab]
  by_cases hm : m ≤ 53
  · have : 2 ^ m ≤ 2 ^ 53 := Nat.pow_le_pow_right (by norm_num) hm
    rw [if_pos (by omega), if_pos hm]
    push_cast; rfl
  · have : 2 ^ 54 ≤ 2 ^ m := Nat.pow_le_pow_right (by norm_num) (by omega)
    rw [if_neg (by omega), if_neg hm]
    simp only
    rw [log2_pred m h]
    obtain ⟨j, rfl⟩ : ∃ j, m = 54 + j := ⟨m - 54, by omega⟩
    rw [show 54 + j - 1 - 52 = j + 1 by omega]
    have hr : rint (((2 ^ (54 + j) - 1 : Int) : ℚ) / 2 ^ (j + 1)) = 2 ^ 53 := by
      apply isNearestEven_unique (rint_spec _)
      have hp : (0 : ℚ) < 2 ^ (j + 1) := by positivity
      have hd : ((2 ^ (54 + j) - 1 : Int) : ℚ) / 2 ^ (j + 1) - ((2 ^ 53 : Int) : ℚ) = -(1 / 2 ^ (j + 1)) := by
        push_cast
        field_simp
        ring
      unfold IsNearestEven
      rw [hd, abs_neg, abs_of_pos (by positivity)]
      rcases Nat.eq_zero_or_pos j with rfl | hj
      · right
        exact ⟨by norm_num, ⟨2 ^ 52, by norm_num⟩⟩
      · left
        have : (2 : ℚ) < 2 ^ (j + 1) := by
          calc (2 : ℚ) = 2 ^ 1 := by norm_num
            _ < 2 ^ (j + 1) := pow_lt_pow_right₀ (by norm_num) (by omega)
        exact one_div_lt_one_div_of_lt (by norm_num) this
    rw [hr]
    push_cast
    ring

theorem dblOfInt_min {m : Nat} : dblOfInt (-2 ^ m) = -2 ^ m := by
  have hab : (-(2 : Int) ^ m).natAbs = 2 ^ m := by
    rw [Int.natAbs_neg, Int.natAbs_pow]; rfl
  unfold dblOfInt
  rw [hab]
  by_cases hm : m ≤ 53
  · have : 2 ^ m ≤ 2 ^ 53 := Nat.pow_le_pow_right (by norm_num) hm
    rw [if_pos this]
    push_cast; rfl
  · have : 2 ^ 54 ≤ 2 ^ m := Nat.pow_le_pow_right (by norm_num) (by omega)
    rw [if_neg (by omega)]
    simp only
    rw [Nat.log2_two_pow]
    obtain ⟨j, rfl⟩ : ∃ j, m = 52 + j := ⟨m - 52, by omega⟩
    rw [show 52 + j - 52 = j by omega]
    have hd : ((-2 ^ (52 + j) : Int) : ℚ) / 2 ^ j = ((-2 ^ 52 : Int) : ℚ) := by
      push_cast
      field_simp
      ring
    rw [hd, rint_int]
    push_cast
    ring

theorem castMin_eq {w : Nat} (h1 : 1 ≤ w) (h2 : w ≤ 64) :
    castMin false w = -2 ^ (w - 1) := by
  unfold castMin
  simp only [Bool.false_eq_true, if_false]
  obtain ⟨j, hj⟩ : ∃ j, 64 - w = j := ⟨_, rfl⟩
  have e : (2 : Int) ^ 63 = 2 ^ (w - 1) * 2 ^ j := by rw [← pow_add]; congr 1; omega
  rw [hj, e, ← neg_mul, Int.mul_ediv_cancel _ (by positivity)]

theorem shift_max {a j : Nat} : ((2 : Int) ^ (a + j) - 1) / 2 ^ j = 2 ^ a - 1 := by
  have hp : (0 : Int) < 2 ^ j := by positivity
  have e : (2 : Int) ^ (a + j) - 1 = (2 ^ j - 1) + (2 ^ a - 1) * 2 ^ j := by rw [pow_add]; ring
  rw [e, Int.add_mul_ediv_right _ _ hp.ne', Int.ediv_eq_zero_of_lt (by omega) (by omega), zero_add]

theorem castMax_signed {w : Nat} (h1 : 1 ≤ w) (h2 : w ≤ 64) :
    castMax false w = 2 ^ (w - 1) - 1 := by
  unfold castMax
  simp only [Bool.false_eq_true, if_false]
  have := shift_max (a := w - 1) (j := 64 - w)
  rwa [show w - 1 + (64 - w) = 63 by omega] at this

theorem castMax_unsigned {w : Nat} (h2 : w ≤ 64) : castMax true w = 2 ^ w - 1 := by
  unfold castMax
  simp only [if_true]
  have := shift_max (a := w) (j := 64 - w)
  rwa [show w + (64 - w) = 64 by omega] at this

/-- A double below the double of `2^m - 1` is at most `2^m - 1` if it is an integer or after rounding. -/
theorem le_max_of_lt {q : ℚ} (hd : IsDbl q) {m : Nat} (hm : 1 ≤ m) (h : q < dblOfInt (2 ^ m - 1)) :
    q ≤ ((2 ^ m - 1 : Int) : ℚ) := by
  rw [dblOfInt_max hm] at h
  push_cast
  split at h
  · exact h.le
  · rename_i hm'
    by_contra hc
    push Not at hc
    have h54 : (2 : ℚ) ^ 54 ≤ 2 ^ m := pow_le_pow_right₀ (by norm_num) (by omega)
    have hbig : (2 : ℚ) ^ 53 ≤ |q| := by
      have := le_abs_self q
      norm_num at h54 ⊢
      linarith
    obtain ⟨n, rfl⟩ := hd.int_of_large hbig
    have a1 : ((2 ^ m - 1 : Int) : ℚ) < n := by push_cast; exact hc
    have a2 : (n : ℚ) < ((2 ^ m : Int) : ℚ) := by push_cast; exact h
    have b1 : (2 : Int) ^ m - 1 < n := by exact_mod_cast a1
    have b2 : n < (2 : Int) ^ m := by exact_mod_cast a2
    omega

theorem trunc_bounds {q : ℚ} {lo hi : Int} (h1 : lo ≤ q) (h2 : q ≤ hi) (hlo : lo ≤ 0) (hhi : 0 ≤ hi) :
    lo ≤ q.num.tdiv q.den ∧ q.num.tdiv q.den ≤ hi := by
  have h := (trunc_spec q).1
  have lo' : (lo : ℚ) ≤ 0 := by exact_mod_cast hlo
  have hi' : (0 : ℚ) ≤ hi := by exact_mod_cast hhi
  have h3 := (trunc_spec q).2
  set t := q.num.tdiv q.den
  rcases le_total 0 q with hq | hq
  · rw [abs_of_nonneg hq] at h
    have a := (abs_le.1 h).2
    have b : (t : ℚ) ≤ hi := by linarith
    refine ⟨?_, by exact_mod_cast b⟩
    rw [abs_lt] at h3
    have : (-1 : ℚ) < t := by linarith
    have : (-1 : Int) < t := by exact_mod_cast this
    omega
  · rw [abs_of_nonpos hq] at h
    have a := (abs_le.1 h).1
    have b : (lo : ℚ) ≤ t := by linarith
    refine ⟨by exact_mod_cast b, ?_⟩
    rw [abs_lt] at h3
    have : (t : ℚ) < 1 := by linarith
    have : t < (1 : Int) := by exact_mod_cast this
    omega

/-- The shape shared by the signed and unsigned conversions: limits `lo` and `2^m - 1`. -/
theorem convert_spec {q : ℚ} (hq : IsDbl q) (truncate u64 : Bool) {m : Nat} (hm : 1 ≤ m) {lo : Int}
    (hlo : (u64 = true ∧ lo = 0 ∧ m ≤ 64) ∨ (u64 = false ∧ lo = -2 ^ m ∧ m ≤ 63)) :
    ∃ r : Int, (if truncate then IsTrunc q r else IsNearestEven q r) ∧
      convertIntFromDouble truncate u64 (.fin q) lo (2 ^ m - 1) = some (max lo (min (2 ^ m - 1) r)) := by
  have hpm : (1 : Int) ≤ 2 ^ m := by exact_mod_cast Nat.one_le_two_pow
  have hmin : dblOfInt lo = (lo : ℚ) := by
    rcases hlo with ⟨-, rfl, -⟩ | ⟨-, rfl, -⟩
    · simp [dblOfInt]
    · rw [dblOfInt_min]; push_cast; rfl
  have hlo0 : lo ≤ 0 := by
    rcases hlo with ⟨-, rfl, -⟩ | ⟨-, rfl, -⟩
    · exact le_refl 0
    · omega
  obtain ⟨r, hr⟩ : ∃ r : Int, r = if truncate then q.num.tdiv q.den else rint q := ⟨_, rfl⟩
  have hspec : if truncate then IsTrunc q r else IsNearestEven q r := by
    subst hr
    cases truncate
    · exact rint_spec q
    · exact trunc_spec q
  refine ⟨r, hspec, ?_⟩
  unfold convertIntFromDouble
  rw [if_neg (by simp), hmin]
  simp only [Dbl.lt, Dbl.ge, decide_eq_true_eq]
  by_cases h1 : q < lo
  · rw [if_pos h1]
    have : r ≤ lo := by
      subst hr
      cases truncate
      · exact rint_mono_le h1.le
      · have ⟨a, b⟩ := trunc_spec q
        have hq0 : q < 0 := lt_of_lt_of_le h1 (by exact_mod_cast hlo0)
        simp only [if_true]
        rw [abs_lt] at b
        have : ((q.num.tdiv q.den : Int) : ℚ) < lo + 1 := by linarith
        have : q.num.tdiv q.den < lo + 1 := by exact_mod_cast this
        omega
    congr 1
    rw [max_eq_left]
    omega
  · rw [if_neg h1]
    push Not at h1
    by_cases h2 : dblOfInt (2 ^ m - 1) ≤ q
    · rw [if_pos h2]
      have hge : ((2 ^ m - 1 : Int) : ℚ) ≤ q := by
        rw [dblOfInt_max hm] at h2
        push_cast
        split at h2
        · exact h2
        · linarith
      have : 2 ^ m - 1 ≤ r := by
        subst hr
        cases truncate
        · exact rint_mono_ge hge
        · have ⟨a, b⟩ := trunc_spec q
          simp only [if_true]
          rw [abs_lt] at b
          have : ((2 ^ m - 1 : Int) : ℚ) - 1 < ((q.num.tdiv q.den : Int) : ℚ) := by linarith
          have : (2 : Int) ^ m - 1 - 1 < q.num.tdiv q.den := by exact_mod_cast this
          omega
      congr 1
      rw [min_eq_left this, max_eq_right (by omega)]
    · rw [if_neg h2]
      push Not at h2
      have hle := le_max_of_lt hq hm h2
      have hb : lo ≤ r ∧ r ≤ 2 ^ m - 1 := by
        subst hr
        cases truncate
        · exact ⟨rint_mono_ge h1, rint_mono_le hle⟩
        · exact trunc_bounds h1 hle hlo0 (by omega)
      rw [min_eq_right hb.2, max_eq_right hb.1]
      cases truncate
      · simp only [Bool.false_eq_true, if_false] at hr ⊢
        rcases hlo with ⟨rfl, rfl, hm64⟩ | ⟨rfl, rfl, hm63⟩
        · have h64 : (2 : Int) ^ m ≤ 2 ^ 64 := pow_le_pow_right₀ (by norm_num) hm64
          simp only [if_true]
          by_cases hmid : q < 2 ^ 63
          · rw [if_pos hmid]
            unfold llrint
            simp only
            have hlt : q ≤ (((2 : Int) ^ 63 - 1 : Int) : ℚ) := by
              apply le_max_of_lt hq (by norm_num)
              rw [dblOfInt_max (by norm_num)]
              simpa using hmid
            have := rint_mono_le hlt
            rw [if_pos ⟨by omega, by omega⟩, hr]
          · rw [if_neg hmid]
            push Not at hmid
            have hr2 : rint (q - 2 ^ 63) = r - 2 ^ 63 := by
              apply isNearestEven_unique (rint_spec _)
              have hs := rint_spec q
              rw [← hr] at hs
              unfold IsNearestEven at hs ⊢
              have e : q - 2 ^ 63 - ((r - 2 ^ 63 : Int) : ℚ) = q - r := by push_cast; ring
              rw [e]
              refine hs.imp id (fun ⟨a, b⟩ => ⟨a, ?_⟩)
              rw [Int.even_sub]
              exact iff_of_true b ⟨2 ^ 62, by norm_num⟩
            have hge := rint_mono_ge (q := q) (n := 2 ^ 63) (by push_cast; exact hmid)
            rw [← hr] at hge
            unfold llrint Dbl.sub
            simp only [hr2]
            rw [if_pos ⟨by omega, by omega⟩]
            simp only [Option.map_some]
            congr 1
            rw [show (2 : Int) ^ 63 + (r - 2 ^ 63) = r by ring]
            exact Int.emod_eq_of_lt hb.1 (by omega)
        · have h63 : (2 : Int) ^ m ≤ 2 ^ 63 := pow_le_pow_right₀ (by norm_num) hm63
          simp only [Bool.false_eq_true, if_false]
          unfold llrint
          simp only
          rw [← hr, if_pos ⟨by omega, by omega⟩]
      · simp only [if_true] at hr ⊢
        rcases hlo with ⟨rfl, rfl, hm64⟩ | ⟨rfl, rfl, hm63⟩
        · have h64 : (2 : Int) ^ m ≤ 2 ^ 64 := pow_le_pow_right₀ (by norm_num) hm64
          simp only [if_true]
          unfold truncCast
          simp only
          rw [← hr, if_pos ⟨by omega, by omega⟩]
        · have h63 : (2 : Int) ^ m ≤ 2 ^ 63 := pow_le_pow_right₀ (by norm_num) hm63
          simp only [Bool.false_eq_true, if_false]
          unfold truncCast
          simp only
          rw [← hr, if_pos ⟨by omega, by omega⟩]

end Verif.Elems
