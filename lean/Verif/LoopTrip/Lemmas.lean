import Verif.LoopTrip.Model
import Mathlib.Tactic.Linarith
import Mathlib.Tactic.FieldSimp
import Mathlib.Tactic.Ring
import Mathlib.Tactic.Positivity

/-! # Lemmas about the rewrite of the trip count -/

namespace Verif.LoopTrip

variable {X : Type}

/-! ### Rounding -/

theorem nearest_int (n : ℤ) : nearest n = n := by
  unfold nearest
  rw [Int.floor_intCast, sub_self, if_pos (by norm_num)]

theorem nearest_error (x : ℚ) : |(nearest x : ℚ) - x| ≤ 1 / 2 := by
  have h1 := Int.floor_le x
  have h2 := Int.lt_floor_add_one x
  unfold nearest
  by_cases ha : x - ⌊x⌋ < 1 / 2
  · rw [if_pos ha, abs_le]
    constructor <;> linarith
  · rw [if_neg ha]
    by_cases hb : 1 / 2 < x - ⌊x⌋
    · rw [if_pos hb, abs_le]
      push_cast
      constructor <;> linarith
    · rw [if_neg hb]
      by_cases hc : ⌊x⌋ % 2 = 0
      · rw [if_pos hc, abs_le]
        constructor <;> linarith
      · rw [if_neg hc, abs_le]
        push_cast
        constructor <;> linarith

theorem roundTo_error (p : ℕ) (x : ℚ) : |roundTo p x - x| ≤ |x| / 2 ^ p := by
  by_cases hx : x = 0
  · subst hx
    have : nearest (0 : ℚ) = 0 := by simpa using nearest_int 0
    simp [roundTo, this]
  · have hpos : 0 < |x| := abs_pos.2 hx
    have hlog : (2 : ℚ) ^ (Int.log 2 |x|) ≤ |x| := by
      simpa using Int.zpow_log_le_self (b := 2) (by norm_num) hpos
    have hs : (0 : ℚ) < 2 ^ (Int.log 2 |x| - p + 1) := zpow_pos (by norm_num) _
    have e1 : roundTo p x - x =
        ((nearest (x / 2 ^ (Int.log 2 |x| - p + 1)) : ℚ) - x / 2 ^ (Int.log 2 |x| - p + 1)) *
          2 ^ (Int.log 2 |x| - p + 1) := by
      unfold roundTo
      rw [sub_mul, div_mul_cancel₀ _ hs.ne']
    rw [e1, abs_mul, abs_of_pos hs]
    have e2 := mul_le_mul_of_nonneg_right (nearest_error (x / 2 ^ (Int.log 2 |x| - p + 1))) hs.le
    refine e2.trans ?_
    have e3 : (1 : ℚ) / 2 * 2 ^ (Int.log 2 |x| - p + 1) = 2 ^ (Int.log 2 |x|) / 2 ^ p := by
      rw [zpow_add₀ (by norm_num), zpow_sub₀ (by norm_num)]
      simp
      ring
    rw [e3]
    exact div_le_div_of_nonneg_right hlog (by positivity)

theorem roundTo_exact (p : ℕ) (hp : 0 < p) (n : ℤ) (hn : |n| ≤ 2 ^ p) : roundTo p n = n := by
  by_cases hx : n = 0
  · subst hx
    have : nearest (0 : ℚ) = 0 := by simpa using nearest_int 0
    simp [roundTo, this]
  · have hpos : (0 : ℚ) < |(n : ℚ)| := abs_pos.2 (by exact_mod_cast hx)
    have hs : (0 : ℚ) < 2 ^ (Int.log 2 |(n : ℚ)| - p + 1) := zpow_pos (by norm_num) _
    have key : ∃ m : ℤ, (n : ℚ) / 2 ^ (Int.log 2 |(n : ℚ)| - p + 1) = m := by
      have hlog : (2 : ℚ) ^ (Int.log 2 |(n : ℚ)|) ≤ |(n : ℚ)| := by
        simpa using Int.zpow_log_le_self (b := 2) (by norm_num) hpos
      have hn' : |(n : ℚ)| ≤ 2 ^ p := by exact_mod_cast hn
      have hle : Int.log 2 |(n : ℚ)| ≤ p := by
        have : (2 : ℚ) ^ (Int.log 2 |(n : ℚ)|) ≤ 2 ^ (p : ℤ) := by
          rw [zpow_natCast]; exact hlog.trans hn'
        exact (zpow_le_zpow_iff_right₀ (by norm_num)).1 this
      rcases Int.lt_or_eq_of_le hle with h | h
      · obtain ⟨k, hk⟩ := Int.eq_ofNat_of_zero_le (show 0 ≤ (p : ℤ) - Int.log 2 |(n : ℚ)| - 1 by omega)
        refine ⟨n * 2 ^ k, ?_⟩
        have : Int.log 2 |(n : ℚ)| - p + 1 = -(k : ℤ) := by omega
        rw [this, zpow_neg, div_inv_eq_mul, zpow_natCast]
        push_cast
        rfl
      · rw [h] at hlog
        rw [zpow_natCast] at hlog
        have heq : |(n : ℚ)| = 2 ^ p := le_antisymm hn' hlog
        have heq' : |n| = 2 ^ p := by exact_mod_cast heq
        obtain ⟨q, rfl⟩ : ∃ q, p = q + 1 := ⟨p - 1, by omega⟩
        rw [h, show ((q + 1 : ℕ) : ℤ) - ((q + 1 : ℕ) : ℤ) + 1 = 1 by omega, zpow_one]
        rcases abs_choice n with ha | ha
        · refine ⟨2 ^ q, ?_⟩
          have : n = 2 ^ (q + 1) := by rw [← ha]; exact heq'
          rw [this]
          push_cast
          rw [pow_succ]
          field_simp
        · refine ⟨-2 ^ q, ?_⟩
          have : n = -2 ^ (q + 1) := by rw [← heq', ha]; ring
          rw [this]
          push_cast
          rw [pow_succ]
          field_simp
    obtain ⟨m, hm⟩ := key
    unfold roundTo
    rw [hm, nearest_int, ← hm, div_mul_cancel₀ _ hs.ne']

theorem roundTo_rounds (p : ℕ) (hp : 0 < p) : Rounds p (roundTo p) :=
  ⟨roundTo_exact p hp, roundTo_error p⟩

/-- The quotient of two integers of at most `p` digits, rounded, still has the same ceiling. -/
theorem Rounds.ceil_div {p : ℕ} {fl : ℚ → ℚ} (hfl : Rounds p fl) {a b : ℤ} (ha : 0 ≤ a) (ha' : a < 2 ^ p)
    (hb : 0 < b) (hb' : b ≤ 2 ^ p) : ⌈fl (fl a / fl b)⌉ = ⌈(a : ℚ) / b⌉ := by
  rw [hfl.exact a (by rw [abs_of_nonneg ha]; exact ha'.le), hfl.exact b (by rw [abs_of_pos hb]; exact hb')]
  have hbq : (0 : ℚ) < b := by exact_mod_cast hb
  have haq : (0 : ℚ) ≤ a := by exact_mod_cast ha
  have hP : (0 : ℚ) < 2 ^ p := by positivity
  -- the quotient is within 1/b of its rounded value
  have herr : |fl ((a : ℚ) / b) - (a : ℚ) / b| < 1 / b := by
    refine (hfl.error _).trans_lt ?_
    rw [abs_of_nonneg (by positivity), div_div, div_lt_div_iff₀ (by positivity) hbq]
    have : (a : ℚ) < 2 ^ p := by exact_mod_cast ha'
    nlinarith
  rw [abs_lt] at herr
  -- the ceiling n of the quotient: (n-1) b < a ≤ n b
  obtain ⟨n, hn⟩ : ∃ n, n = ⌈(a : ℚ) / b⌉ := ⟨_, rfl⟩
  have hn' := Int.ceil_eq_iff.1 hn.symm
  rw [lt_div_iff₀ hbq, div_le_iff₀ hbq] at hn'
  have l1 : (n - 1) * b + 1 ≤ a := by
    have : (n - 1) * b < a := by exact_mod_cast hn'.1
    omega
  have l2 : a ≤ n * b := by exact_mod_cast hn'.2
  rw [← hn, Int.ceil_eq_iff]
  have q1 : ((n : ℚ) - 1) + 1 / b ≤ (a : ℚ) / b := by
    rw [le_div_iff₀ hbq, add_mul, one_div, inv_mul_cancel₀ hbq.ne']
    exact_mod_cast l1
  refine ⟨by linarith, ?_⟩
  rcases Int.lt_or_eq_of_le l2 with h | h
  · have q2 : (a : ℚ) / b ≤ n - 1 / b := by
      rw [div_le_iff₀ hbq, sub_mul, one_div, inv_mul_cancel₀ hbq.ne']
      have : a ≤ n * b - 1 := by omega
      exact_mod_cast this
    linarith
  · have hq : (a : ℚ) / b = n := by
      rw [h]; push_cast; field_simp
    have hn0 : 0 ≤ n := by
      by_contra hc
      have : n * b < 0 := mul_neg_of_neg_of_pos (by omega) hb
      omega
    have hna : n ≤ a := by nlinarith
    rw [hq, hfl.exact n (by rw [abs_of_nonneg hn0]; omega)]

/-! ### Integers of `w` bits -/

theorem wrap_id {w : ℕ} (hw : 1 ≤ w) {z : ℤ} (h1 : -(2 ^ (w - 1)) ≤ z) (h2 : z < 2 ^ (w - 1)) : wrap w z = z := by
  have : (2 : ℤ) ^ w = 2 ^ (w - 1) * 2 := by rw [← pow_succ]; congr 1; omega
  unfold wrap
  rw [Int.emod_eq_of_lt (by omega) (by omega)]
  ring

/-! ### Running the loop -/

/-- A loop that goes on exactly while fewer than `N` iterations are done needs no condition. -/
theorem iterate_bounded (body body' : ℕ → Bool → List (Dat X) → Yield X) (N : ℕ) (I : ℕ → List (Dat X) → Prop)
    (hI : ∀ i s, I i s → i < N → I (i + 1) (body i true s).carried)
    (hgo : ∀ i s, I i s → i < N → (body i true s).go = decide (i + 1 < N))
    (h' : ∀ i s, body' i true s = { body i true s with go := true })
    (m i : ℕ) (s : List (Dat X)) (hs : I i s) (hi : i < N) :
    iterate body' (min m (N - i)) i true s = iterate body m i true s := by
  induction m generalizing i s with
  | zero => simp [iterate]
  | succ m ih =>
    have e1 : min (m + 1) (N - i) = min m (N - (i + 1)) + 1 := by omega
    rw [e1]
    simp only [iterate, if_true]
    rw [h' i s, hgo i s hs hi]
    by_cases hlt : i + 1 < N
    · rw [decide_eq_true hlt, ih (i + 1) _ (hI i s hs hi) hlt]
    · rw [show N - (i + 1) = 0 by omega, Nat.min_zero, decide_eq_false hlt]
      cases m <;> simp [iterate]

end Verif.LoopTrip
