import Verif.Quant.Model
import Mathlib.Tactic.Linarith
import Mathlib.Tactic.LinearCombination
import Mathlib.Tactic.FieldSimp
import Mathlib.Tactic.Ring
import Mathlib.Algebra.Order.BigOperators.Group.Finset
import Mathlib.Algebra.Ring.Parity

/-! # Lemmas on quantised operators -/

namespace Verif.Quant

variable {K : Type} [Field K] [LinearOrder K] [IsStrictOrderedRing K] [FloorRing K]

theorem half_floor (n : ℤ) : ⌊(1 / 2 : K) * (n : K)⌋ = n / 2 := by
  rw [Int.floor_eq_iff]
  have h1 : n = 2 * (n / 2) + n % 2 := by omega
  have h2 : 0 ≤ n % 2 := by omega
  have h3 : n % 2 ≤ 1 := by omega
  have e : (n : K) = 2 * ((n / 2 : ℤ) : K) + ((n % 2 : ℤ) : K) := by exact_mod_cast h1
  have g2 : (0 : K) ≤ ((n % 2 : ℤ) : K) := by exact_mod_cast h2
  have g3 : ((n % 2 : ℤ) : K) ≤ 1 := by exact_mod_cast h3
  constructor <;> linarith

theorem roundEven_spec (x : K) : ∃ n : ℤ, roundEven x = (n : K) ∧ IsRoundEven x n := by
  have h0 : (⌊x⌋ : K) ≤ x := Int.floor_le x
  have h1 : x < (⌊x⌋ : K) + 1 := Int.lt_floor_add_one x
  have hh := half_floor (K := K) ⌊x⌋
  unfold roundEven
  simp only [hh]
  by_cases hr : x - (⌊x⌋ : K) = 1 / 2
  · rw [if_pos hr]
    by_cases ho : (⌊x⌋ : K) - ((⌊x⌋ / 2 : ℤ) : K) * 2 = 1
    · rw [if_pos ho]
      refine ⟨⌊x⌋ + 1, by push_cast; rfl, ?_, fun _ => ?_⟩
      · rw [abs_le]; push_cast; constructor <;> linarith
      · have : ⌊x⌋ - ⌊x⌋ / 2 * 2 = 1 := by exact_mod_cast ho
        exact ⟨(⌊x⌋ + 1) / 2, by omega⟩
    · rw [if_neg ho]
      refine ⟨⌊x⌋, rfl, ?_, fun _ => ?_⟩
      · rw [hr, abs_of_pos (by norm_num)]
      · have : ¬ ⌊x⌋ - ⌊x⌋ / 2 * 2 = 1 := fun h => ho (by exact_mod_cast h)
        exact ⟨⌊x⌋ / 2, by omega⟩
  · rw [if_neg hr]
    by_cases hg : x - (⌊x⌋ : K) > 1 / 2
    · rw [if_pos hg]
      refine ⟨⌊x⌋ + 1, by push_cast; rfl, ?_, fun h => ?_⟩
      · rw [abs_le]; push_cast; constructor <;> linarith
      · exfalso
        push_cast at h
        rw [abs_of_nonpos (by linarith)] at h
        linarith
    · rw [if_neg hg]
      have hlt : x - (⌊x⌋ : K) < 1 / 2 := lt_of_le_of_ne (not_lt.1 hg) hr
      refine ⟨⌊x⌋, rfl, ?_, fun h => ?_⟩
      · rw [abs_le]; constructor <;> linarith
      · exfalso
        rw [abs_of_nonneg (by linarith)] at h
        exact hr h

omit [FloorRing K] in
theorem isRoundEven_unique {x : K} {m n : ℤ} (hm : IsRoundEven x m) (hn : IsRoundEven x n) : m = n := by
  obtain ⟨m1, m2⟩ := hm
  obtain ⟨n1, n2⟩ := hn
  rw [abs_le] at m1 n1
  have a1 : ((m - n : ℤ) : K) ≤ 1 := by push_cast; linarith [m1.1, m1.2, n1.1, n1.2]
  have a2 : (-1 : K) ≤ ((m - n : ℤ) : K) := by push_cast; linarith [m1.1, m1.2, n1.1, n1.2]
  have b1 : m - n ≤ 1 := by exact_mod_cast a1
  have b2 : -1 ≤ m - n := by exact_mod_cast a2
  have c : m - n = 0 ∨ m - n = 1 ∨ m - n = -1 := by omega
  rcases c with c | c | c
  · omega
  · have e : (m : K) = n + 1 := by have : m = n + 1 := by omega
                                   rw [this]; push_cast; rfl
    have e1 : |x - m| = 1 / 2 := by rw [abs_of_nonpos] <;> linarith [m1.1, m1.2, n1.1, n1.2]
    have e2 : |x - n| = 1 / 2 := by rw [abs_of_nonneg] <;> linarith [m1.1, m1.2, n1.1, n1.2]
    obtain ⟨p, hp⟩ := m2 e1
    obtain ⟨q, hq⟩ := n2 e2
    omega
  · have e : (n : K) = m + 1 := by have : n = m + 1 := by omega
                                   rw [this]; push_cast; rfl
    have e1 : |x - m| = 1 / 2 := by rw [abs_of_nonneg] <;> linarith [m1.1, m1.2, n1.1, n1.2]
    have e2 : |x - n| = 1 / 2 := by rw [abs_of_nonpos] <;> linarith [m1.1, m1.2, n1.1, n1.2]
    obtain ⟨p, hp⟩ := m2 e1
    obtain ⟨q, hq⟩ := n2 e2
    omega

theorem fpToInt_cast (n : ℤ) : fpToInt (n : K) = n := by
  unfold fpToInt
  split <;> simp

theorem roundEven_iff {x : K} {n : ℤ} : IsRoundEven x n ↔ roundEven x = n := by
  obtain ⟨m, h1, h2⟩ := roundEven_spec x
  constructor
  · intro h; rw [h1, isRoundEven_unique h2 h]
  · intro h
    have : m = n := by rw [h1] at h; exact_mod_cast h
    exact this ▸ h2

theorem val8_ofInt (signed : Bool) (n : ℤ) (hl : lo8 signed ≤ n) (hh : n ≤ hi8 signed) :
    val8 signed (BitVec.ofInt 8 n) = n := by
  cases signed
  · simp only [val8, lo8, hi8, Bool.false_eq_true, if_false, BitVec.toNat_ofInt] at *
    omega
  · simp only [val8, lo8, hi8, if_true, BitVec.toInt_ofInt, Int.bmod_def] at *
    split <;> omega

theorem setWidth8_ofInt32 (n : ℤ) : (BitVec.ofInt 32 n).setWidth 8 = BitVec.ofInt 8 n := by
  apply BitVec.eq_of_toNat_eq
  simp only [BitVec.toNat_setWidth, BitVec.toNat_ofInt]
  omega

theorem castTo8_cast (n : ℤ) : castTo8 (n : K) = BitVec.ofInt 8 n := by
  unfold castTo8
  rw [fpToInt_cast, setWidth8_ofInt32]

omit [FloorRing K] in
theorem clipK_cast (signed : Bool) (n : ℤ) : clipK (n : K) (qMin signed) (qMax signed) = (saturate signed n : ℤ) := by
  have h : lo8 signed ≤ hi8 signed := by cases signed <;> decide
  have e1 : (qMin signed : K) = (lo8 signed : ℤ) := by cases signed <;> simp [qMin, lo8]
  have e2 : (qMax signed : K) = (hi8 signed : ℤ) := by cases signed <;> simp [qMax, hi8]
  unfold clipK saturate
  rw [e1, e2]
  norm_cast
  omega

theorem saturate_mem (signed : Bool) (n : ℤ) : lo8 signed ≤ saturate signed n ∧ saturate signed n ≤ hi8 signed := by
  unfold saturate
  have h : lo8 signed ≤ hi8 signed := by cases signed <;> decide
  omega

theorem saturate_of_mem (signed : Bool) (n : ℤ) (hl : lo8 signed ≤ n) (hh : n ≤ hi8 signed) : saturate signed n = n := by
  unfold saturate; omega

omit [LinearOrder K] [IsStrictOrderedRing K] [FloorRing K] in
theorem scaleBy_eq (fast : Bool) (x s : K) : scaleBy fast x s = x / s := by
  unfold scaleBy
  split
  · rw [mul_one_div]
  · rfl

theorem quantizeElem_eq (fast signed : Bool) (scale : K) (z : ℤ) (x : K) (r : ℤ) (hr : IsRoundEven (x / scale) r) :
    quantizeElem fast (qMin signed) (qMax signed) scale (some (z : K)) x = BitVec.ofInt 8 (saturate signed (r + z)) := by
  unfold quantizeElem
  simp only [scaleBy_eq, roundEven_iff.1 hr]
  rw [← Int.cast_add, clipK_cast, castTo8_cast]

theorem quantizeElem_none (fast : Bool) (lo hi scale x : K) :
    quantizeElem fast lo hi scale none x = quantizeElem fast lo hi scale (some ((0 : ℤ) : K)) x := by
  simp [quantizeElem]

/-! ## The extremes -/

omit [IsStrictOrderedRing K] [FloorRing K] in
theorem reduceMax_aux (xs : List K) (m : K) :
    ∃ t, xs.foldl (fun m x => some (match m with | none => x | some m => max m x)) (some m) = some t ∧
      (t = m ∨ t ∈ xs) ∧ m ≤ t ∧ ∀ x ∈ xs, x ≤ t := by
  induction xs generalizing m with
  | nil => exact ⟨m, rfl, Or.inl rfl, le_refl _, by simp⟩
  | cons a xs ih =>
    obtain ⟨t, h1, h2, h3, h4⟩ := ih (max m a)
    refine ⟨t, h1, ?_, le_trans (le_max_left _ _) h3, ?_⟩
    · rcases h2 with h2 | h2
      · rcases le_total m a with h | h
        · right; rw [h2, max_eq_right h]; simp
        · left; rw [h2, max_eq_left h]
      · right; simp [h2]
    · intro x hx
      rcases List.mem_cons.1 hx with rfl | hx
      · exact le_trans (le_max_right _ _) h3
      · exact h4 x hx

omit [IsStrictOrderedRing K] [FloorRing K] in
theorem reduceMin_aux (xs : List K) (m : K) :
    ∃ t, xs.foldl (fun m x => some (match m with | none => x | some m => min m x)) (some m) = some t ∧
      (t = m ∨ t ∈ xs) ∧ t ≤ m ∧ ∀ x ∈ xs, t ≤ x := by
  induction xs generalizing m with
  | nil => exact ⟨m, rfl, Or.inl rfl, le_refl _, by simp⟩
  | cons a xs ih =>
    obtain ⟨t, h1, h2, h3, h4⟩ := ih (min m a)
    refine ⟨t, h1, ?_, le_trans h3 (min_le_left _ _), ?_⟩
    · rcases h2 with h2 | h2
      · rcases le_total m a with h | h
        · left; rw [h2, min_eq_left h]
        · right; rw [h2, min_eq_right h]; simp
      · right; simp [h2]
    · intro x hx
      rcases List.mem_cons.1 hx with rfl | hx
      · exact le_trans h3 (min_le_right _ _)
      · exact h4 x hx

omit [IsStrictOrderedRing K] [FloorRing K] in
theorem inputMax_spec (xs : List K) : IsTop xs (inputMax xs) := by
  cases xs with
  | nil => exact ⟨Or.inl rfl, le_refl _, by simp⟩
  | cons a xs =>
    obtain ⟨t, h1, h2, h3, h4⟩ := reduceMax_aux xs a
    have e : inputMax (a :: xs) = max t 0 := by
      have : reduceMax (a :: xs) = some t := h1
      unfold inputMax; rw [this]
    rw [e]
    refine ⟨?_, le_max_right _ _, ?_⟩
    · rcases le_total t 0 with h | h
      · left; exact max_eq_right h
      · right; rw [max_eq_left h]; rcases h2 with h2 | h2 <;> simp [h2]
    · intro x hx
      rcases List.mem_cons.1 hx with rfl | hx
      · exact le_trans h3 (le_max_left _ _)
      · exact le_trans (h4 x hx) (le_max_left _ _)

omit [IsStrictOrderedRing K] [FloorRing K] in
theorem inputMin_spec (xs : List K) : IsBottom xs (inputMin xs) := by
  cases xs with
  | nil => exact ⟨Or.inl rfl, le_refl _, by simp⟩
  | cons a xs =>
    obtain ⟨t, h1, h2, h3, h4⟩ := reduceMin_aux xs a
    have e : inputMin (a :: xs) = min t 0 := by
      have : reduceMin (a :: xs) = some t := h1
      unfold inputMin; rw [this]
    rw [e]
    refine ⟨?_, min_le_right _ _, ?_⟩
    · rcases le_total t 0 with h | h
      · right; rw [min_eq_left h]; rcases h2 with h2 | h2 <;> simp [h2]
      · left; exact min_eq_right h
    · intro x hx
      rcases List.mem_cons.1 hx with rfl | hx
      · exact le_trans (min_le_left _ _) h3
      · exact le_trans (min_le_left _ _) (h4 x hx)

omit [FloorRing K] [IsStrictOrderedRing K] in
theorem dynScale_eq (xs : List K) : dynScale xs = (inputMax xs - inputMin xs) / 255 := by
  simp [dynScale, qMax, qMin]

omit [FloorRing K] in
/-- A negated minimum in units of the scale lies in the range. -/
theorem zero_range (xs : List K) (hs : 0 < dynScale xs) :
    0 ≤ 0 - inputMin xs / dynScale xs ∧ 0 - inputMin xs / dynScale xs ≤ 255 := by
  have h1 := (inputMin_spec xs).2.1
  have h2 := (inputMax_spec xs).2.1
  have e := dynScale_eq xs
  constructor
  · have : inputMin xs / dynScale xs ≤ 0 := div_nonpos_of_nonpos_of_nonneg h1 hs.le
    linarith
  · have : -255 ≤ inputMin xs / dynScale xs := by
      rw [le_div_iff₀ hs, e]; linarith
    linarith

theorem dynZero_spec (xs : List K) (hs : 0 < dynScale xs) :
    ∃ z : ℤ, dynZero xs = (z : K) ∧ IsRoundEven (0 - inputMin xs / dynScale xs) z ∧ 0 ≤ z ∧ z ≤ 255 := by
  obtain ⟨h1, h2⟩ := zero_range xs hs
  have e : clipK ((qMin false : K) - inputMin xs / dynScale xs) (qMin false) (qMax false)
      = 0 - inputMin xs / dynScale xs := by
    simp only [qMin, qMax, Bool.false_eq_true, if_false]
    unfold clipK
    rw [max_eq_left h1, min_eq_left h2]
  obtain ⟨z, hz, hr⟩ := roundEven_spec (0 - inputMin xs / dynScale xs)
  refine ⟨z, ?_, hr, ?_, ?_⟩
  · unfold dynZero; rw [e]; exact hz
  · have := abs_le.1 hr.1
    have : (-1 : K) < z := by linarith [this.1, this.2]
    have : (-1 : ℤ) < z := by exact_mod_cast this
    omega
  · have := abs_le.1 hr.1
    have : (z : K) < 256 := by linarith [this.1, this.2]
    have : z < (256 : ℤ) := by exact_mod_cast this
    omega

/-- Quantising and dequantising with the parameters of DynamicQuantizeLinear moves an element by half a step at most. -/
theorem dyn_error (xs : List K) (hs : 0 < dynScale xs) (z : ℤ) (hz : IsRoundEven (0 - inputMin xs / dynScale xs) z)
    (x : K) (hx : x ∈ xs) (r : ℤ) (hr : IsRoundEven (x / dynScale xs) r) :
    |dequantize (dynScale xs) z (saturate false (r + z)) - x| ≤ dynScale xs / 2 := by
  set s := dynScale xs with hsd
  have e : s = (inputMax xs - inputMin xs) / 255 := dynScale_eq xs
  have lo := (inputMin_spec xs).2.2 x hx
  have hi := (inputMax_spec xs).2.2 x hx
  have q1 : inputMin xs / s ≤ x / s := div_le_div_of_nonneg_right lo hs.le
  have q2 : x / s ≤ inputMin xs / s + 255 := by
    rw [div_le_iff₀ hs, add_mul, div_mul_cancel₀ _ hs.ne']
    rw [e]; linarith
  have r1 := abs_le.1 hr.1
  have z1 := abs_le.1 hz.1
  set u := x / s with hu
  have xu : x = u * s := by rw [hu, div_mul_cancel₀ _ hs.ne']
  -- the rounded sum lies between -1 and 256
  have a1 : (-1 : K) ≤ ((r + z : ℤ) : K) := by push_cast; linarith [r1.1, r1.2, z1.1, z1.2]
  have a2 : ((r + z : ℤ) : K) ≤ 256 := by push_cast; linarith [r1.1, r1.2, z1.1, z1.2]
  have b1 : -1 ≤ r + z := by exact_mod_cast a1
  have b2 : r + z ≤ 256 := by exact_mod_cast a2
  suffices h : |(((saturate false (r + z) - z : ℤ) : K)) - u| ≤ 1 / 2 by
    have e2 : dequantize s z (saturate false (r + z)) - x = ((((saturate false (r + z) - z : ℤ) : K)) - u) * s := by
      unfold dequantize; rw [xu]; ring
    rw [e2, abs_mul, abs_of_pos hs]
    calc _ ≤ 1 / 2 * s := mul_le_mul_of_nonneg_right h hs.le
      _ = s / 2 := by ring
  have c : saturate false (r + z) = r + z ∨ (r + z = 256 ∧ saturate false (r + z) = 255) ∨
      (r + z = -1 ∧ saturate false (r + z) = 0) := by
    simp only [saturate, lo8, hi8, Bool.false_eq_true, if_false]
    omega
  rcases c with c | ⟨c, c'⟩ | ⟨c, c'⟩
  · rw [c]
    have : ((r + z - z : ℤ) : K) = r := by push_cast; ring
    rw [this, abs_sub_comm]
    exact hr.1
  · have cK : (r : K) + z = 256 := by exact_mod_cast c
    have : ((saturate false (r + z) - z : ℤ) : K) = r - 1 := by
      rw [c']; push_cast; linarith
    rw [this, abs_le]
    constructor <;> linarith [r1.1, r1.2, z1.1, z1.2]
  · have cK : (r : K) + z = -1 := by exact_mod_cast c
    have : ((saturate false (r + z) - z : ℤ) : K) = r + 1 := by
      rw [c']; push_cast; linarith
    rw [this, abs_le]
    constructor <;> linarith [r1.1, r1.2, z1.1, z1.2]

omit [FloorRing K] in
/-- Dequantising a quantised number gives it back up to half a step, when it is not saturated. -/
theorem static_error (s : K) (hs : 0 < s) (z r : ℤ) (x : K) (hr : IsRoundEven (x / s) r) :
    |dequantize s z (r + z) - x| ≤ s / 2 := by
  have e2 : dequantize s z (r + z) - x = ((r : K) - x / s) * s := by
    unfold dequantize
    rw [sub_mul, div_mul_cancel₀ _ hs.ne']; push_cast; ring
  rw [e2, abs_mul, abs_of_pos hs, abs_sub_comm]
  calc _ ≤ 1 / 2 * s := mul_le_mul_of_nonneg_right hr.1 hs.le
    _ = s / 2 := by ring

/-! ## Products -/

theorem ofInt32_sum (k : ℕ) (f : Fin k → ℤ) : BitVec.ofInt 32 (∑ l, f l) = ∑ l, BitVec.ofInt 32 (f l) := by
  induction k with
  | zero => simp
  | succ k ih => rw [Fin.sum_univ_succ, Fin.sum_univ_succ, BitVec.ofInt_add, ih]

theorem cast32_eq (s : Bool) (v : BitVec 8) : cast32 s v = BitVec.ofInt 32 (val8 s v) := by
  cases s
  · simp only [cast32, val8, Bool.false_eq_true, if_false]
    apply BitVec.eq_of_toNat_eq
    simp
  · simp only [cast32, val8, if_true]
    rfl

theorem sub32 (a b : ℤ) : BitVec.ofInt 32 a - BitVec.ofInt 32 b = BitVec.ofInt 32 (a - b) := by
  rw [Int.sub_eq_add_neg, BitVec.ofInt_add, BitVec.ofInt_neg, BitVec.sub_eq_add_neg]

theorem matmul32_eq (k : ℕ) (a b : ℕ → ℕ → ℤ) (i j : ℕ) :
    matmul32 k (fun i l => BitVec.ofInt 32 (a i l)) (fun l j => BitVec.ofInt 32 (b l j)) i j
      = BitVec.ofInt 32 (∑ l : Fin k, a i l * b l j) := by
  unfold matmul32
  rw [ofInt32_sum]
  exact Finset.sum_congr rfl fun l _ => (BitVec.ofInt_mul ..).symm

/-- A parameter of vectors of one element stands for a single row or column. -/
theorem read_rows {α : Type} (m : ℕ) (z : Par α) (hz : z.Fits m) (i l : ℕ) (hi : i < m) :
    (unsqueezeRows z.toT2).read i l = z.get i := by
  cases z with
  | scalar v => rfl
  | each n f =>
    simp only [Par.Fits] at hz
    subst hz
    simp only [Par.toT2, unsqueezeRows, Par.get]
    by_cases h : n = 1
    · subst h
      have : i = 0 := by omega
      subst this
      simp [T2.read]
    · rw [if_pos h]; simp [T2.read, h]

theorem read_cols {α : Type} (n : ℕ) (z : Par α) (hz : z.Fits n) (l j : ℕ) (hj : j < n) :
    z.toT2.read l j = z.get j := by
  cases z with
  | scalar v => rfl
  | each m f =>
    simp only [Par.Fits] at hz
    subst hz
    simp only [Par.toT2, Par.get, T2.read]
    by_cases h : m = 1
    · subst h
      have : j = 0 := by omega
      subst this
      simp
    · simp [h]

/-- A map over a parameter. -/
def Par.map {α β : Type} (g : α → β) : Par α → Par β
  | .scalar v => .scalar (g v)
  | .each n f => .each n fun i => g (f i)

theorem Par.get_map {α β : Type} (g : α → β) (p : Par α) (i : ℕ) : (p.map g).get i = g (p.get i) := by
  cases p <;> rfl

theorem getOrCast_val (s : Bool) (v : BitVec 8) : val8 true (getOrCastToI8 s v) = val8 s v - (if s then 0 else 128) := by
  have h : ∀ v : BitVec 8, (((v.setWidth 16) - 128#16).setWidth 8).toInt = (v.toNat : ℤ) - 128 := by decide +kernel
  cases s
  · simpa [getOrCastToI8, val8] using h v
  · simp [getOrCastToI8, val8]

theorem getOrCast_diff (s : Bool) (v w : BitVec 8) :
    cast32 true (getOrCastToI8 s v) - cast32 true (getOrCastToI8 s w) = BitVec.ofInt 32 (val8 s v - val8 s w) := by
  rw [cast32_eq, cast32_eq, sub32, getOrCast_val, getOrCast_val]
  congr 1; ring

theorem val8_bound (s : Bool) (v : BitVec 8) : lo8 s ≤ val8 s v ∧ val8 s v ≤ hi8 s := by
  cases s
  · have := v.isLt
    simp only [val8, lo8, hi8, Bool.false_eq_true, if_false]
    omega
  · have h1 := BitVec.toInt_lt (x := v)
    have h2 := BitVec.le_toInt v
    simp only [val8, lo8, hi8, if_true]
    norm_num at h1 h2
    omega

theorem diff_bound (s : Bool) (v w : BitVec 8) : |val8 s v - val8 s w| ≤ 255 := by
  have h1 := val8_bound s v
  have h2 := val8_bound s w
  rw [abs_le]
  cases s <;> simp only [lo8, hi8, Bool.false_eq_true, if_false, if_true] at h1 h2 <;> omega

theorem accumulate_bound (sA sB : Bool) (k : ℕ) (a b : ℕ → ℕ → BitVec 8) (za zb : Par (BitVec 8)) (i j : ℕ) :
    |accumulate k (fun i l => val8 sA (a i l)) (fun l j => val8 sB (b l j)) (za.map (val8 sA)) (zb.map (val8 sB)) i j|
      ≤ k * 65025 := by
  unfold accumulate
  calc _ ≤ ∑ l : Fin k, |(val8 sA (a i l) - (za.map (val8 sA)).get i) * (val8 sB (b l j) - (zb.map (val8 sB)).get j)| :=
        Finset.abs_sum_le_sum_abs _ _
    _ ≤ ∑ _l : Fin k, (65025 : ℤ) := by
        refine Finset.sum_le_sum fun l _ => ?_
        rw [abs_mul, Par.get_map, Par.get_map]
        calc _ ≤ (255 : ℤ) * 255 := mul_le_mul (diff_bound _ _ _) (diff_bound _ _ _) (abs_nonneg _) (by norm_num)
          _ = 65025 := by norm_num
    _ = k * 65025 := by simp

end Verif.Quant
