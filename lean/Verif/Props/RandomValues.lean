import Verif.Random.Spec
import Mathlib.Analysis.Real.Pi.Bounds
import Mathlib.Tactic.Linarith
import Mathlib.Tactic.NormNum
import Mathlib.Tactic.Ring
import Mathlib.Tactic.Positivity

/-!
# C120: random values
-/

namespace Verif.Props

open Verif.Random

theorem toF32_le {n m : ℕ} (hm : 23 ≤ m) (h : n < 2 ^ m) : toF32 n ≤ 2 ^ m := by
  unfold toF32
  simp only
  by_cases h0 : n = 0
  · subst h0; simp
  · have h1 : n < 2 ^ (n.log2 + 1) := Nat.lt_log2_self
    have h2 : n.log2 < m := (Nat.log2_lt h0).2 h
    have h3 : n.log2 + 1 ≤ 24 + (n.log2 - 23) := by omega
    have h4 : n / 2 ^ (n.log2 - 23) < 2 ^ 24 := by
      rw [Nat.div_lt_iff_lt_mul (by positivity), ← pow_add]
      exact lt_of_lt_of_le h1 (Nat.pow_le_pow_right (by norm_num) h3)
    have key : (n / 2 ^ (n.log2 - 23) + 1) * 2 ^ (n.log2 - 23) ≤ 2 ^ m := by
      by_cases h5 : 23 ≤ n.log2
      · calc _ ≤ 2 ^ 24 * 2 ^ (n.log2 - 23) := Nat.mul_le_mul_right _ h4
          _ = 2 ^ (24 + (n.log2 - 23)) := (pow_add _ _ _).symm
          _ ≤ 2 ^ m := Nat.pow_le_pow_right (by norm_num) (by omega)
      · have : n.log2 - 23 = 0 := by omega
        rw [this]; simp; exact h
    have key2 : n / 2 ^ (n.log2 - 23) * 2 ^ (n.log2 - 23) ≤ 2 ^ m := le_trans (Nat.mul_le_mul_right _ (Nat.le_succ _)) key
    split
    · exact key2
    · split
      · split
        · exact key2
        · exact key
      · exact key

theorem toF32_max : toF32 (toF32 randMax + 1) = 2147483648 := by decide +kernel

theorem uniformLoop_forall (g : Gen) (t : Elt) (low high : ℝ) (P : ℝ → Prop) (h : ∀ k ≤ randMax, P (uniformValue t low high k)) :
    ∀ (n : ℕ) (s : g.State), (uniformLoop g t low high n s).1.length = n ∧ ∀ x ∈ (uniformLoop g t low high n s).1, P x
  | 0, s => by simp [uniformLoop]
  | n + 1, s => by
    have ih := uniformLoop_forall g t low high P h n (g.rand s).2
    simp only [uniformLoop, List.length_cons, List.mem_cons]
    refine ⟨by rw [ih.1], ?_⟩
    rintro x (rfl | hx)
    · exact h _ (g.bound s)
    · exact ih.2 x hx

/-- RandomUniform stores one value for each element, between the bounds, for every generator. -/
theorem C120_uniform_partial (g : Gen) (t : Elt) (n : ℕ) (low high : ℝ) (hlh : low ≤ high) (seed : ℕ) (s : g.State) :
    (runUniform g t n low high seed s).1.length = n ∧
    ∀ x ∈ (runUniform g t n low high seed s).1, low ≤ x ∧ x ≤ high := by
  apply uniformLoop_forall g t low high (fun x => low ≤ x ∧ x ≤ high)
  intro k hk
  have key : ∀ r : ℝ, 0 ≤ r → r ≤ 1 → low ≤ low + r * (high - low) ∧ low + r * (high - low) ≤ high := by
    intro r h0 h1
    have h2 : 0 ≤ high - low := by linarith
    have h3 : 0 ≤ r * (high - low) := mul_nonneg h0 h2
    have h4 : r * (high - low) ≤ 1 * (high - low) := mul_le_mul_of_nonneg_right h1 h2
    constructor <;> linarith
  cases t with
  | f32 =>
    simp only [uniformValue]
    rw [toF32_max]
    apply key
    · positivity
    · rw [div_le_one (by norm_num)]
      have : toF32 k ≤ 2 ^ 31 := toF32_le (by norm_num) (by unfold randMax at hk; omega)
      exact_mod_cast this
  | f64 =>
    simp only [uniformValue]
    apply key
    · positivity
    · rw [div_le_one (by positivity)]
      have : (k : ℝ) ≤ (randMax : ℝ) := by exact_mod_cast hk
      linarith

/-- For float64 the upper bound is never reached. -/
theorem C120_below_f64_partial (g : Gen) (n : ℕ) (low high : ℝ) (hlh : low < high) (seed : ℕ) (s : g.State) :
    ∀ x ∈ (runUniform g .f64 n low high seed s).1, x < high := by
  apply (uniformLoop_forall g .f64 low high (fun x => x < high) ?_ n _).2
  intro k hk
  simp only [uniformValue]
  have h1 : (k : ℝ) ≤ (randMax : ℝ) := by exact_mod_cast hk
  have h2 : (k : ℝ) / ((randMax : ℝ) + 1) < 1 := by
    rw [div_lt_one (by positivity)]; linarith
  have h3 : (k : ℝ) / ((randMax : ℝ) + 1) * (high - low) < 1 * (high - low) := mul_lt_mul_of_pos_right h2 (by linarith)
  linarith

/-- For float32 it is reached: 64 of the numbers that the library can return are rounded up to the divisor. -/
theorem C120_below_f32_false (low high : ℝ) (k : ℕ) (h1 : 2147483584 ≤ k) (h2 : k ≤ randMax) :
    uniformValue .f32 low high k = high := by
  have : toF32 k = 2147483648 := by
    have hl : k.log2 = 30 := by
      have hk : k ≠ 0 := by omega
      have a : k.log2 < 31 := (Nat.log2_lt hk).2 (by unfold randMax at h2; omega)
      have b : 30 ≤ k.log2 := (Nat.le_log2 hk).2 (by omega)
      omega
    unfold toF32
    simp only [hl]
    unfold randMax at h2
    have q : k / 2 ^ (30 - 23) = 16777215 := by norm_num; omega
    have r : k % 2 ^ (30 - 23) = k - 2147483520 := by norm_num; omega
    rw [q, r]
    norm_num
    omega
  simp only [uniformValue]
  rw [toF32_max, this]
  norm_num

theorem unit_bounds {k : ℕ} (h : k ≤ randMax) : 1 / 2147483648 ≤ unit k ∧ unit k ≤ 1 := by
  unfold unit
  have h1 : (k : ℝ) ≤ (randMax : ℝ) := by exact_mod_cast h
  have h2 : ((randMax : ℝ) + 1) = 2147483648 := by unfold randMax; norm_num
  have h3 : (0 : ℝ) ≤ (k : ℝ) := Nat.cast_nonneg k
  constructor
  · rw [h2]; apply div_le_div_of_nonneg_right _ (by norm_num); linarith
  · rw [div_le_one (by positivity)]; linarith

theorem normalValue_bound {u1 : ℝ} (u2 : ℝ) (h1 : 1 / 2147483648 ≤ u1) (h2 : u1 ≤ 1) :
    ∃ x, normalValue u1 u2 = some x ∧ |x| ≤ maxNormal := by
  have h0 : 0 < u1 := lt_of_lt_of_le (by norm_num) h1
  have hl : Real.log u1 ≤ 0 := Real.log_nonpos h0.le h2
  have hl2 : -(31 * Real.log 2) ≤ Real.log u1 := by
    have : Real.log (1 / 2147483648) = -(31 * Real.log 2) := by
      rw [one_div, Real.log_inv, show (2147483648 : ℝ) = 2 ^ 31 by norm_num, Real.log_pow]
      norm_num
    rw [← this]
    exact Real.log_le_log (by norm_num) h1
  refine ⟨Real.cos (2 * 3.14159 * u2) * Real.sqrt (-2.0 * Real.log u1), ?_, ?_⟩
  · unfold normalValue
    rw [if_neg (not_le.2 h0), if_neg (by norm_num; linarith)]
  · rw [abs_mul, abs_of_nonneg (Real.sqrt_nonneg _)]
    have h3 : Real.sqrt (-2.0 * Real.log u1) ≤ maxNormal := by
      unfold maxNormal
      apply Real.sqrt_le_sqrt
      norm_num
      linarith
    calc _ ≤ 1 * Real.sqrt (-2.0 * Real.log u1) := mul_le_mul_of_nonneg_right (Real.abs_cos_le_one _) (Real.sqrt_nonneg _)
      _ ≤ maxNormal := by rw [one_mul]; exact h3

theorem normalLoop_bound (g : Gen) (mean scale : ℝ) : ∀ (n : ℕ) (s : g.State),
    (normalLoop g mean scale n s).1.length = n ∧
    ∀ o ∈ (normalLoop g mean scale n s).1, ∃ x, o = some x ∧ |x - mean| ≤ |scale| * maxNormal
  | 0, s => by simp [normalLoop]
  | n + 1, s => by
    have ih := normalLoop_bound g mean scale n (g.rand (g.rand s).2).2
    simp only [normalLoop, List.length_cons, List.mem_cons]
    refine ⟨by rw [ih.1], ?_⟩
    rintro o (rfl | ho)
    · obtain ⟨b1, b2⟩ := unit_bounds (g.bound s)
      obtain ⟨x, h1, h2⟩ := normalValue_bound (unit (g.rand (g.rand s).2).1) b1 b2
      refine ⟨x * scale + mean, by rw [h1]; rfl, ?_⟩
      rw [add_sub_cancel_right, abs_mul, mul_comm]
      exact mul_le_mul_of_nonneg_left h2 (abs_nonneg _)
    · exact ih.2 o ho

/-- RandomNormal stores one value for each element; all are numbers, and none is further than 6.56 times the scale from the mean,
for every generator. -/
theorem C120_normal_partial (g : Gen) (t : Elt) (n : ℕ) (mean scale : ℝ) (seed : ℕ) (s : g.State) :
    (runNormal g t n mean scale seed s).1.length = n ∧
    ∀ o ∈ (runNormal g t n mean scale seed s).1, ∃ x, o = some x ∧ |x - mean| ≤ |scale| * maxNormal := by
  cases t with
  | f32 => exact normalLoop_bound g mean scale n _
  | f64 => exact normalLoop_bound g mean scale n _

/-- The values depend on the seed and not on what ran before. -/
theorem C120_seed_partial (g : Gen) (n : ℕ) (a b : ℝ) (seed : ℕ) (s s' : g.State) :
    (∀ t, runUniform g t n a b seed s = runUniform g t n a b seed s') ∧
    runNormal g .f32 n a b seed s = runNormal g .f32 n a b seed s' :=
  ⟨fun _ => rfl, rfl⟩

/-- This is false of RandomNormal for float64, which does not use its seed: two runs with the same seed differ. -/
theorem C120_seed_false : ∃ (g : Gen) (s s' : g.State),
    runNormal g .f64 1 0 1 7 s ≠ runNormal g .f64 1 0 1 7 s' := by
  refine ⟨constGen, (randMax : ℕ), (0 : ℕ), ?_⟩
  intro h
  have h1 := congrArg Prod.fst h
  have u1 : unit randMax = 1 := by unfold unit randMax; norm_num
  have u0 : unit 0 = 1 / 2147483648 := by unfold unit randMax; norm_num
  obtain ⟨b1, b2⟩ := unit_bounds (k := 0) (by decide)
  have e0 : ¬ unit 0 ≤ 0 := by rw [u0]; norm_num
  have hl : Real.log (unit 0) < 0 := Real.log_neg (by rw [u0]; norm_num) (by rw [u0]; norm_num)
  have e1 : ¬ (-2.0 * Real.log (unit 0) < 0) := by norm_num; linarith
  have hpos : 0 < Real.sqrt (-2.0 * Real.log (unit 0)) := Real.sqrt_pos.2 (by norm_num; linarith)
  have hcos : 0 < Real.cos (2 * 3.14159 * unit 0) := by
    apply Real.cos_pos_of_mem_Ioo
    have := Real.pi_gt_three
    rw [u0]
    constructor
    · norm_num; linarith
    · norm_num; linarith
  have a1 : (runNormal constGen .f64 1 0 1 7 (randMax : ℕ)).1 = [some 0] := by
    simp [runNormal, normalLoop, constGen, u1, normalValue]
  have a0 : (runNormal constGen .f64 1 0 1 7 (0 : ℕ)).1 =
      [some (Real.cos (2 * 3.14159 * unit 0) * Real.sqrt (-2.0 * Real.log (unit 0)))] := by
    simp only [runNormal, normalLoop, constGen, Nat.zero_min, normalValue, e0, e1, if_false, Option.map_some, mul_one, add_zero]
  rw [a1, a0] at h1
  simp only [List.cons.injEq, Option.some.injEq, and_true] at h1
  exact absurd h1.symm (mul_pos hcos hpos).ne'

/-- Values of different operations should be unrelated. Without seeds, two operations that are compiled in the same second get the
same seed, and for float32 the second returns the values of the first. -/
theorem C120_nodes_false (g : Gen) (time n : ℕ) (a b : ℝ) (s : g.State) :
    let seed := seedFor g time none
    let (l1, s1) := runUniform g .f32 n a b seed s
    let (l2, _) := runUniform g .f32 n a b seed s1
    let (m1, s2) := runNormal g .f32 n a b seed s
    let (m2, _) := runNormal g .f32 n a b seed s2
    l1 = l2 ∧ m1 = m2 := ⟨rfl, rfl⟩

theorem dynCount_eq : ∀ (ty : Dims) (actual : List ℕ) (n : ℕ), Agree ty actual → dynCount ty actual n * staticCount ty = n * actual.prod
  | [], [], n, _ => by simp [dynCount, staticCount]
  | [], _ :: _, _, h => by simp [Agree] at h
  | some _ :: _, [], _, h => by simp [Agree] at h
  | none :: _, [], _, h => by simp [Agree] at h
  | some d :: ds, x :: xs, n, h => by
    obtain ⟨rfl, h⟩ := h
    have ih := dynCount_eq ds xs n h
    simp only [dynCount, staticCount, List.prod_cons]
    calc _ = d * (dynCount ds xs n * staticCount ds) := by ring
      _ = _ := by rw [ih]; ring
  | none :: ds, x :: xs, n, h => by
    have ih := dynCount_eq ds xs (n * x) h
    simp only [dynCount, staticCount, List.prod_cons]
    rw [ih]; ring

theorem dynCount_mul : ∀ (ty : Dims) (actual : List ℕ) (n : ℕ), dynCount ty actual n = n * dynCount ty actual 1
  | [], _, n => by simp [dynCount]
  | some _ :: _, [], n => by simp [dynCount]
  | none :: _, [], n => by simp [dynCount]
  | some _ :: ds, _ :: xs, n => by simp only [dynCount]; exact dynCount_mul ds xs n
  | none :: ds, x :: xs, n => by
    simp only [dynCount]
    rw [dynCount_mul ds xs (n * x), dynCount_mul ds xs (1 * x)]; ring

/-- RandomNormalLike stores as many values as its buffer has elements, with all kinds of dimensions. -/
theorem C120_count (ty : Dims) (actual : List ℕ) (h : Agree ty actual) : normalCount ty actual = actual.prod := by
  unfold normalCount
  rw [dynCount_mul]
  have := dynCount_eq ty actual 1 h
  rw [one_mul] at this
  rw [← this]; ring

/-- RandomUniformLike cannot be compiled for an input with a dimension that is not known at compile time. -/
theorem C120_uniform_like_false (ty : Dims) (h : none ∈ ty) : uniformAlloc ty = none := by
  unfold uniformAlloc
  rw [if_neg]
  intro h1
  have := List.all_eq_true.1 h1 _ h
  cases this

example : Agree [some 2, none, some 3] [2, 5, 3] ∧ normalCount [some 2, none, some 3] [2, 5, 3] = 30 := by
  simp [Agree, normalCount, dynCount, staticCount]

example : (runUniform constGen .f64 2 0 1 1073741824 (0 : ℕ)).1 = [1 / 2, 1 / 2] := by
  simp only [runUniform, uniformLoop, uniformValue, constGen, randMax]
  norm_num

end Verif.Props
