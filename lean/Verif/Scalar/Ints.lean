import Verif.Scalar.Finite
import Verif.Quant.Lemmas

/-! # Integers, strings, Round and operators with several operands -/

namespace Verif.Scalar
open Classical Num

section
variable {w : ℕ}

theorem toInt_add_opposite (r b : BitVec w)
    (h : (0 ≤ r.toInt ∧ b.toInt ≤ 0) ∨ (r.toInt ≤ 0 ∧ 0 ≤ b.toInt)) :
    (r + b).toInt = r.toInt + b.toInt := by
  have h1 := BitVec.two_mul_toInt_lt (x := r)
  have h2 := BitVec.le_two_mul_toInt (x := r)
  have h3 := BitVec.two_mul_toInt_lt (x := b)
  have h4 := BitVec.le_two_mul_toInt (x := b)
  rw [BitVec.toInt_add, Int.bmod_eq_of_le_mul_two]
  · push_cast; omega
  · push_cast; omega

theorem toInt_eq_zero (b : BitVec w) : b = 0 ↔ b.toInt = 0 := by
  rw [← BitVec.toInt_inj]; simp

theorem emitMod_eq (fmod : Bool) (a b : BitVec w)
    (h : ¬ (b = 0 ∨ (a = BitVec.intMin w ∧ b = -1))) :
    ∃ r, emitMod fmod a b = some r ∧ r.toInt = a.toInt.fmod b.toInt := by
  refine ⟨_, by simp only [emitMod, remSI, if_neg h, Option.map_some]; rfl, ?_⟩
  have hb : b.toInt ≠ 0 := fun e => h (.inl ((toInt_eq_zero b).2 e))
  have hr := BitVec.toInt_srem a b
  have hz : (a.srem b == 0) = decide (b.toInt ∣ a.toInt) := by
    rw [Bool.eq_iff_iff, beq_iff_eq, toInt_eq_zero, hr, decide_eq_true_eq,
      Int.dvd_iff_tmod_eq_zero]
  have s1 : a.slt 0 = decide (a.toInt < 0) := by rw [BitVec.slt_eq_decide]; simp
  have s2 : b.slt 0 = decide (b.toInt < 0) := by rw [BitVec.slt_eq_decide]; simp
  rw [hz, s1, s2, Int.fmod_eq_tmod, select]
  by_cases hd : b.toInt ∣ a.toInt
  · simp [hd, hr]
  by_cases ha : 0 ≤ a.toInt <;> by_cases hb0 : 0 ≤ b.toInt
  · simp [hd, ha, hb0, not_lt.2 ha, not_lt.2 hb0, hr]
  · simp only [hd, ha, hb0, not_lt.2 ha, not_le.1 hb0]
    simp only [decide_false, decide_true, if_true, if_false]
    rw [if_pos (by decide), toInt_add_opposite, hr]
    left
    rw [hr]
    exact ⟨Int.tmod_nonneg _ ha, (not_le.1 hb0).le⟩
  · simp only [hd, ha, hb0, not_lt.2 hb0, not_le.1 ha]
    simp only [decide_false, decide_true, if_true, if_false]
    rw [if_pos (by decide), toInt_add_opposite, hr, Int.natAbs_of_nonneg hb0]
    right
    rw [hr]
    refine ⟨?_, hb0⟩
    have := Int.tmod_nonneg b.toInt (a := -a.toInt) (by omega)
    rw [Int.neg_tmod] at this
    omega
  · simp [hd, ha, hb0, not_le.1 ha, not_le.1 hb0, hr]
    omega

theorem emitDiv_eq (a b : BitVec w) (h : ¬ (b = 0 ∨ (a = BitVec.intMin w ∧ b = -1))) :
    ∃ r, emitDiv a b = some r ∧ r.toInt = a.toInt.tdiv b.toInt := by
  refine ⟨_, by rw [emitDiv, if_neg h], ?_⟩
  refine BitVec.toInt_sdiv_of_ne_or_ne a b ?_
  by_contra hc
  rw [not_or, not_not, not_not] at hc
  exact h (.inr ⟨hc.1, by rw [hc.2]; rfl⟩)

theorem toInt_maxSI (a b : BitVec w) : (maxSI a b).toInt = max a.toInt b.toInt := by
  unfold maxSI
  by_cases h : a.toInt < b.toInt
  · rw [if_pos (BitVec.slt_iff_toInt_lt.2 h), max_eq_right h.le]
  · rw [if_neg (fun e => h (BitVec.slt_iff_toInt_lt.1 e)), max_eq_left (not_lt.1 h)]

theorem toInt_minSI (a b : BitVec w) : (minSI a b).toInt = min a.toInt b.toInt := by
  unfold minSI
  by_cases h : b.toInt < a.toInt
  · rw [if_pos (BitVec.slt_iff_toInt_lt.2 h), min_eq_right h.le]
  · rw [if_neg (fun e => h (BitVec.slt_iff_toInt_lt.1 e)), min_eq_left (not_lt.1 h)]

theorem toInt_emitNeg (x : BitVec w) (h : x ≠ BitVec.intMin w) :
    (emitNeg x).toInt = -x.toInt := by
  rw [emitNeg]
  have : (0 : BitVec w) - x = -x := by simp
  rw [this, BitVec.toInt_neg_of_ne_intMin h]

theorem toInt_emitAbs (x : BitVec w) (h : x ≠ BitVec.intMin w) :
    (emitAbs x).toInt = |x.toInt| := by
  unfold emitAbs
  have s : x.slt 0 = decide (x.toInt < 0) := by rw [BitVec.slt_eq_decide]; simp
  rw [s]
  by_cases hx : x.toInt < 0
  · rw [if_pos (decide_eq_true hx), BitVec.toInt_neg_of_ne_intMin h, abs_of_neg hx]
  · rw [if_neg (by simpa using hx), abs_of_nonneg (not_lt.1 hx)]

theorem toInt_emitSign (hw : 1 < w) (x : BitVec w) : (emitSignI x).toInt = x.toInt.sign := by
  have s : BitVec.slt 0 x = decide (0 < x.toInt) := by rw [BitVec.slt_eq_decide]; simp
  have z : (x == 0) = decide (x.toInt = 0) := by
    rw [Bool.eq_iff_iff, beq_iff_eq, toInt_eq_zero, decide_eq_true_eq]
  have one : (1 : BitVec w).toInt = 1 := BitVec.toInt_one hw
  have none : (1 : BitVec w) ≠ BitVec.intMin w := by
    intro e
    have := congrArg BitVec.toInt e
    rw [one, BitVec.toInt_intMin] at this
    omega
  unfold emitSignI select
  rw [s, z]
  rcases lt_trichotomy x.toInt 0 with h | h | h
  · rw [Int.sign_eq_neg_one_of_neg h]
    simp only [h.ne, not_lt.2 h.le, decide_false]
    rw [if_neg (by simp), if_neg (by simp), BitVec.toInt_neg_of_ne_intMin none, one]
  · simp [h]
  · rw [Int.sign_eq_one_of_pos h]
    simp [h.ne', h]
    exact one

theorem emitBitwiseNot_eq (x : BitVec w) : emitBitwiseNot x = ~~~x := by
  have e : BitVec.ofInt w (-1) = BitVec.allOnes w := by
    rw [BitVec.ofInt_neg, ← BitVec.neg_one_eq_allOnes]
    rfl
  rw [emitBitwiseNot, e, BitVec.xor_allOnes]

end

/-! ## Strings -/

theorem strncmpEq_length : ∀ a b : List ℕ, strncmpEq a.length a b = true ↔ a <+: b
  | [], b => by simp [strncmpEq]
  | x :: a, [] => by simp [strncmpEq]
  | x :: a, y :: b => by
    simp only [List.length_cons, strncmpEq, Bool.and_eq_true, beq_iff_eq, List.cons_prefix_cons,
      strncmpEq_length a b]

/-! ## Round -/

theorem emitRound_fin (x : ℝ) : emitRound fin (fin x) = fin (Quant.roundEven x) := by
  simp only [emitRound, floor_fin, sub_fin, mul_fin, add_fin, sgt_fin, oeq_fin, select_fin,
    decide_eq_true_eq, Quant.roundEven, gt_iff_lt]

theorem emitRound_pinf (rnd : ℝ → Num) : emitRound rnd pinf = pinf := by
  simp [emitRound, floor, sub, addX, Scalar.neg, rounded, sgt, olt, select, oeq]

theorem emitRound_ninf (rnd : ℝ → Num) : emitRound rnd ninf = ninf := by
  simp [emitRound, floor, sub, addX, Scalar.neg, rounded, sgt, olt, select, oeq]

theorem emitRound_nan (rnd : ℝ → Num) : emitRound rnd nan = nan := by
  simp [emitRound, floor, sub, addX, rounded, sgt, olt, select, oeq]

/-! ## Operators with several operands -/

theorem foldl_fin {op : Num → Num → Num} {g : ℝ → ℝ → ℝ}
    (h : ∀ a b, op (fin a) (fin b) = fin (g a b)) :
    ∀ (xs : List ℝ) (x : ℝ), (xs.map fin).foldl op (fin x) = fin (xs.foldl g x)
  | [], _ => rfl
  | y :: ys, x => by
    simp only [List.map_cons, List.foldl_cons, h]
    exact foldl_fin h ys _

theorem foldl_add_sum : ∀ (xs : List ℝ) (x : ℝ), xs.foldl (· + ·) x = x + xs.sum
  | [], x => by simp
  | y :: ys, x => by
    rw [List.foldl_cons, foldl_add_sum ys, List.sum_cons]; ring

theorem foldl_max : ∀ (xs : List ℝ) (x : ℝ),
    xs.foldl max x ∈ x :: xs ∧ ∀ y ∈ x :: xs, y ≤ xs.foldl max x
  | [], x => by simp
  | y :: ys, x => by
    obtain ⟨h1, h2⟩ := foldl_max ys (max x y)
    rw [List.foldl_cons]
    refine ⟨?_, ?_⟩
    · rcases List.mem_cons.1 h1 with h | h
      · rw [h]
        rcases max_choice x y with e | e <;> rw [e] <;> simp
      · exact List.mem_cons_of_mem _ (List.mem_cons_of_mem _ h)
    · intro z hz
      have hm := h2 _ List.mem_cons_self
      rcases List.mem_cons.1 hz with rfl | hz
      · exact (le_max_left _ _).trans hm
      rcases List.mem_cons.1 hz with rfl | hz
      · exact (le_max_right _ _).trans hm
      · exact h2 _ (List.mem_cons_of_mem _ hz)

theorem foldl_min : ∀ (xs : List ℝ) (x : ℝ),
    xs.foldl min x ∈ x :: xs ∧ ∀ y ∈ x :: xs, xs.foldl min x ≤ y
  | [], x => by simp
  | y :: ys, x => by
    obtain ⟨h1, h2⟩ := foldl_min ys (min x y)
    rw [List.foldl_cons]
    refine ⟨?_, ?_⟩
    · rcases List.mem_cons.1 h1 with h | h
      · rw [h]
        rcases min_choice x y with e | e <;> rw [e] <;> simp
      · exact List.mem_cons_of_mem _ (List.mem_cons_of_mem _ h)
    · intro z hz
      have hm := h2 _ List.mem_cons_self
      rcases List.mem_cons.1 hz with rfl | hz
      · exact hm.trans (min_le_left _ _)
      rcases List.mem_cons.1 hz with rfl | hz
      · exact hm.trans (min_le_right _ _)
      · exact h2 _ (List.mem_cons_of_mem _ hz)

end Verif.Scalar
