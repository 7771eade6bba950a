import Verif.GridSample.Model
import Verif.Quant.Lemmas

/-! # Lemmas on GridSample -/

namespace Verif.GridSample

open Verif.Quant

variable {K : Type} [Field K] [LinearOrder K] [IsStrictOrderedRing K] [FloorRing K]

omit [LinearOrder K] [IsStrictOrderedRing K] [FloorRing K] in
theorem transform_eq (g : K) (n : ℕ) (al : Bool) : transformCoordinate g n al = denormalize al n g := by
  cases al
  · rfl
  · simp only [transformCoordinate, denormalize, if_true]; ring

theorem rint_spec (x : K) : IsRoundEven x (rint x) := by
  have h0 : (⌊x + 1 / 2⌋ : K) ≤ x + 1 / 2 := Int.floor_le _
  have h1 : x + 1 / 2 < (⌊x + 1 / 2⌋ : K) + 1 := Int.lt_floor_add_one _
  unfold rint
  by_cases h : x + 1 / 2 = ⌊x + 1 / 2⌋ ∧ ⌊x + 1 / 2⌋ % 2 = 1
  · rw [if_pos h]
    obtain ⟨e, o⟩ := h
    constructor
    · rw [abs_le]; push_cast; constructor <;> linarith
    · intro _; exact ⟨(⌊x + 1 / 2⌋ - 1) / 2, by omega⟩
  · rw [if_neg h]
    constructor
    · rw [abs_le]; constructor <;> linarith
    · intro ha
      have hle : x - ⌊x + 1 / 2⌋ = 1 / 2 ∨ x - ⌊x + 1 / 2⌋ = -(1 / 2) := by
        rcases abs_eq (by norm_num : (0 : K) ≤ 1 / 2) |>.1 ha with h | h
        · exact Or.inl h
        · exact Or.inr h
      rcases hle with hle | hle
      · linarith
      · have : x + 1 / 2 = ⌊x + 1 / 2⌋ := by linarith
        have ho : ¬ ⌊x + 1 / 2⌋ % 2 = 1 := fun o => h ⟨this, o⟩
        exact ⟨⌊x + 1 / 2⌋ / 2, by omega⟩

theorem roundEven_rint (x : K) : roundEven x = (rint x : K) := roundEven_iff.1 (rint_spec x)

omit [FloorRing K] in
theorem isInBounds_cast (a : ℤ) (n : ℕ) : isInBounds (a : K) n = decide (0 ≤ a ∧ a < n) := by
  unfold isInBounds
  rw [← Bool.decide_and, decide_eq_decide]
  have e : (a : K) ≤ (n : K) - 1 ↔ a < n := by
    have : ((n : K) - 1) = ((n - 1 : ℤ) : K) := by push_cast; rfl
    rw [this, Int.cast_le]; omega
  rw [e, Int.cast_nonneg_iff]

omit [FloorRing K] in
theorem clamp_cast (a : ℤ) (n : ℕ) (hn : 0 < n) : min (max (a : K) 0) ((n : K) - 1) = (clampZ n a : ℤ) := by
  have e : ((n : K) - 1) = ((n - 1 : ℤ) : K) := by push_cast; rfl
  rw [e, ← Int.cast_zero, ← Int.cast_max, ← Int.cast_min]
  congr 1
  unfold clampZ
  omega

omit [LinearOrder K] [IsStrictOrderedRing K] [FloorRing K] in
theorem pixel_zeros2 [DecidableEq K] (H W : ℕ) (img : List ℤ → K) (y x : ℤ) :
    pixel .zeros [H, W] img [y, x] = if (0 ≤ x ∧ x < W) ∧ (0 ≤ y ∧ y < H) then img [y, x] else 0 := by
  simp only [pixel, List.forall₂_cons, List.Forall₂.nil, and_true]
  congr 1
  simp [and_comm]

omit [LinearOrder K] [IsStrictOrderedRing K] [FloorRing K] in
theorem pixel_zeros3 (D H W : ℕ) (img : List ℤ → K) (z y x : ℤ) :
    pixel .zeros [D, H, W] img [z, y, x]
      = if ((0 ≤ x ∧ x < W) ∧ (0 ≤ y ∧ y < H)) ∧ (0 ≤ z ∧ z < D) then img [z, y, x] else 0 := by
  simp only [pixel, List.forall₂_cons, List.Forall₂.nil, and_true]
  congr 1
  apply propext
  tauto

/-- Border padding needs elements. -/
def Nonempty (p : Padding) (dims : List ℕ) : Prop := p = .border → ∀ n ∈ dims, 0 < n

theorem load_eq (input : List ℤ → K) (n c : ℤ) (y x : ℤ) (H W : ℕ) (p : Padding) (hp : Nonempty p [H, W]) :
    (loadWithPadding input [n, c] (y : K) (x : K) H W p).1 = pixel p [H, W] (fun ix => input (n :: c :: ix)) [y, x] := by
  cases p with
  | border =>
    have hH := hp rfl H (by simp)
    have hW := hp rfl W (by simp)
    simp only [loadWithPadding, clamp_cast _ _ hH, clamp_cast _ _ hW, fpToInt_cast, pixel]
    simp
  | zeros =>
    rw [pixel_zeros2]
    simp only [loadWithPadding, isInBounds_cast, fpToInt_cast, ← Bool.decide_and, decide_eq_true_eq]
    simp

theorem load3_eq (input : List ℤ → K) (n c : ℤ) (z y x : ℤ) (D H W : ℕ) (p : Padding) (hp : Nonempty p [D, H, W]) :
    (loadWithPadding3D input [n, c] (z : K) (y : K) (x : K) D H W p).1
      = pixel p [D, H, W] (fun ix => input (n :: c :: ix)) [z, y, x] := by
  cases p with
  | border =>
    have hD := hp rfl D (by simp)
    have hH := hp rfl H (by simp)
    have hW := hp rfl W (by simp)
    simp only [loadWithPadding3D, clamp_cast _ _ hD, clamp_cast _ _ hH, clamp_cast _ _ hW, fpToInt_cast, pixel]
    simp
  | zeros =>
    rw [pixel_zeros3]
    simp only [loadWithPadding3D, isInBounds_cast, fpToInt_cast, ← Bool.decide_and, decide_eq_true_eq]
    simp

/-! ## Moving a place to the border -/

/-- With border padding an image is constant beyond its border, so moving there changes nothing. -/
theorem linear_bring (al : Bool) (n : ℕ) (hn : 0 < n) (x : K) (g : ℤ → K) (hg : ∀ i, g i = g (clampZ n i)) :
    (1 - (bring al n x - ⌊bring al n x⌋)) * g ⌊bring al n x⌋ + (bring al n x - ⌊bring al n x⌋) * g (⌊bring al n x⌋ + 1)
      = (1 - (x - ⌊x⌋)) * g ⌊x⌋ + (x - ⌊x⌋) * g (⌊x⌋ + 1) := by
  have hn1 : (1 : K) ≤ n := by exact_mod_cast hn
  unfold bring
  simp only
  by_cases h : x < (if al then (0 : K) else -1 / 2) ∨ (if al then (n : K) - 1 else n - 1 / 2) < x
  · rw [if_pos h]
    rcases h with h | h
    · have hx : x < 0 := by cases al <;> simp only [if_true, Bool.false_eq_true, if_false] at h <;> linarith
      have e : max 0 (min x ((n : K) - 1)) = ((0 : ℤ) : K) := by
        rw [min_eq_left (by linarith), max_eq_left hx.le]; simp
      have hf : ⌊x⌋ ≤ -1 := by
        have := Int.floor_lt.2 (show x < ((0 : ℤ) : K) by simpa using hx)
        omega
      rw [e, Int.floor_intCast, hg ⌊x⌋, hg (⌊x⌋ + 1), hg 0]
      have c1 : clampZ n ⌊x⌋ = clampZ n 0 := by unfold clampZ; omega
      have c2 : clampZ n (⌊x⌋ + 1) = clampZ n 0 := by unfold clampZ; omega
      rw [c1, c2]; push_cast; ring
    · have hx : (n : K) - 1 < x := by cases al <;> simp only [if_true, Bool.false_eq_true, if_false] at h <;> linarith
      have e : max 0 (min x ((n : K) - 1)) = ((n - 1 : ℤ) : K) := by
        rw [min_eq_right hx.le, max_eq_right (by linarith)]; push_cast; rfl
      have hf : (n : ℤ) - 1 ≤ ⌊x⌋ := by
        rw [Int.le_floor]; push_cast; exact hx.le
      rw [e, Int.floor_intCast, hg ⌊x⌋, hg (⌊x⌋ + 1), hg ((n : ℤ) - 1)]
      have c1 : clampZ n ⌊x⌋ = clampZ n ((n : ℤ) - 1) := by unfold clampZ; omega
      have c2 : clampZ n (⌊x⌋ + 1) = clampZ n ((n : ℤ) - 1) := by unfold clampZ; omega
      rw [c1, c2]; push_cast; ring
  · rw [if_neg h]

omit [IsStrictOrderedRing K] in
theorem linear_congr (xs : List K) (f g : List ℤ → K) (h : ∀ t, f t = g t) : linear xs f = linear xs g := by
  rw [show f = g from funext h]

theorem clampZ_idem (n : ℕ) (i : ℤ) : clampZ n (clampZ n i) = clampZ n i := by unfold clampZ; omega

/-- `linear_bring` along all axes. -/
theorem linear_bring_all (al : Bool) (dims : List ℕ) (hd : ∀ n ∈ dims, 0 < n) (xs : List K) (img : List ℤ → K) :
    linear (List.zipWith (bring al) dims xs) (fun ix => img (List.zipWith clampZ dims ix))
      = linear ((List.zipWith (fun _ x => x) dims xs)) (fun ix => img (List.zipWith clampZ dims ix)) := by
  induction dims generalizing xs img with
  | nil => simp
  | cons n dims ih =>
    cases xs with
    | nil => simp
    | cons x xs =>
      have hd' : ∀ n ∈ dims, 0 < n := fun m hm => hd m (List.mem_cons_of_mem _ hm)
      have key := linear_bring al n (hd n (by simp)) x
        (fun i => linear (List.zipWith (bring al) dims xs) (fun t => img (clampZ n i :: List.zipWith clampZ dims t)))
        (fun i => by simp only [clampZ_idem])
      simp only [List.zipWith_cons_cons, linear]
      rw [key]
      simp only [ih hd' xs (fun t => img (clampZ n ⌊x⌋ :: t)), ih hd' xs (fun t => img (clampZ n (⌊x⌋ + 1) :: t))]

theorem nearest_bring (al : Bool) (n : ℕ) (i : ℤ) : clampZ n ⌊bring al n (i : K)⌋ = clampZ n i := by
  have e1 : ((n : K) - 1) = ((n - 1 : ℤ) : K) := by push_cast; rfl
  have e2 : max 0 (min (i : K) ((n : K) - 1)) = (clampZ n i : ℤ) := by
    rw [e1, ← Int.cast_zero, ← Int.cast_min, ← Int.cast_max]; rfl
  unfold bring
  simp only
  rw [e2]
  by_cases h : (i : K) < (if al then (0 : K) else -1 / 2) ∨ (if al then (n : K) - 1 else n - 1 / 2) < (i : K)
  · rw [if_pos h, Int.floor_intCast, clampZ_idem]
  · rw [if_neg h, Int.floor_intCast]

omit [FloorRing K] [IsStrictOrderedRing K] in
theorem bring_inside (al : Bool) (n : ℕ) (x : K) (hlo : (if al then (0 : K) else -1 / 2) ≤ x)
    (hhi : x ≤ (if al then (n : K) - 1 else n - 1 / 2)) : bring al n x = x := by
  unfold bring
  simp only
  rw [if_neg]
  rintro (h | h)
  · exact absurd hlo (not_le.2 h)
  · exact absurd hhi (not_le.2 h)

/-! ## Cubic weights -/

omit [FloorRing K] in
theorem weights (r : K) (h0 : 0 ≤ r) (h1 : r < 1) :
    computeCubicWeight (r + 1) (-3 / 4) = coeff r 0 ∧ computeCubicWeight r (-3 / 4) = coeff r 1 ∧
      computeCubicWeight (1 - r) (-3 / 4) = coeff r 2 ∧ computeCubicWeight (2 - r) (-3 / 4) = coeff r 3 := by
  have a1 : |r + 1| = r + 1 := abs_of_nonneg (by linarith)
  have a2 : |r| = r := abs_of_nonneg h0
  have a3 : |1 - r| = 1 - r := abs_of_nonneg (by linarith)
  have a4 : |2 - r| = 2 - r := abs_of_nonneg (by linarith)
  refine ⟨?_, ?_, ?_, ?_⟩
  · simp only [computeCubicWeight, a1, coeff]
    by_cases h : r + 1 ≤ 1
    · have : r = 0 := by linarith
      rw [if_pos h, this]; norm_num
    · rw [if_neg h, if_pos (by linarith)]; ring
  · simp only [computeCubicWeight, a2, coeff]
    rw [if_pos h1.le]; ring
  · simp only [computeCubicWeight, a3, coeff]
    rw [if_pos (by linarith)]; ring
  · simp only [computeCubicWeight, a4, coeff]
    by_cases h : 2 - r ≤ 1
    · linarith
    · rw [if_neg h, if_pos (by linarith)]; ring

end Verif.GridSample
