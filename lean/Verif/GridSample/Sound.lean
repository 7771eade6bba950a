import Verif.GridSample.Lemmas

/-! # The lowering of GridSample computes GridSample -/

namespace Verif.GridSample

open Verif.Quant

variable {K : Type} [Field K] [LinearOrder K] [IsStrictOrderedRing K] [FloorRing K]

omit [IsStrictOrderedRing K] in
theorem coords2 (m : Interp) (p : Padding) (al : Bool) (H W : ℕ) (input grid : List ℤ → K) (n c h w : ℤ) :
    gridSample m p al [H, W] input grid n c [h, w]
      = sample m p al [H, W] (fun ix => input (n :: c :: ix)) [grid [n, h, w, 1], grid [n, h, w, 0]] := rfl

omit [IsStrictOrderedRing K] in
theorem coords3 (m : Interp) (p : Padding) (al : Bool) (D H W : ℕ) (input grid : List ℤ → K) (n c d h w : ℤ) :
    gridSample m p al [D, H, W] input grid n c [d, h, w]
      = sample m p al [D, H, W] (fun ix => input (n :: c :: ix))
          [grid [n, d, h, w, 2], grid [n, d, h, w, 1], grid [n, d, h, w, 0]] := rfl

theorem sample_nearest (p : Padding) (al : Bool) (dims : List ℕ) (img : List ℤ → K) (cs : List K) :
    sample .nearest p al dims img cs = pixel p dims img ((List.zipWith (denormalize al) dims cs).map rint) := by
  unfold sample
  cases p with
  | zeros => simp
  | border =>
    simp only [if_true, pixel]
    congr 1
    induction dims generalizing cs with
    | nil => simp
    | cons n dims ih =>
      cases cs with
      | nil => simp
      | cons x cs =>
        simp only [List.zipWith_cons_cons, List.map_cons, nearest_bring]
        exact congrArg _ (ih cs)

theorem sample_linear (p : Padding) (al : Bool) (dims : List ℕ) (hp : Nonempty p dims) (img : List ℤ → K) (cs : List K) :
    sample .linear p al dims img cs = linear (List.zipWith (denormalize al) dims cs) (pixel p dims img) := by
  unfold sample
  cases p with
  | zeros => simp
  | border =>
    simp only [reduceCtorEq, if_false, if_true]
    have h := linear_bring_all al dims (hp rfl) (List.zipWith (denormalize al) dims cs) img
    have e : ∀ (dims : List ℕ) (cs : List K), List.zipWith (fun _ x => x) dims (List.zipWith (denormalize al) dims cs)
        = List.zipWith (denormalize al) dims cs := by
      intro dims
      induction dims with
      | nil => intro cs; simp
      | cons n dims ih => intro cs; cases cs <;> simp [ih]
    rw [e] at h
    exact h

theorem nearest2 (p : Padding) (al : Bool) (H W : ℕ) (hp : Nonempty p [H, W]) (input grid : List ℤ → K) (n c h w : ℤ) :
    (lower2DNearest input grid H W al p n c h w).1 = gridSample .nearest p al [H, W] input grid n c [h, w] := by
  rw [coords2, sample_nearest]
  simp only [lower2DNearest, transform_eq, roundEven_rint, load_eq _ _ _ _ _ _ _ _ hp]
  rfl

theorem nearest3 (p : Padding) (al : Bool) (D H W : ℕ) (hp : Nonempty p [D, H, W]) (input grid : List ℤ → K)
    (n c d h w : ℤ) :
    (lower3DNearest input grid D H W al p n c d h w).1 = gridSample .nearest p al [D, H, W] input grid n c [d, h, w] := by
  rw [coords3, sample_nearest]
  simp only [lower3DNearest, transform_eq, roundEven_rint, load3_eq _ _ _ _ _ _ _ _ _ _ hp]
  rfl

omit [IsStrictOrderedRing K] [FloorRing K] [LinearOrder K] in
theorem mask_bits (b0 b1 b2 b3 : Bool) :
    let m : BitVec 8 := ((if b0 then 1 else 0) ||| (if b1 then 2 else 0)) ||| ((if b2 then 4 else 0) ||| (if b3 then 8 else 0))
    (m &&& 1 = 0 ↔ b0 = false) ∧ (m &&& 2 = 0 ↔ b1 = false) ∧ (m &&& 4 = 0 ↔ b2 = false) ∧ (m &&& 8 = 0 ↔ b3 = false) := by
  revert b0 b1 b2 b3
  decide

theorem bilinear2 (p : Padding) (al : Bool) (H W : ℕ) (hp : Nonempty p [H, W]) (input grid : List ℤ → K) (n c h w : ℤ) :
    (lower2DBilinear input grid H W al p n c h w).1 = gridSample .linear p al [H, W] input grid n c [h, w] := by
  rw [coords2, sample_linear p al _ hp]
  simp only [List.zipWith_cons_cons, List.zipWith_nil_left, linear]
  cases p with
  | border =>
    have hH := hp rfl H (by simp)
    have hW := hp rfl W (by simp)
    have k1 : ∀ z : K, ((⌊z⌋ : K) + 1) = ((⌊z⌋ + 1 : ℤ) : K) := fun z => by push_cast; rfl
    simp only [lower2DBilinear, computePlan, transform_eq, k1, clamp_cast _ _ hH, clamp_cast _ _ hW, fpToInt_cast, pixel,
      List.zipWith_cons_cons, List.zipWith_nil_left]
    ring
  | zeros =>
    have k1 : ∀ z : K, ((⌊z⌋ : K) + 1) = ((⌊z⌋ + 1 : ℤ) : K) := fun z => by push_cast; rfl
    have sw : ∀ (q : Bool) (a : K), (if q = false then 0 else a) = if q = true then a else 0 := by
      intro q a; cases q <;> simp
    obtain ⟨m0, m1, m2, m3⟩ := mask_bits
      (isInBounds (⌊denormalize al W (grid [n, h, w, 0])⌋ : K) W && isInBounds (⌊denormalize al H (grid [n, h, w, 1])⌋ : K) H)
      (isInBounds ((⌊denormalize al W (grid [n, h, w, 0])⌋ + 1 : ℤ) : K) W &&
        isInBounds (⌊denormalize al H (grid [n, h, w, 1])⌋ : K) H)
      (isInBounds (⌊denormalize al W (grid [n, h, w, 0])⌋ : K) W &&
        isInBounds ((⌊denormalize al H (grid [n, h, w, 1])⌋ + 1 : ℤ) : K) H)
      (isInBounds ((⌊denormalize al W (grid [n, h, w, 0])⌋ + 1 : ℤ) : K) W &&
        isInBounds ((⌊denormalize al H (grid [n, h, w, 1])⌋ + 1 : ℤ) : K) H)
    simp only [lower2DBilinear, computePlan, transform_eq, k1, m0, m1, m2, m3, fpToInt_cast]
    simp only [isInBounds_cast, ← Bool.decide_and, pixel_zeros2, sw, decide_eq_true_eq]
    ring

theorem trilinear3 (p : Padding) (al : Bool) (D H W : ℕ) (hp : Nonempty p [D, H, W]) (input grid : List ℤ → K)
    (n c d h w : ℤ) :
    (lower3DLinear input grid D H W al p n c d h w).1 = gridSample .linear p al [D, H, W] input grid n c [d, h, w] := by
  rw [coords3, sample_linear p al _ hp]
  have k1 : ∀ z : K, ((⌊z⌋ : K) + 1) = ((⌊z⌋ + 1 : ℤ) : K) := fun z => by push_cast; rfl
  simp only [List.zipWith_cons_cons, List.zipWith_nil_left, linear]
  simp only [lower3DLinear, transform_eq, k1, load3_eq _ _ _ _ _ _ _ _ _ _ hp]
  ring

/-- A place that border padding leaves where it is. -/
def Inside (al : Bool) (n : ℕ) (x : K) : Prop :=
  (if al then (0 : K) else -1 / 2) ≤ x ∧ x ≤ (if al then (n : K) - 1 else n - 1 / 2)

theorem cubic2 (p : Padding) (al : Bool) (H W : ℕ) (hp : Nonempty p [H, W]) (input grid : List ℤ → K) (n c h w : ℤ)
    (hin : p = .border → Inside al W (denormalize al W (grid [n, h, w, 0])) ∧
      Inside al H (denormalize al H (grid [n, h, w, 1]))) :
    (lower2DCubic input grid H W al p n c h w).1 = gridSample .cubic p al [H, W] input grid n c [h, w] := by
  rw [coords2]
  have e : sample .cubic p al [H, W] (fun ix => input (n :: c :: ix)) [grid [n, h, w, 1], grid [n, h, w, 0]]
      = cubic [denormalize al H (grid [n, h, w, 1]), denormalize al W (grid [n, h, w, 0])]
          (pixel p [H, W] (fun ix => input (n :: c :: ix))) := by
    unfold sample
    cases p with
    | zeros => simp
    | border =>
      obtain ⟨⟨x1, x2⟩, y1, y2⟩ := hin rfl
      simp only [reduceCtorEq, if_false, if_true, List.zipWith_cons_cons, List.zipWith_nil_left,
        bring_inside al W _ x1 x2, bring_inside al H _ y1 y2]
  rw [e]
  have k0 : ∀ z : K, ((⌊z⌋ : K) - 1) = ((⌊z⌋ - 1 : ℤ) : K) := fun z => by push_cast; rfl
  have k1 : ∀ z : K, ((⌊z⌋ : K) + 1) = ((⌊z⌋ + 1 : ℤ) : K) := fun z => by push_cast; rfl
  have k2 : ∀ z : K, (((⌊z⌋ + 1 : ℤ) : K) + 1) = ((⌊z⌋ + 2 : ℤ) : K) := fun z => by push_cast; ring
  have w := fun z : K => weights (z - ⌊z⌋) (by have := Int.floor_le z; linarith) (by have := Int.lt_floor_add_one z; linarith)
  simp only [lower2DCubic, transform_eq, k0, k1, k2, cubic, List.flatMap_cons, List.flatMap_nil, List.map_cons, List.map_nil,
    List.append_nil, List.cons_append, List.nil_append, List.foldl_cons, List.foldl_nil, load_eq _ _ _ _ _ _ _ _ hp,
    (w _).1, (w _).2.1, (w _).2.2.1, (w _).2.2.2]
  ring

end Verif.GridSample
