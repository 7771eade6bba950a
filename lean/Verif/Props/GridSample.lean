import Verif.GridSample.Safe
import Mathlib.Data.Rat.Floor

/-!
# C102: GridSample

The code that is generated for GridSample against the definition of the operator, `Verif.GridSample.gridSample`, for images
of any size, and the addresses that it reads. Numbers are those of an ordered field with a floor.
-/

namespace Verif.Props

open Verif.GridSample Verif.Quant

variable {K : Type} [Field K] [LinearOrder K] [IsStrictOrderedRing K] [FloorRing K]

/-- The interpolation that a name stands for. -/
def C102_interp : Mode → Interp
  | .nearest => .nearest
  | .cubic => .cubic
  | _ => .linear

/-- The values, whatever is in memory outside of the image: all modes with zeros padding, and nearest and linear with border
padding. Missing: cubic with border padding, `C102_cubic_border_partial`; reflection, which is refused; and bilinear for
three axes, `C102_bilinear_three_false`. -/
theorem C102_value_partial (m : Mode) (p : Pad) (pd : Padding) (hpd : acceptPad p = some pd) (align : Bool) (dims : List ℕ)
    (hne : pd = .border → ∀ d ∈ dims, 0 < d) (hb : ¬ (m = .bilinear ∧ dims.length = 3)) (hc : ¬ (m = .cubic ∧ pd = .border))
    (input grid : List ℤ → K) (n c : ℤ) (o : List ℤ) (v : K) (acc : List (List ℤ))
    (h : lower m p align dims input grid n c o = some (v, acc)) :
    v = gridSample (C102_interp m) pd align dims input grid n c o := by
  unfold lower at h
  rw [hpd, Option.bind_some] at h
  split at h
  · cases h; exact nearest2 pd align _ _ hne input grid n c _ _
  · cases h; exact bilinear2 pd align _ _ hne input grid n c _ _
  · cases h; exact bilinear2 pd align _ _ hne input grid n c _ _
  · cases h; exact cubic2 pd align _ _ hne input grid n c _ _ (fun e => absurd ⟨rfl, e⟩ hc)
  · cases h; exact nearest3 pd align _ _ _ hne input grid n c _ _ _
  · cases h; exact trilinear3 pd align _ _ _ hne input grid n c _ _ _
  · cases h; exact trilinear3 pd align _ _ _ hne input grid n c _ _ _
  · exact absurd ⟨rfl, rfl⟩ hb
  · cases h

/-- Two axes: which modes and paddings are accepted. -/
theorem C102_accepts_two (m : Mode) (p : Pad) (align : Bool) (H W : ℕ) (input grid : List ℤ → K) (n c h w : ℤ) :
    (lower m p align [H, W] input grid n c [h, w]).isSome ↔ p ≠ .reflection ∧ m ≠ .trilinear := by
  cases m <;> cases p <;> simp [lower, acceptPad]

/-- Three axes. -/
theorem C102_accepts_three (m : Mode) (p : Pad) (align : Bool) (D H W : ℕ) (input grid : List ℤ → K) (n c d h w : ℤ) :
    (lower m p align [D, H, W] input grid n c [d, h, w]).isSome ↔ p ≠ .reflection ∧ m ≠ .cubic := by
  cases m <;> cases p <;> simp [lower, acceptPad]

/-- An image with the numbers 10 y + x. -/
def C102_img : List ℤ → ℚ
  | [_, _, y, x] => 10 * y + x
  | _ => 0

example : (lower .linear .zeros true [3, 4] C102_img (fun ix => if ix = [0, 0, 0, 0] then 1 / 2 else -1 / 4) 0 0 [0, 0]).map (·.1)
    = some (10 * (3 / 4) + 9 / 4) := by decide +kernel

example : (lower .cubic .zeros false [5, 5] C102_img (fun ix => if ix = [0, 0, 0, 0] then 1 / 10 else 0) 0 0 [0, 0]).map (·.1)
    = some (1427 / 64) := by decide +kernel

example : (lower .nearest .border false [3, 4] C102_img (fun ix => if ix = [0, 0, 0, 0] then 7 else -1 / 4) 0 0 [0, 0]).map (·.1)
    = some 13 := by decide +kernel

/-- Cubic interpolation with border padding, at places on the image (or half an element beyond if corners are not aligned).
Missing: places beyond. -/
theorem C102_cubic_border_partial (align : Bool) (H W : ℕ) (hH : 0 < H) (hW : 0 < W) (input grid : List ℤ → K) (n c h w : ℤ)
    (hx : Inside align W (denormalize align W (grid [n, h, w, 0]))) (hy : Inside align H (denormalize align H (grid [n, h, w, 1]))) :
    ∃ acc, lower .cubic .border align [H, W] input grid n c [h, w]
      = some (gridSample .cubic .border align [H, W] input grid n c [h, w], acc) := by
  refine ⟨(lower2DCubic input grid H W align .border n c h w).2, ?_⟩
  rw [← cubic2 .border align H W (by intro _ d hd; simp at hd; rcases hd with rfl | rfl <;> assumption)
    input grid n c h w (fun _ => ⟨hx, hy⟩)]
  rfl

/-- Beyond them ONNX takes the element at the border, while the code still mixes in elements next to it. -/
theorem C102_cubic_border_false : ¬ ∀ (input grid : List ℤ → ℚ) (v : ℚ) (acc : List (List ℤ)),
    lower .cubic .border true [4, 4] input grid 0 0 [0, 0] = some (v, acc) →
    v = gridSample .cubic .border true [4, 4] input grid 0 0 [0, 0] := by
  intro h
  have := h C102_img (fun ix => if ix = [0, 0, 0, 0] then -4 / 3 else 0) _ _ rfl
  revert this
  decide +kernel

/-- Three axes and the mode bilinear, which the verifier lets pass, give zeros. -/
theorem C102_bilinear_three_false : ¬ ∀ (input grid : List ℤ → ℚ) (v : ℚ) (acc : List (List ℤ)),
    lower .bilinear .zeros true [2, 2, 2] input grid 0 0 [0, 0, 0] = some (v, acc) →
    v = gridSample .linear .zeros true [2, 2, 2] input grid 0 0 [0, 0, 0] := by
  intro h
  have := h (fun _ => 1) (fun _ => 0) _ _ rfl
  revert this
  decide +kernel

/-- With border padding nothing is read outside of the image, for every grid. -/
theorem C102_safe_border (m : Mode) (align : Bool) (dims : List ℕ) (hne : ∀ d ∈ dims, 0 < d) (input grid : List ℤ → K)
    (n c : ℤ) (o : List ℤ) (v : K) (acc : List (List ℤ)) (h : lower m .border align dims input grid n c o = some (v, acc)) :
    ∀ a ∈ acc, InImage dims n c a := by
  unfold lower at h
  simp only [acceptPad, Option.bind_some] at h
  split at h <;> cases h
  · intro a ha
    simp only [lower2DNearest, List.mem_singleton] at ha
    exact ha ▸ load_border _ _ _ _ _ _ _ (hne _ (by simp)) (hne _ (by simp))
  · intro a ha
    have hH := hne _ (List.mem_cons_self ..)
    have hW := hne _ (List.mem_cons_of_mem _ (List.mem_cons_self ..))
    simp only [lower2DBilinear, computePlan, List.mem_cons, List.not_mem_nil, or_false] at ha
    rcases ha with rfl | rfl | rfl | rfl <;>
      exact ⟨_, rfl, .cons (clamp_range _ hH _) (.cons (clamp_range _ hW _) .nil)⟩
  · intro a ha
    have hH := hne _ (List.mem_cons_self ..)
    have hW := hne _ (List.mem_cons_of_mem _ (List.mem_cons_self ..))
    simp only [lower2DBilinear, computePlan, List.mem_cons, List.not_mem_nil, or_false] at ha
    rcases ha with rfl | rfl | rfl | rfl <;>
      exact ⟨_, rfl, .cons (clamp_range _ hH _) (.cons (clamp_range _ hW _) .nil)⟩
  · intro a ha
    have hH := hne _ (List.mem_cons_self ..)
    have hW := hne _ (List.mem_cons_of_mem _ (List.mem_cons_self ..))
    simp only [lower2DCubic, List.map_flatMap, List.map_map, List.mem_flatMap, List.mem_map] at ha
    obtain ⟨yw, _, xw, _, rfl⟩ := ha
    exact load_border _ _ _ _ _ _ _ hH hW
  · intro a ha
    simp only [lower3DNearest, List.mem_singleton] at ha
    exact ha ▸ load3_border _ _ _ _ _ _ _ _ _ (hne _ (by simp)) (hne _ (by simp)) (hne _ (by simp))
  · intro a ha
    simp only [lower3DLinear, List.mem_cons, List.not_mem_nil, or_false] at ha
    rcases ha with rfl | rfl | rfl | rfl | rfl | rfl | rfl | rfl <;>
      exact load3_border _ _ _ _ _ _ _ _ _ (hne _ (by simp)) (hne _ (by simp)) (hne _ (by simp))
  · intro a ha
    simp only [lower3DLinear, List.mem_cons, List.not_mem_nil, or_false] at ha
    rcases ha with rfl | rfl | rfl | rfl | rfl | rfl | rfl | rfl <;>
      exact load3_border _ _ _ _ _ _ _ _ _ (hne _ (by simp)) (hne _ (by simp)) (hne _ (by simp))
  · intro a ha; cases ha

/-- With zeros padding nothing is read outside in linear mode if every place has a next element on the image. Missing: other
places, for which it is false, see `C102_zeros_safe_false`. -/
theorem C102_safe_linear_partial (align : Bool) (H W : ℕ) (input grid : List ℤ → K) (n c h w : ℤ) (v : K) (acc : List (List ℤ))
    (hx : 0 ≤ denormalize align W (grid [n, h, w, 0]) ∧ denormalize align W (grid [n, h, w, 0]) < (W : K) - 1)
    (hy : 0 ≤ denormalize align H (grid [n, h, w, 1]) ∧ denormalize align H (grid [n, h, w, 1]) < (H : K) - 1)
    (he : lower .linear .zeros align [H, W] input grid n c [h, w] = some (v, acc)) : ∀ a ∈ acc, InImage [H, W] n c a := by
  cases he
  have x := floor_on W _ hx.1 hx.2
  have y := floor_on H _ hy.1 hy.2
  have k1 : ∀ z : K, ((⌊z⌋ : K) + 1) = ((⌊z⌋ + 1 : ℤ) : K) := fun z => by push_cast; rfl
  intro a ha
  simp only [lower2DBilinear, computePlan, transform_eq, k1, fpToInt_cast, List.mem_cons, List.not_mem_nil, or_false] at ha
  rcases ha with rfl | rfl | rfl | rfl
  · exact ⟨_, rfl, .cons y.1 (.cons x.1 .nil)⟩
  · exact ⟨_, rfl, .cons y.1 (.cons x.2 .nil)⟩
  · exact ⟨_, rfl, .cons y.2 (.cons x.1 .nil)⟩
  · exact ⟨_, rfl, .cons y.2 (.cons x.2 .nil)⟩

/-- The same for nearest mode and places between the first and the last element. -/
theorem C102_safe_nearest_partial (align : Bool) (H W : ℕ) (input grid : List ℤ → K) (n c h w : ℤ) (v : K)
    (acc : List (List ℤ))
    (hx : 0 ≤ denormalize align W (grid [n, h, w, 0]) ∧ denormalize align W (grid [n, h, w, 0]) ≤ (W : K) - 1)
    (hy : 0 ≤ denormalize align H (grid [n, h, w, 1]) ∧ denormalize align H (grid [n, h, w, 1]) ≤ (H : K) - 1)
    (he : lower .nearest .zeros align [H, W] input grid n c [h, w] = some (v, acc)) : ∀ a ∈ acc, InImage [H, W] n c a := by
  cases he
  intro a ha
  simp only [lower2DNearest, transform_eq, roundEven_rint, List.mem_singleton] at ha
  exact ha ▸ load_zeros _ _ _ _ _ _ _ (rint_on H _ hy.1 hy.2) (rint_on W _ hx.1 hx.2)

example : 0 ≤ denormalize true 4 (1 / 2 : ℚ) ∧ denormalize true 4 (1 / 2 : ℚ) < (4 : ℕ) - 1 := by decide +kernel

/-- With zeros padding, elements outside of the image are read (and then not used), even if all coordinates of the grid are
between -1 and 1: at the last corner of an image the code reads beyond the last row. -/
theorem C102_zeros_safe_false : ¬ ∀ (align : Bool) (input grid : List ℤ → ℚ) (v : ℚ) (acc : List (List ℤ)),
    (∀ ix, -1 ≤ grid ix ∧ grid ix ≤ 1) →
    lower .linear .zeros align [3, 3] input grid 0 0 [0, 0] = some (v, acc) → ∀ a ∈ acc, InImage [3, 3] 0 0 a := by
  intro h
  obtain ⟨ix, e, hf⟩ := h true (fun _ => 0) (fun _ => 1) _ _ (fun _ => by norm_num) rfl [0, 0, 3, 3] (by decide +kernel)
  cases e
  simp at hf

end Verif.Props
