import Verif.GridSample.Sound

/-! # The addresses that GridSample reads -/

namespace Verif.GridSample

open Verif.Quant

variable {K : Type} [Field K] [LinearOrder K] [IsStrictOrderedRing K] [FloorRing K]

/-- The address is that of an element of image `(n, c)`. -/
def InImage (dims : List ℕ) (n c : ℤ) (a : List ℤ) : Prop :=
  ∃ ix, a = n :: c :: ix ∧ List.Forall₂ (fun (d : ℕ) (i : ℤ) => 0 ≤ i ∧ i < d) dims ix

theorem clamp_range (n : ℕ) (hn : 0 < n) (x : K) :
    0 ≤ fpToInt (min (max x 0) ((n : K) - 1)) ∧ fpToInt (min (max x 0) ((n : K) - 1)) < n := by
  have hn1 : (1 : K) ≤ n := by exact_mod_cast hn
  have h0 : 0 ≤ min (max x 0) ((n : K) - 1) := le_min (le_max_right _ _) (by linarith)
  have h1 : min (max x 0) ((n : K) - 1) ≤ (n : K) - 1 := min_le_right _ _
  unfold fpToInt
  rw [if_pos h0]
  refine ⟨Int.floor_nonneg.2 h0, ?_⟩
  rw [Int.floor_lt]; push_cast; linarith

theorem load_border (input : List ℤ → K) (n c : ℤ) (y x : K) (H W : ℕ) (hH : 0 < H) (hW : 0 < W) :
    InImage [H, W] n c (loadWithPadding input [n, c] y x H W .border).2 :=
  ⟨_, rfl, .cons (clamp_range H hH y) (.cons (clamp_range W hW x) .nil)⟩

theorem load3_border (input : List ℤ → K) (n c : ℤ) (z y x : K) (D H W : ℕ) (hD : 0 < D) (hH : 0 < H) (hW : 0 < W) :
    InImage [D, H, W] n c (loadWithPadding3D input [n, c] z y x D H W .border).2 :=
  ⟨_, rfl, .cons (clamp_range D hD z) (.cons (clamp_range H hH y) (.cons (clamp_range W hW x) .nil))⟩

/-- The integer place `a` is on the axis. -/
def On (n : ℕ) (a : ℤ) : Prop := 0 ≤ a ∧ a < n

theorem load_zeros (input : List ℤ → K) (n c : ℤ) (y x : ℤ) (H W : ℕ) (hy : On H y) (hx : On W x) :
    InImage [H, W] n c (loadWithPadding input [n, c] (y : K) (x : K) H W .zeros).2 := by
  refine ⟨[y, x], ?_, .cons hy (.cons hx .nil)⟩
  simp [loadWithPadding, fpToInt_cast]

theorem load3_zeros (input : List ℤ → K) (n c : ℤ) (z y x : ℤ) (D H W : ℕ) (hz : On D z) (hy : On H y) (hx : On W x) :
    InImage [D, H, W] n c (loadWithPadding3D input [n, c] (z : K) (y : K) (x : K) D H W .zeros).2 := by
  refine ⟨[z, y, x], ?_, .cons hz (.cons hy (.cons hx .nil))⟩
  simp [loadWithPadding3D, fpToInt_cast]

theorem floor_on (n : ℕ) (x : K) (h0 : 0 ≤ x) (h1 : x < (n : K) - 1) : On n ⌊x⌋ ∧ On n (⌊x⌋ + 1) := by
  have a : 0 ≤ ⌊x⌋ := Int.floor_nonneg.2 h0
  have b : ⌊x⌋ < (n : ℤ) - 1 := by rw [Int.floor_lt]; push_cast; exact h1
  unfold On; omega

theorem rint_on (n : ℕ) (x : K) (h0 : 0 ≤ x) (h1 : x ≤ (n : K) - 1) : On n (rint x) := by
  have h := abs_le.1 (rint_spec x).1
  have a : (-1 : K) < rint x := by linarith [h.1, h.2]
  have b : ((rint x : ℤ) : K) < ((n : ℤ) : K) := by push_cast; linarith [h.1, h.2]
  have a' : (-1 : ℤ) < rint x := by exact_mod_cast a
  have b' : rint x < n := by exact_mod_cast b
  unfold On; omega

end Verif.GridSample
