import Verif.Resize.Lemmas
import Verif.Resize.NearestModel

/-!
# Properties C39 and C47: Resize

`Verif/Resize/Spec.lean` says what interpolation is. All arithmetic is exact.
-/

namespace Verif.Props
open Verif.Resize

/-- **C39**. Resizing a tensor of rank 4 by positive scales reads only inside the data and gives, in
row-major order, the interpolated value at every position of the result.

Missing: ranks other than 4 (`C39_rank3_false`, `C39_rank5_false`). -/
theorem C39_scales_partial (k : Kern) (shape : List Nat) (data scales : List ℚ) (f : List Nat → ℚ)
    (h4 : shape.length = 4) (hsl : scales.length = 4) (hd : ∀ d ∈ shape, 0 < d)
    (hs : ∀ s ∈ scales, 0 < s)
    (hdata : ∀ j, InBounds shape j → data[rowMajor shape j]? = some (f j)) :
    ∃ out sizes, resizeScales k shape data scales = some out ∧
      sizes = List.zipWith (fun (s : ℚ) (n : Nat) => ⌊s * n⌋.toNat) scales shape ∧
      out.length = sizes.prod ∧
      ∀ i, InBounds sizes i → out[rowMajor sizes i]? =
        some (interp (kernelOf k) shape f (List.zipWith halfPixel scales i)) := by
  refine ⟨(allIndices (List.zipWith (fun (s : ℚ) (n : Nat) => ⌊s * n⌋.toNat) scales shape)).map fun i =>
      interp (kernelOf k) shape f (List.zipWith halfPixel scales i), List.zipWith (fun (s : ℚ) (n : Nat) => ⌊s * n⌋.toNat) scales shape, ?_, rfl, ?_, ?_⟩
  · unfold resizeScales
    rw [if_neg (by
      simp only [List.any_eq_true, decide_eq_true_eq, not_exists, not_and, not_lt]
      exact fun s h => (hs s h).le)]
    exact resizeLoop_eq k h4 hsl (by simp [h4, hsl]) hd (fun s h => (hs s h).ne') hdata
  · rw [List.length_map, length_allIndices]
  · intro i hi
    have hlt := rowMajor_lt hi
    rw [List.getElem?_map, allIndices_eq_map_unrank, List.getElem?_map, List.getElem?_range hlt]
    simp only [Option.map_some, unrank_rowMajor hi]

example : resizeScales .linear [1, 1, 1, 2] [10, 20] [1, 1, 1, 2] = some [10, 25 / 2, 35 / 2, 20] := by
  decide +kernel

/-- The same for given sizes. -/
theorem C39_sizes_partial (k : Kern) (shape : List Nat) (data : List ℚ) (sizes : List Nat) (f : List Nat → ℚ)
    (h4 : shape.length = 4) (hsl : sizes.length = 4) (hd : ∀ d ∈ shape, 0 < d)
    (hs : ∀ s ∈ sizes, 0 < s)
    (hdata : ∀ j, InBounds shape j → data[rowMajor shape j]? = some (f j)) :
    ∃ out, resizeSizes k shape data sizes = some out ∧ out.length = sizes.prod ∧
      ∀ i, InBounds sizes i → out[rowMajor sizes i]? =
        some (interp (kernelOf k) shape f (List.zipWith halfPixel (List.zipWith (fun (m n : Nat) => (m : ℚ) / n) sizes shape) i)) := by
  refine ⟨(allIndices sizes).map fun i => interp (kernelOf k) shape f
    (List.zipWith halfPixel (List.zipWith (fun (m n : Nat) => (m : ℚ) / n) sizes shape) i), ?_, ?_, ?_⟩
  · unfold resizeSizes
    rw [if_neg (by
      simp only [List.any_eq_true, beq_iff_eq, not_exists, not_and]
      intro s h h0
      have := hd s h
      omega)]
    refine resizeLoop_eq k h4 (by simp [h4, hsl]) hsl hd ?_ hdata
    intro s h
    rw [List.mem_iff_getElem] at h
    obtain ⟨a, ha, rfl⟩ := h
    rw [List.getElem_zipWith]
    have h1 := hs _ (List.getElem_mem (show a < sizes.length by simp at ha; omega))
    have h2 := hd _ (List.getElem_mem (show a < shape.length by simp at ha; omega))
    apply div_ne_zero <;> exact_mod_cast (by omega)
  · rw [List.length_map, length_allIndices]
  · intro i hi
    have hlt := rowMajor_lt hi
    rw [List.getElem?_map, allIndices_eq_map_unrank, List.getElem?_map, List.getElem?_range hlt]
    simp only [Option.map_some, unrank_rowMajor hi]

example : resizeSizes .cubic [1, 1, 1, 2] [10, 20] [1, 1, 1, 2] = some [10, 20] := by decide +kernel

/-- **C39**, partition of unity: constant images stay constant. -/
theorem C39_constant (k : Kern) (shape : List Nat) (data scales : List ℚ) (v : ℚ)
    (h4 : shape.length = 4) (hsl : scales.length = 4) (hd : ∀ d ∈ shape, 0 < d)
    (hs : ∀ s ∈ scales, 0 < s) (hdata : data = List.replicate shape.prod v) :
    ∃ out, resizeScales k shape data scales = some out ∧ ∀ y ∈ out, y = v := by
  obtain ⟨out, sizes, h1, h2, h3, h5⟩ := C39_scales_partial k shape data scales (fun _ => v) h4 hsl hd hs (by
    intro j hj
    rw [hdata, List.getElem?_replicate, if_pos (rowMajor_lt hj)])
  refine ⟨out, h1, fun y hy => ?_⟩
  obtain ⟨p, hp, rfl⟩ := List.mem_iff_getElem.1 hy
  rw [h3] at hp
  have hb := unrank_inBounds hp
  have := h5 _ hb
  rw [rowMajor_unrank hp, List.getElem?_eq_getElem (by rw [h3]; exact hp)] at this
  rw [Option.some.inj this]
  have hlen : (List.zipWith halfPixel scales (unrank sizes p)).length = shape.length := by
    have : (unrank sizes p).length = sizes.length := hb.length
    rw [List.length_zipWith, this, h2, List.length_zipWith]
    omega
  exact interp_const k v shape _ _ hd hlen (fun _ _ => rfl)

/-- **C39**, integer coordinates: resizing to the same size returns the data. -/
theorem C39_identity (k : Kern) (shape : List Nat) (data : List ℚ)
    (h4 : shape.length = 4) (hd : ∀ d ∈ shape, 0 < d) (hdata : data.length = shape.prod) :
    resizeSizes k shape data shape = some data := by
  obtain ⟨out, h1, h2, h3⟩ := C39_sizes_partial k shape data shape
    (fun j => data.getD (rowMajor shape j) 0) h4 h4 hd hd (by
      intro j hj
      have := rowMajor_lt hj
      rw [List.getD_eq_getElem?_getD, List.getElem?_eq_getElem (by omega)]
      rfl)
  rw [h1]
  congr 1
  apply List.ext_getElem (by omega)
  intro p hp hp'
  have hp2 : p < shape.prod := by omega
  have hb := unrank_inBounds hp2
  have := h3 _ hb
  rw [rowMajor_unrank hp2, List.getElem?_eq_getElem hp] at this
  rw [Option.some.inj this]
  have hx : List.zipWith halfPixel (List.zipWith (fun (m n : Nat) => (m : ℚ) / n) shape shape) (unrank shape p) =
      (unrank shape p).map (Nat.cast : Nat → ℚ) := by
    have hl := hb.length
    apply List.ext_getElem
    · simp [hl]
    · intro a ha hb'
      rw [List.getElem_zipWith, List.getElem_zipWith, List.getElem_map]
      have h0 : 0 < shape[a]'(by simp at hb'; omega) := hd _ (List.getElem_mem _)
      have : ((shape[a]'(by simp at hb'; omega) : Nat) : ℚ) ≠ 0 := by exact_mod_cast h0.ne'
      rw [div_self this]
      unfold halfPixel
      ring
  rw [hx]
  have key : ∀ k, interp (kernelOf k) shape (fun j => data.getD (rowMajor shape j) 0)
      ((unrank shape p).map (Nat.cast : Nat → ℚ)) = data[p] := by
    intro k
    rw [interp_int k shape _ _ hb, rowMajor_unrank hp2, List.getD_eq_getElem?_getD, List.getElem?_eq_getElem hp']
    rfl
  exact key k

/-- **C39 is false** for rank 3: the number of dimensions is fixed to 4 in the code, so the shape is
read beyond its end. -/
theorem C39_rank3_false : resizeScales .linear [1, 1, 2] [10, 20] [1, 1, 1] = none := by decide +kernel

/-- **C39 is false** for rank 5: the last dimension is ignored, so keeping the size does not return the
data. -/
theorem C39_rank5_false :
    resizeSizes .linear [1, 1, 1, 2, 2] [1, 2, 3, 4] [1, 1, 1, 2, 2] = some [1, 1, 2, 2] := by decide +kernel

/-- What `nearest_mode` asks for. -/
def roundTo : NearestMode → ℚ → Int
  | .preferFloor, x => ⌈x - 1 / 2⌉
  | .preferCeil, x => ⌊x + 1 / 2⌋
  | .floor, x => ⌊x⌋
  | .ceil, x => ⌈x⌉

theorem trunc_clamp {y : ℚ} {dim : Nat} (hd : 0 < dim) {t : Int} (h : t = ⌊y⌋) :
    (let t : Int := if 0 ≤ y then ⌊y⌋ else ⌈y⌉
     let lb := if t < 0 then 0 else t
     if lb < dim then lb else (dim : Int) - 1) = clamp dim t := by
  subst h
  have : (if (if 0 ≤ y then ⌊y⌋ else ⌈y⌉) < 0 then 0 else (if 0 ≤ y then ⌊y⌋ else ⌈y⌉)) = max 0 ⌊y⌋ := by
    by_cases hy : 0 ≤ y
    · have : 0 ≤ ⌊y⌋ := Int.floor_nonneg.2 hy
      rw [if_pos hy]
      omega
    · have h1 : ⌊y⌋ < 0 := by
        by_contra hc
        exact hy (Int.floor_nonneg.1 (by omega))
      have h2 : ⌈y⌉ ≤ 0 := Int.ceil_le.2 (by push_cast; linarith)
      rw [if_neg hy]
      omega
  simp only [this]
  unfold clamp
  omega

/-- **C47**. In nearest mode the generated loops copy, per dimension, the element at the rounded
coordinate, moved to the border if it lies outside; the index is always inside the data.

Missing: with `round_prefer_floor`, coordinates whose fraction lies between 0.5 and 0.500001
(`C47_round_false`). -/
theorem C47_nearest_partial (asymmetric : Bool) (mode : NearestMode) (scale : ℚ) (dim : Nat) (hd : 0 < dim)
    (i : Nat) (x : ℚ) (hx : x = if asymmetric then i / scale else halfPixel scale i)
    (hf : mode = .preferFloor → x - ⌊x⌋ ≤ 1 / 2 ∨ 1 / 2 + 1 / 1000000 ≤ x - ⌊x⌋) :
    readIndex asymmetric mode scale dim i = clamp dim (roundTo mode x) ∧ clamp dim (roundTo mode x) < dim := by
  refine ⟨?_, clamp_lt hd _⟩
  unfold readIndex
  have hx' : (if asymmetric = true then (i : ℚ) / scale else (i + 1 / 2) / scale - 1 / 2) = x := by
    rw [hx]; rfl
  rw [hx']
  cases mode with
  | preferFloor =>
    apply trunc_clamp hd
    show ⌈x - 1 / 2⌉ = _
    have h1 := Int.floor_le x
    have h2 := Int.lt_floor_add_one x
    rcases hf rfl with h | h
    · rw [show ⌊x + 499999 / 1000000⌋ = ⌊x⌋ by rw [Int.floor_eq_iff]; constructor <;> linarith]
      rw [Int.ceil_eq_iff]
      constructor <;> linarith
    · rw [show ⌊x + 499999 / 1000000⌋ = ⌊x⌋ + 1 by rw [Int.floor_eq_iff]; push_cast; constructor <;> linarith]
      rw [Int.ceil_eq_iff]
      push_cast
      constructor <;> linarith
  | preferCeil => exact trunc_clamp hd rfl
  | floor =>
    apply trunc_clamp hd
    simp [roundTo]
  | ceil =>
    apply trunc_clamp hd
    simp [roundTo]

example : (List.range 6).map (readIndex false .preferFloor 2 3) = [0, 0, 1, 1, 2, 2] := by decide +kernel

/-- **C47 is false**: the coordinate 0.5000005 is rounded to 0. -/
theorem C47_round_false :
    readIndex true .preferFloor (2000000 / 1000001) 3 1 = 0 ∧
    clamp 3 (roundTo .preferFloor (1 / (2000000 / 1000001))) = 1 := by
  refine ⟨by decide +kernel, ?_⟩
  have : roundTo .preferFloor (1 / (2000000 / 1000001)) = 1 := by
    unfold roundTo
    rw [Int.ceil_eq_iff]
    norm_num
  rw [this]
  rfl

end Verif.Props
