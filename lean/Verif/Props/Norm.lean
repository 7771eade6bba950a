import Verif.Lower.MvnLemmas

/-!
C77: BatchNormalization, InstanceNormalization, LRN, MeanVarianceNormalization and
LpNormalization.
-/

namespace Verif.Props

open Verif.Lower

/-- C77.  BatchNormalization in inference mode, for inputs of all ranks from 1 on and all sizes
(rank 1 has channel 0 only): all accesses are in bounds, no division by zero and no root of a
negative number, and every element is `scale * (x - mean) / sqrt(var + epsilon) + bias` with
the parameters of its channel. -/
theorem C77_batchnorm (X scale bias mean var : Mem ℝ) (eps : ℝ) (C : ℤ) (junk : Idx → ℝ)
    (hX : (X.shape.length = 1 ∧ 0 < C) ∨ (2 ≤ X.shape.length ∧ X.shape.getD 1 0 = C))
    (h1 : scale.shape = [C]) (h2 : bias.shape = [C]) (h3 : mean.shape = [C]) (h4 : var.shape = [C])
    (hv : ∀ c, 0 ≤ c → c < C → 0 < var.data [c] + eps) :
    ∃ Y, batchNorm X scale bias mean var eps junk = some Y ∧ Y.shape = X.shape ∧ ∀ i, InShape i X.shape →
      Y.data i = scale.data [channelOf i] * (X.data i - mean.data [channelOf i]) /
        Real.sqrt (var.data [channelOf i] + eps) + bias.data [channelOf i] := by
  obtain ⟨Y, e, hs, hval⟩ := batchNorm_spec (X := X) (eps := eps) (C := C)
    (by rintro h; rw [h] at hX; simp at hX) (by rcases hX with h | h; exacts [.inl h, .inr ⟨h.2, h.1⟩]) h1 h2 h3 h4 hv junk
  exact ⟨Y, e, hs, fun i hi => by rw [hval i hi, mul_div_assoc]⟩

/-- The hypotheses are met by a 2x3x4 input. -/
example : ∃ Y, batchNorm ⟨[2, 3, 4], fun i => (i.sum : ℝ)⟩ ⟨[3], fun _ => 2⟩ ⟨[3], fun _ => 1⟩ ⟨[3], fun _ => 5⟩
      ⟨[3], fun _ => 0⟩ 1 (fun _ => 0) = some Y ∧ Y.shape = [2, 3, 4] := by
  obtain ⟨Y, e, h, _⟩ := C77_batchnorm ⟨[2, 3, 4], fun i => (i.sum : ℝ)⟩ ⟨[3], fun _ => 2⟩ ⟨[3], fun _ => 1⟩ ⟨[3], fun _ => 5⟩
      ⟨[3], fun _ => 0⟩ 1 3 (fun _ => 0) (.inr ⟨by simp, rfl⟩) rfl rfl rfl rfl (by intro c _ _; norm_num)
  exact ⟨Y, e, h⟩

/-- C77.  InstanceNormalization, for all numbers of batches, channels and of spatial dimensions:
every element is `scale * (x - mean) / sqrt(variance + epsilon) + bias`, mean and variance being
those of the elements of the same batch and channel.  Missing: spatial dimensions of size 0. -/
theorem C77_instancenorm_partial (X scale bias : Mem ℝ) (eps : ℝ) (N C : ℤ) (sp : List ℤ) (junk : Idx → ℝ)
    (hX : X.shape = N :: C :: sp) (hsp : sp ≠ []) (hpos : ∀ d ∈ sp, 0 < d) (h1 : scale.shape = [C]) (h2 : bias.shape = [C])
    (he : 0 < eps) :
    ∃ Y, instanceNorm X scale bias eps junk = some Y ∧ Y.shape = X.shape ∧ ∀ i, InShape i X.shape →
      Y.data i = scale.data [channelOf i] * (X.data i - meanOf (planeOf X.shape i) X.data) /
        Real.sqrt (varianceOf (planeOf X.shape i) X.data + eps) + bias.data [channelOf i] := by
  obtain ⟨Y, e, hs, hval⟩ := instanceNorm_spec hX hsp hpos h1 h2 he junk
  exact ⟨Y, e, hs, fun i hi => by rw [hval i hi, mul_div_assoc]⟩

example : ∃ Y, instanceNorm ⟨[2, 3, 4, 5], fun i => (i.sum : ℝ)⟩ ⟨[3], fun _ => 2⟩ ⟨[3], fun _ => 1⟩ 1 (fun _ => 0) = some Y ∧
    Y.shape = [2, 3, 4, 5] := by
  obtain ⟨Y, e, h, _⟩ := C77_instancenorm_partial ⟨[2, 3, 4, 5], fun i => (i.sum : ℝ)⟩ ⟨[3], fun _ => 2⟩ ⟨[3], fun _ => 1⟩ 1
    2 3 [4, 5] (fun _ => 0) rfl (by simp) (by simp) rfl rfl (by norm_num)
  exact ⟨Y, e, h⟩

/-- C77.  LRN, for all ranks from 2 on and all sizes, with a positive bias and a non-negative
alpha: every element is divided by `(bias + alpha / size * squares) ^ beta`, where the squares of
the channels in the window around its own are added; the window never leaves the tensor. -/
theorem C77_lrn (X : Mem ℝ) (alpha beta bias : ℝ) (size : ℤ) (junk : Idx → ℝ) (hr : 2 ≤ X.shape.length) (hs : 0 < size)
    (ha : 0 ≤ alpha) (hb : 0 < bias) :
    ∃ Y, lrn X alpha beta bias size junk = some Y ∧ Y.shape = X.shape ∧ ∀ i, InShape i X.shape →
      Y.data i = X.data i / (bias + alpha / size *
        ((lrnWindow size (X.shape.getD 1 0) (channelOf i)).map fun j => X.data (i.set 1 j) ^ 2).sum) ^ beta :=
  lrn_spec hr hs ha hb junk

/-- The window is that of the ONNX standard: an even size reaches one further up. -/
example : lrnWindow 4 10 5 = [4, 5, 6, 7] ∧ lrnWindow 5 3 0 = [0, 1, 2] := by
  have h1 := lrnRange_eq (size := 4) (C := 10) (c := 5) (by decide)
  have h2 := lrnRange_eq (size := 5) (C := 3) (c := 0) (by decide)
  rw [← h1, ← h2]
  decide

example : ∃ Y, lrn ⟨[2, 3, 4], fun i => (i.sum : ℝ)⟩ 1 (3 / 4) 1 3 (fun _ => 0) = some Y ∧ Y.shape = [2, 3, 4] := by
  obtain ⟨Y, e, h, _⟩ := C77_lrn ⟨[2, 3, 4], fun i => (i.sum : ℝ)⟩ 1 (3 / 4) 1 3 (fun _ => 0) (by simp) (by norm_num)
    (by norm_num) (by norm_num)
  exact ⟨Y, e, h⟩

/-- C77.  MeanVarianceNormalization over distinct non-negative axes, all axes when none are
given: every element is `(x - mean) / sqrt(variance)` over the elements that agree with it outside
of the axes.  Missing: slices without variance, negative axes, empty tensors. -/
theorem C77_mvn_partial (X : Mem ℝ) (attr axes : List ℤ) (junk : Idx → ℝ) (hd : ∀ d ∈ X.shape, 0 < d) (hn : attr.Nodup)
    (ha : ∀ a ∈ attr, 0 ≤ a ∧ a < X.shape.length)
    (hax : axes = if attr = [] then (List.range X.shape.length).map fun (k : ℕ) => (k : ℤ) else attr)
    (hv : ∀ i, InShape i X.shape → varianceOf (sliceOf X.shape axes i) X.data ≠ 0) :
    ∃ Y, mvn X attr junk = some Y ∧ Y.shape = X.shape ∧ ∀ i, InShape i X.shape →
      Y.data i = (X.data i - meanOf (sliceOf X.shape axes i) X.data) / Real.sqrt (varianceOf (sliceOf X.shape axes i) X.data) := by
  have hax' : axes = mvnAxes X.shape.length attr := by
    rw [hax]
    unfold mvnAxes
    by_cases h : attr = []
    · subst h
      by_cases h0 : X.shape.length > 0
      · simp [h0]
      · have : X.shape.length = 0 := by omega
        simp [this]
    · simp [h]
  subst hax'
  exact mvn_spec hd ⟨hn, ha⟩ junk hv

example : ∃ Y, mvn ⟨[2, 2], fun i => (i.getD 0 0 : ℝ)⟩ [0] (fun _ => 0) = some Y ∧ Y.shape = [2, 2] := by
  obtain ⟨Y, e, h, _⟩ := C77_mvn_partial ⟨[2, 2], fun i => (i.getD 0 0 : ℝ)⟩ [0] [0] (fun _ => 0) (by simp) (by simp) (by simp)
    (by simp) (by
      intro i hi
      have h2 : sliceOf [2, 2] [0] i = [[0, i.getD 1 0], [1, i.getD 1 0]] := by
        have : i ∈ idxs [2, 2] := mem_idxs.2 hi
        have hall : ∀ i ∈ idxs [2, 2], sliceOf [2, 2] [0] i = [[0, i.getD 1 0], [1, i.getD 1 0]] := by decide
        exact hall i this
      simp only
      rw [h2]
      norm_num [varianceOf, meanOf])
  exact ⟨Y, e, h⟩

/-- C77 for MeanVarianceNormalization fails where all elements are equal: the program divides zero
by zero.  The function body in the ONNX standard adds 1e-9 to the divisor, the result is 0. -/
theorem C77_mvn_constant_false :
    ¬ ∀ X : Mem ℝ, X.shape = [2] → ∃ Y, mvn X [0] (fun _ => 0) = some Y := by
  intro h
  obtain ⟨Y, e⟩ := h ⟨[2], fun _ => 1⟩ rfl
  have hdiv : mvnDivisor [2] [0] = some 2 := by decide
  have hi : idxs [2] = [[0], [1]] := by decide
  unfold mvn at e
  simp only [mvnAxes, List.cons_ne_nil, false_and, if_false] at e
  rw [hdiv, Option.bind_some, mvnSums_eq, Option.bind_some] at e
  obtain ⟨m, sd, e', h1, h2, hst⟩ := mvnStats_eq (div := ((2 : ℤ) : ℝ))
    (sx := ⟨mvnDims [0] [2], fun r => (((idxs [2]).filter fun i => decide (mvnRed [0] i = r)).map fun _ => (1 : ℝ)).sum⟩)
    (sx2 := ⟨mvnDims [0] [2], fun r => (((idxs [2]).filter fun i => decide (mvnRed [0] i = r)).map
          fun _ => (1 : ℝ) * 1).sum⟩) rfl (by norm_num) (fun _ => 0)
  simp only at e' h1 h2 hst
  have hd : mvnDims [0] [2] = [1] := by decide
  rw [e', Option.bind_some] at e
  have hr : InShape [0] [1] := by decide
  rw [hd] at hst h1 h2
  obtain ⟨v1, v2⟩ := hst [0] hr
  have hfil : (idxs [2]).filter (fun i => decide (mvnRed [0] i = [0])) = [[0], [1]] := by decide
  rw [hfil] at v1 v2
  have v1' : m.data [0] = 1 := by rw [v1]; norm_num
  have v2' : sd.data [0] = 0 := by rw [v2]; norm_num
  have hnone := fill_none (R := ℝ) ⟨[2], fun _ => 0⟩ (mvnPoint ⟨[2], fun _ => 1⟩ [0] (m, sd)) (i := [0]) (by decide) (by
    unfold mvnPoint Mem.load
    have hm : mvnRed [0] [0] = [0] := by decide
    rw [if_pos (by decide), hm, h1, if_pos (by decide), h2, if_pos (by decide)]
    simp only [Option.bind_some]
    rw [v2']
    exact if_pos rfl)
  rw [hnone] at e
  cases e

/-- C77 for MeanVarianceNormalization fails for negative axes, which ONNX allows: the
lowering reads the shape at a negative position. -/
theorem C77_mvn_negative_axis_false (X : Mem ℝ) (junk : Idx → ℝ) : mvn X [-1] junk = none := by
  unfold mvn
  simp [mvnAxes, mvnDivisor]

/-- C77.  LpNormalization with p = 1: the elements of a line are divided by the sum of the absolute
values, and are 0 if that is 0; no division by zero. -/
theorem C77_lpnorm_1 (xs : List ℝ) (x : ℝ) :
    lpNorm 1 xs x = some (if (xs.map fun a => |a|).sum = 0 then 0 else x / (xs.map fun a => |a|).sum) := by
  unfold lpNorm
  simp only [if_true, Option.bind_some]
  by_cases h : (xs.map fun a => |a|).sum = 0
  · rw [if_pos h, if_pos h, if_pos h, fdiv_eq one_ne_zero, zero_div]
  · rw [if_neg h, if_neg h, if_neg h, fdiv_eq h]

/-- C77.  LpNormalization with p = 2: division by the Euclidean norm of the line, 0 if that is 0;
no division by zero and no root of a negative number. -/
theorem C77_lpnorm_2 (xs : List ℝ) (x : ℝ) :
    lpNorm 2 xs x = some (if (xs.map fun a => a ^ 2).sum = 0 then 0 else x / Real.sqrt (xs.map fun a => a ^ 2).sum) := by
  have h0 : 0 ≤ (xs.map fun a => a ^ 2).sum := by
    refine List.sum_nonneg ?_
    intro x hx
    obtain ⟨q, _, rfl⟩ := List.mem_map.1 hx
    positivity
  have e : (xs.map fun a => a * a) = xs.map fun a => a ^ 2 := List.map_congr_left fun a _ => (pow_two a).symm
  unfold lpNorm
  rw [e]
  simp only [show (2 : ℕ) ≠ 1 by decide, if_false, if_true]
  rw [fsqrt_eq h0, Option.bind_some]
  by_cases h : (xs.map fun a => a ^ 2).sum = 0
  · have hs : Real.sqrt (xs.map fun a => a ^ 2).sum = 0 := by rw [h, Real.sqrt_zero]
    rw [if_pos h, if_pos hs, if_pos hs, fdiv_eq one_ne_zero, zero_div]
  · have hs : Real.sqrt (xs.map fun a => a ^ 2).sum ≠ 0 := by rwa [Ne, Real.sqrt_eq_zero h0]
    rw [if_neg h, if_neg hs, if_neg hs, fdiv_eq hs]

example : lpNorm 2 [3, 4] 3 = some (3 / Real.sqrt 25) ∧ lpNorm 1 [0, 0] 0 = some 0 := by
  rw [C77_lpnorm_2, C77_lpnorm_1]
  norm_num

end Verif.Props
