import Verif.ConvTranspose.Lemmas
import Verif.Rewrite.CheckIn

/-!
# C92: decomposition of ConvTranspose

Specification: `Verif/ConvTranspose/Spec.lean` (`convTranspose`, the definition of the operator, and `axesOf`, the
paddings and extents of its spatial axes).
-/

namespace Verif.Props

open Verif.Rewrite Verif.ConvTranspose

variable {V : Type} [Inhabited V]

/-- What ConvTranspose is decomposed into computes ConvTranspose, for any number of spatial axes, groups, strides,
dilations and paddings, when arithmetic is exact. Partial: the weights have elements; with `output_shape` and
`auto_pad = NOTSET` the paddings must be symmetric (`C92_output_shape_false`); the padding at the beginning is at
most `(k - 1) * d`, and the last input element lands in the output even with the last element of the kernel
(`C92_store_outside` says what happens otherwise). -/
theorem C92_conv_transpose_partial [CommRing V] {A : Alg V} (hA : RingAlg A) {a : Attrs} {x w y : Tensor V}
    {b : Option (Tensor V)} (h : convTranspose A a x w b = some y)
    (h0 : ∀ d ∈ w.shape, 0 < d) (h63 : ∀ d ∈ w.shape, d < 2 ^ 63)
    (hn : a.autoPad = "NOTSET" → a.outputShape.isSome → ∀ ax, axesOf a (x.shape.drop 2) (w.shape.drop 2) = some ax →
      ∀ e ∈ ax, e.padB = e.padE)
    (hin : ∀ ax, axesOf a (x.shape.drop 2) (w.shape.drop 2) = some ax → ∀ e ∈ ax,
      e.padB ≤ ((e.k : ℤ) - 1) * e.d ∧ ((e.inp : ℤ) - 1) * e.s + 1 ≤ e.out + e.padB) :
    decomposed A a x w b = some y :=
  decomposed_spec hA h h0 h63 hn hin

/-- Two axes, two groups, strides, dilations and paddings that differ, and a bias. -/
def exAttrs : Attrs :=
  ⟨"NOTSET", some [1, 2], 2, some [3, 2], some [0, 1], none, some [1, 0, 1, 2], some [2, 1]⟩

example : (convTranspose qAlg exAttrs (qiota [1, 4, 2, 3]) (qiota [4, 1, 3, 2]) (some (qiota [2]))).map Tensor.shape =
      some [1, 2, 3, 4] ∧
    decomposed qAlg exAttrs (qiota [1, 4, 2, 3]) (qiota [4, 1, 3, 2]) (some (qiota [2])) =
      convTranspose qAlg exAttrs (qiota [1, 4, 2, 3]) (qiota [4, 1, 3, 2]) (some (qiota [2])) := by
  decide +kernel

example : ∀ ax, axesOf exAttrs [2, 3] [3, 2] = some ax → ∀ e ∈ ax,
    e.padB ≤ ((e.k : ℤ) - 1) * e.d ∧ ((e.inp : ℤ) - 1) * e.s + 1 ≤ e.out + e.padB := by
  intro ax h
  obtain rfl : ax = [⟨2, 3, 2, 1, 1, 1, 3⟩, ⟨3, 2, 1, 2, 0, 2, 4⟩] := by
    have : axesOf exAttrs [2, 3] [3, 2] = some [⟨2, 3, 2, 1, 1, 1, 3⟩, ⟨3, 2, 1, 2, 0, 2, 4⟩] := by decide +kernel
    rw [this] at h
    exact (Option.some.inj h).symm
  decide

/-- The other cases of the paddings: the loops store an element of the input outside of the upsampled tensor. -/
theorem C92_store_outside [CommRing V] {A : Alg V} {a : Attrs} {x w y : Tensor V} {b : Option (Tensor V)}
    (h : convTranspose A a x w b = some y) (hx : ∀ d ∈ x.shape, 0 < d)
    (hn : a.autoPad = "NOTSET" → a.outputShape.isSome → ∀ ax, axesOf a (x.shape.drop 2) (w.shape.drop 2) = some ax →
      ∀ e ∈ ax, e.padB = e.padE)
    (hout : ∃ ax, axesOf a (x.shape.drop 2) (w.shape.drop 2) = some ax ∧ ∃ e ∈ ax,
      ¬ (e.padB ≤ ((e.k : ℤ) - 1) * e.d ∧ ((e.inp : ℤ) - 1) * e.s + 1 ≤ e.out + e.padB)) :
    decomposed A a x w b = none :=
  decomposed_none h hx hn hout

/-- A kernel with one element, stride 2 and paddings 1: an operator that the definition accepts. -/
def exCrop : Attrs := ⟨"NOTSET", none, 1, none, none, none, some [1, 1], some [2]⟩

/-- Stores outside of the buffer happen for valid operators. -/
theorem C92_store_outside_false : ∃ (a : Attrs) (x w y : Tensor ℚ), convTranspose qAlg a x w none = some y ∧
    decomposed qAlg a x w none = none :=
  ⟨exCrop, qiota [1, 1, 3], qiota [1, 1, 1],
    ⟨[1, 1, 3], [0, 2, 0], rfl⟩, by decide +kernel, by decide +kernel⟩

/-- With `output_shape` and the default of `auto_pad`, an odd padding is divided the wrong way round. -/
theorem C92_output_shape_false : ∃ (a : Attrs) (x w y z : Tensor ℚ), a.autoPad = "NOTSET" ∧
    convTranspose qAlg a x w none = some y ∧ decomposed qAlg a x w none = some z ∧ z.shape = y.shape ∧ z ≠ y :=
  ⟨⟨"NOTSET", none, 1, none, none, some [4], none, some [2]⟩, qiota [1, 1, 2], qiota [1, 1, 3],
    ⟨[1, 1, 4], [2, 5, 4, 6], rfl⟩, ⟨[1, 1, 4], [1, 2, 5, 4], rfl⟩, rfl, by decide +kernel, by decide +kernel, rfl,
    by decide +kernel⟩

/-- SAME_UPPER and SAME_LOWER: the result is shorter than the input times the stride when the kernel is shorter than
the stride, although shape inference announces that extent. -/
theorem C92_same_extent_false : ∃ (a : Attrs) (x w z : Tensor ℚ), a.autoPad = "SAME_UPPER" ∧
    x.shape = [1, 1, 3] ∧ a.strides = some [2] ∧ inferredShape a x.shape w.shape = [1, 1, 6] ∧
    decomposed qAlg a x w none = some z ∧ z.shape = [1, 1, 5] :=
  ⟨⟨"SAME_UPPER", none, 1, none, none, none, none, some [2]⟩, qiota [1, 1, 3], qiota [1, 1, 1],
    ⟨[1, 1, 5], [1, 0, 2, 0, 3], rfl⟩, rfl, rfl, rfl, by decide +kernel, by decide +kernel, rfl⟩

/-- An output longer than what the kernel covers: the padding at the beginning is `total / 2` neither with division
that rounds toward zero nor with division that rounds down. -/
theorem C92_negative_total_false :
    ¬ (∀ inp k s d op out : ℕ, (padsFromOutput "SAME_UPPER" inp k s d op out).1 =
      (fullExtent inp k s d op - out).tdiv 2) ∧
    ¬ (∀ inp k s d op out : ℕ, (padsFromOutput "SAME_UPPER" inp k s d op out).1 =
      (fullExtent inp k s d op - out).fdiv 2) := by
  constructor
  · intro h
    have := h 1 1 1 1 0 4
    revert this
    decide
  · intro h
    have := h 1 1 1 1 0 2
    revert this
    decide

/-- Shape inference announces the shape that the definition gives. -/
theorem C92_inferred_shape {A : Alg V} {a : Attrs} {x w y : Tensor V} {b : Option (Tensor V)}
    (h : convTranspose A a x w b = some y) :
    inferredShape a x.shape w.shape = y.shape.map fun (d : ℕ) => (d : ℤ) :=
  inferred_eq h

example : inferredShape exAttrs [1, 4, 2, 3] [4, 1, 3, 2] = [1, 2, 3, 4] := by decide +kernel

/-- UpsampleAndPad on the axes after the first two, with paddings that are not negative: the result has
`(d - 1) * s + 1` elements and the paddings along an axis; element `i` of the input is found at `i * s + pb`, and all
other elements are 0. -/
theorem C92_upsample_partial {A : Alg V} {x : Tensor V} {u : List UAxis} {n c : ℕ} {xs : List ℕ}
    (hx : x.shape = n :: c :: xs) (hl : xs.length = u.length) (hxs : ∀ d ∈ xs, 0 < d)
    (hu : ∀ a ∈ u, 0 < a.s ∧ 0 ≤ a.pb ∧ 0 ≤ a.pe) :
    ∃ y, upsampleAndPad A x u = some y ∧
      y.shape = n :: c :: List.zipWith (fun d (a : UAxis) => (d - 1) * a.s + 1 + a.pb.toNat + a.pe.toNat) xs u ∧
      ∀ n' c' q, InBounds y.shape (n' :: c' :: q) →
        (∀ i, InBounds xs i → q = List.zipWith (fun i (a : UAxis) => i * a.s + a.pb.toNat) i u →
          y.get (n' :: c' :: q) = x.get (n' :: c' :: i)) ∧
        ((∀ i, InBounds xs i → q ≠ List.zipWith (fun i (a : UAxis) => i * a.s + a.pb.toNat) i u) →
          y.get (n' :: c' :: q) = A.ofInt 0) :=
  upsample_nonneg hx hl hxs hu

example : upsampleAndPad qAlg (qiota [1, 1, 2, 2]) [⟨2, 1, 0⟩, ⟨3, 0, 1⟩] =
    some ⟨[1, 1, 4, 5], [0, 0, 0, 0, 0, 1, 0, 0, 2, 0, 0, 0, 0, 0, 0, 3, 0, 0, 4, 0], rfl⟩ := by decide +kernel

end Verif.Props
