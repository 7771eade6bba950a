import Verif.ConvMatMul.Lemmas
import Verif.Rewrite.CheckIn

/-!
# C93: Conv as a matrix product

Specification: `conv` (`Verif/Rewrite/OnnxArith.lean`) and `im2colDef` (`Verif/ConvMatMul/Spec.lean`).
-/

namespace Verif.Props

open Verif.Rewrite Verif.ConvMatMul

variable {V : Type} [Inhabited V] {A : Alg V}

/-- What the pattern with Im2Col makes of Conv computes Conv, with both algorithms for Im2Col, for all strides,
dilations and paddings, whatever the buffer of Im2Col held before. The sums are taken in the same order, so it holds
for floating-point elements too: all that is needed is that products commute. `t` is what the compiler knows of the
shape of X. Partial: no extent is 0 (`C93_empty_false`). -/
theorem C93_im2col_conv_partial {opt fast st : Bool} {junk : V} {a : WinAttrs} {t : List (Option ℕ)}
    {x w y : Tensor V} {b : Option (Tensor V)} (hcomm : ∀ u v, A.bin .mul u v = A.bin .mul v u)
    (h : conv A a x w b = some y) (hsh : shouldIm2Col fast a t st = true) (ht : FitsDims t x.shape)
    (hc : a.ceil = false) (hap : a.autoPad ∈ ["NOTSET", "VALID", "SAME_UPPER", "SAME_LOWER"])
    (hx0 : ∀ d ∈ x.shape, 0 < d) (hw0 : ∀ d ∈ w.shape, 0 < d) :
    convIm2Col A opt junk a t x w b = some y :=
  convIm2Col_spec hcomm h hsh ht hc hap hx0 hw0

/-- Strides, dilations and paddings that differ between the axes. -/
def exConv : WinAttrs := ⟨"NOTSET", false, some [1, 2], 1, none, some [1, 0, 0, 2], some [2, 1]⟩

example : shouldIm2Col true exConv [none, some 2, none, some 4] true = true ∧
    (conv qAlg exConv (qiota [2, 2, 3, 4]) (qiota [3, 2, 2, 2]) (some (qiota [3]))).map Tensor.shape =
      some [2, 3, 2, 4] ∧
    ∀ opt, convIm2Col qAlg opt 7 exConv [none, some 2, none, some 4] (qiota [2, 2, 3, 4]) (qiota [3, 2, 2, 2])
      (some (qiota [3])) = conv qAlg exConv (qiota [2, 2, 3, 4]) (qiota [3, 2, 2, 2]) (some (qiota [3])) := by
  decide +kernel

/-- One image, SAME_LOWER. -/
example : (conv qAlg { exConv with autoPad := "SAME_LOWER", pads := none } (qiota [1, 1, 3, 4]) (qiota [2, 1, 2, 2])
      none).isSome = true ∧ ∀ opt,
    convIm2Col qAlg opt 7 { exConv with autoPad := "SAME_LOWER", pads := none } [some 1, some 1, none, some 4]
      (qiota [1, 1, 3, 4]) (qiota [2, 1, 2, 2]) none =
      conv qAlg { exConv with autoPad := "SAME_LOWER", pads := none } (qiota [1, 1, 3, 4]) (qiota [2, 1, 2, 2]) none := by
  decide +kernel

/-- What the pattern for kernels of one element makes of Conv computes Conv, for any number of spatial axes. `t` and
`tw` are what the compiler knows of the shapes. Partial: no extent is 0. -/
theorem C93_conv_1x1_partial {a : WinAttrs} {t tw : List (Option ℕ)} {x w y : Tensor V} {b : Option (Tensor V)}
    (hcomm : ∀ u v, A.bin .mul u v = A.bin .mul v u) (h : conv A a x w b = some y)
    (hsh : should1x1 a tw = true) (ht : FitsDims t x.shape) (htw : FitsDims tw w.shape) (hr : 3 ≤ x.shape.length)
    (hc : a.ceil = false) (hx0 : ∀ d ∈ x.shape, 0 < d) (hw0 : ∀ d ∈ w.shape, 0 < d) :
    conv1x1 A t tw x w b = some y :=
  conv1x1_spec hcomm h hsh ht htw hr hc hx0 hw0

/-- Default attributes. -/
def exConv1 : WinAttrs := ⟨"NOTSET", false, none, 1, none, some [0, 0], some [1]⟩

example : should1x1 exConv1 [none, some 2, some 1] = true ∧
    (conv qAlg exConv1 (qiota [1, 2, 3]) (qiota [2, 2, 1]) (some (qiota [2]))).map Tensor.shape = some [1, 2, 3] ∧
    conv1x1 qAlg [some 1, none, none] [none, some 2, some 1] (qiota [1, 2, 3]) (qiota [2, 2, 1]) (some (qiota [2])) =
      conv qAlg exConv1 (qiota [1, 2, 3]) (qiota [2, 2, 1]) (some (qiota [2])) := by decide +kernel

/-- Both algorithms for Im2Col fill every element of the matrix of the windows, and load and store only inside of their
buffers. Partial: no spatial extent is 0. -/
theorem C93_im2col_partial {opt : Bool} {junk : V} {a : WinAttrs} {x : Tensor V} {ks xs : List ℕ} {ax : List WinAx}
    {n c : ℕ} (hx : x.shape = n :: c :: xs) (hax : winAxes a xs ks = some ax) (hc : a.ceil = false)
    (hap : a.autoPad ∈ ["NOTSET", "VALID", "SAME_UPPER", "SAME_LOWER"]) (hx0 : ∀ d ∈ xs, 0 < d)
    (hk0 : ∀ d ∈ ks, 0 < d) : im2col A opt junk a x ks = some (im2colDef A ax ks x) :=
  im2col_spec hx (axes_irel hax hc hap hx0 hk0) hx0

example : winAxes exConv [3, 4] [2, 2] = some [⟨3, 2, 2, 1, 1, 2⟩, ⟨4, 2, 1, 2, 0, 4⟩] ∧
    (im2col qAlg true 7 exConv (qiota [1, 1, 3, 4]) [2, 2]).map Tensor.data =
      some [0, 0, 0, 0, 5, 6, 7, 8, 0, 0, 0, 0, 7, 8, 0, 0, 1, 2, 3, 4, 9, 10, 11, 12, 3, 4, 0, 0, 11, 12, 0, 0] := by
  decide +kernel

/-- With an empty image a batch of one image cannot be squeezed: 0 in a request for a new shape copies an extent. -/
theorem C93_empty_false : ∃ (a : WinAttrs) (t : List (Option ℕ)) (x w y : Tensor ℚ),
    conv qAlg a x w none = some y ∧ shouldIm2Col true a t true = true ∧ FitsDims t x.shape ∧
    ∀ opt, convIm2Col qAlg opt 0 a t x w none = none :=
  ⟨⟨"SAME_UPPER", false, none, 1, none, none, none⟩, [some 1, some 1, none, some 2], qiota [1, 1, 0, 2],
    qiota [1, 1, 2, 2], ⟨[1, 1, 0, 2], [], rfl⟩, by decide +kernel, by decide +kernel,
    .cons (.inr rfl) (.cons (.inr rfl) (.cons (.inl rfl) (.cons (.inr rfl) .nil))), by decide +kernel⟩

end Verif.Props
