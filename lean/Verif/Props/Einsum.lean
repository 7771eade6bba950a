import Verif.Einsum.Main
import Verif.Einsum.Equation
import Verif.Rewrite.CheckIn

/-!
# C94: the decomposition of Einsum

Specification: `einsum` and `Fits` (`Verif/Einsum/Spec.lean`).
-/

namespace Verif.Props

open Verif.Rewrite Verif.Einsum

variable {V : Type} [Inhabited V] {A : Alg V}

/-- What Einsum is decomposed into computes the sum of products, whatever the number of operands, with repeated subscripts,
stretched axes and empty tensors, and in whatever order the code goes through the repeated subscripts of an operand. All
operators it is decomposed into are defined, and have the recorded result types. -/
theorem C94_einsum [CommRing V] (hA : RingAlg A) (hone : A.truth (A.ofInt 1) = true)
    (hzero : A.truth (A.ofInt 0) = false) {order : List Char → List Char} (horder : ∀ l, (order l).Perm l)
    {ins : List (List Char × Tensor V)} {out : List Char} (hf : Fits ins out) (hne : ins ≠ []) :
    decompose A order ins out (out.map (extent ins)) = some (einsum ins out) :=
  decompose_spec hA ⟨hone, hzero⟩ horder hf hne rfl

/-- Rational numbers. -/
theorem qAlg_ring : RingAlg qAlg := ⟨fun _ _ => rfl, fun _ _ => rfl, by simp [qAlg], rfl⟩

example : qAlg.truth (qAlg.ofInt 1) = true ∧ qAlg.truth (qAlg.ofInt 0) = false := by decide +kernel

/-- A product of two matrices, by MatMul. -/
example : Fits [("ij".toList, qiota [2, 3]), ("jk".toList, qiota [3, 2])] "ki".toList ∧
    (einsum [("ij".toList, qiota [2, 3]), ("jk".toList, qiota [3, 2])] "ki".toList).data = [22, 49, 28, 64] ∧
    decompose qAlg id [("ij".toList, qiota [2, 3]), ("jk".toList, qiota [3, 2])] "ki".toList [2, 2] =
      some (einsum [("ij".toList, qiota [2, 3]), ("jk".toList, qiota [3, 2])] "ki".toList) :=
  ⟨⟨by decide +kernel, by decide +kernel, by decide +kernel, by decide +kernel, by decide +kernel⟩,
    by decide +kernel, by decide +kernel⟩

/-- Three operands, a diagonal, a stretched axis, and a subscript that is summed over in one operand. -/
def exEin : List (List Char × Tensor ℚ) :=
  [("iij".toList, qiota [2, 2, 3]), ("jb".toList, qiota [1, 2]), ("bki".toList, qiota [2, 2, 1])]

example : Fits exEin "bi".toList ∧ (einsum exEin "bi".toList).shape = [2, 2] ∧
    decompose qAlg List.reverse exEin "bi".toList [2, 2] = some (einsum exEin "bi".toList) :=
  ⟨⟨by decide +kernel, by decide +kernel, by decide +kernel, by decide +kernel, by decide +kernel⟩,
    by decide +kernel, by decide +kernel⟩

/-- An empty sum. -/
example : Fits [("ij".toList, qiota [2, 0])] "i".toList ∧
    (einsum [("ij".toList, qiota [2, 0])] "i".toList).data = [0, 0] :=
  ⟨⟨by decide +kernel, by decide +kernel, by decide +kernel, by decide +kernel, by decide +kernel⟩, by decide +kernel⟩

end Verif.Props
