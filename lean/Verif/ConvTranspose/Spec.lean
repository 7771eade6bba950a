import Verif.Rewrite.OnnxArith

/-!
# ConvTranspose (specification)

The ONNX definition of ConvTranspose, as quoted in /repo/docs/Dialects/onnx.md (`onnx.ConvTranspose`), and the
description of UpsampleAndPad. Nothing here models code of the compiler.
-/

namespace Verif.ConvTranspose

open Verif.Rewrite

variable {V : Type} [Inhabited V]

/-- The attributes of ConvTranspose. -/
structure Attrs where
  autoPad : String
  dilations : Option (List ℕ)
  group : ℕ
  kernel : Option (List ℕ)
  outputPadding : Option (List ℕ)
  outputShape : Option (List ℕ)
  pads : Option (List ℕ)
  strides : Option (List ℕ)

/-- A spatial axis: extents of input and kernel, stride, dilation, padding at both ends, extent of the output. -/
structure Axis where
  inp : ℕ
  k : ℕ
  s : ℕ
  d : ℕ
  padB : ℤ
  padE : ℤ
  out : ℕ
deriving DecidableEq

/-- The extent of the output before padding is removed. -/
def fullExtent (inp k s d op : ℕ) : ℤ := s * ((inp : ℤ) - 1) + op + (((k : ℤ) - 1) * d + 1)

/-- The paddings when the extent of the output is given: half of the total at each end, and of an odd total the
smaller half at the beginning for SAME_UPPER, at the end otherwise. The equations are read for totals that are not
negative. -/
def givenExtent (autoPad : String) (inp k s d op out : ℕ) : Option Axis :=
  let total := fullExtent inp k s d op - out
  if 0 ≤ total ∧ 0 < out then
    some (if autoPad = "SAME_UPPER" then ⟨inp, k, s, d, total / 2, total - total / 2, out⟩
      else ⟨inp, k, s, d, total - total / 2, total / 2, out⟩)
  else none

/-- One axis. With SAME_UPPER and SAME_LOWER the output is `s` times as long as the input. -/
def axisOf (autoPad : String) (inp k s d op pb pe : ℕ) (os : Option ℕ) : Option Axis :=
  if 0 < k ∧ 0 < s ∧ 0 < d then
    match os with
    | some out => givenExtent autoPad inp k s d op out
    | none =>
      if autoPad = "SAME_UPPER" ∨ autoPad = "SAME_LOWER" then givenExtent autoPad inp k s d op (inp * s)
      else
        let pb : ℤ := if autoPad = "VALID" then 0 else pb
        let pe : ℤ := if autoPad = "VALID" then 0 else pe
        if 0 < fullExtent inp k s d op - pb - pe then
          some ⟨inp, k, s, d, pb, pe, (fullExtent inp k s d op - pb - pe).toNat⟩
        else none
  else none

/-- All spatial axes; strides and dilations are 1, paddings 0 by default. -/
def axesOf (a : Attrs) (xs ks : List ℕ) : Option (List Axis) :=
  let n := xs.length
  let st := a.strides.getD (List.replicate n 1)
  let di := a.dilations.getD (List.replicate n 1)
  let op := a.outputPadding.getD (List.replicate n 0)
  let pa := a.pads.getD (List.replicate (2 * n) 0)
  if (a.autoPad ∈ ["NOTSET", "VALID", "SAME_UPPER", "SAME_LOWER"]) ∧ ks.length = n ∧ st.length = n ∧
      di.length = n ∧ op.length = n ∧ pa.length = 2 * n ∧ a.outputShape.all (fun o => o.length = n) then
    (List.range n).mapM fun i => axisOf a.autoPad (xs.getD i 0) (ks.getD i 0) (st.getD i 0) (di.getD i 0)
      (op.getD i 0) (pa.getD i 0) (pa.getD (n + i) 0) (a.outputShape.map fun o => o.getD i 0)
  else none

/-- The product of input element `i` and kernel element `k` belongs to output element `o`. -/
def lands : List Axis → List ℕ → List ℕ → List ℕ → Bool
  | [], [], [], [] => true
  | a :: as, i :: is, k :: ks, o :: os =>
    decide ((i * a.s + k * a.d : ℤ) = o + a.padB) && lands as is ks os
  | _, _, _, _ => false

/-- One element of the result without bias: the sum of all products that land there. Output channel `m` of group `g`
sees the input channels of its group; the weights have one row for each input channel and one column for each output
channel of a group. -/
def ctDot (A : Alg V) (ax : List Axis) (cg mg : ℕ) (xs ks : List ℕ) (x w : Tensor V) (idx : List ℕ) : V :=
  sumOver A (allIndices (cg :: ks)) fun ck =>
    sumOver A ((allIndices xs).filter fun i => lands ax i (ck.drop 1) (idx.drop 2)) fun i =>
      A.bin .mul (x.get (idx.getD 0 0 :: (idx.getD 1 0 / mg * cg + ck.getD 0 0) :: i))
        (w.get ((idx.getD 1 0 / mg * cg + ck.getD 0 0) :: idx.getD 1 0 % mg :: ck.drop 1))

/-- ConvTranspose, with an optional bias for each output channel. -/
def convTranspose (A : Alg V) (a : Attrs) (x w : Tensor V) (b : Option (Tensor V)) : Option (Tensor V) :=
  match x.shape, w.shape with
  | n :: c :: xs, c' :: mg :: ks =>
    (axesOf a xs ks).bind fun ax =>
      if 0 < a.group ∧ c = c' ∧ a.group ∣ c ∧ a.kernel.getD ks = ks ∧
          b.all (fun b => b.shape = [mg * a.group]) then
        some (build (n :: mg * a.group :: ax.map Axis.out) fun idx =>
          addOpt A (ctDot A ax (c / a.group) mg xs ks x w idx) (b.map fun b => b.get [idx.getD 1 0]))
      else none
  | _, _ => none

end Verif.ConvTranspose
