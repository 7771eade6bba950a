import Verif.ConvTranspose.Spec

/-!
# Decomposition of ConvTranspose

Models `DecomposeConvTransposePattern` (/repo/src/Dialect/ONNX/Transforms/Decompose.cpp 286-565), the shape helper of
ConvTranspose (/repo/src/Dialect/ONNX/ONNXOps/NN/Conv.cpp 360-480), and UpsampleAndPad
(/repo/src/Dialect/ONNX/ONNXOps/Additional/UpsampleAndPad.cpp, /repo/src/Conversion/ONNXToKrnl/Additional/UpsampleAndPad.cpp).
The integers of the code are 64 bits wide, those of the model unbounded.
-/

namespace Verif.ConvTranspose

open Verif.Rewrite

variable {V : Type} [Inhabited V]

/-! ### Attributes -/

/-- A spatial axis as the pattern sees it. -/
structure MAxis where
  inp : ℕ
  k : ℕ
  s : ℕ
  d : ℕ
  op : ℕ
  padTop : ℤ
  padBottom : ℤ
deriving DecidableEq

/-- Decompose.cpp 360-400: paddings when `output_shape` is given. C++ division rounds toward zero. -/
def padsFromOutput (autoPad : String) (inp k s d op out : ℕ) : ℤ × ℤ :=
  let total : ℤ := s * ((inp : ℤ) - 1) + op + (((k : ℤ) - 1) * d + 1) - out
  let p : ℤ × ℤ :=
    if autoPad = "SAME_UPPER" ∨ autoPad = "NOTSET" then (total.tdiv 2, total - total.tdiv 2)
    else (total - total.tdiv 2, total.tdiv 2)
  if p.1 < 0 then (p.2, p.1) else p

/-- Decompose.cpp 407-429: paddings of SAME_UPPER and SAME_LOWER without `output_shape`. -/
def padsSame (autoPad : String) (k s d op : ℕ) : ℤ × ℤ :=
  let total : ℤ := max 0 ((op : ℤ) + (((k : ℤ) - 1) * d + 1) - s)
  if autoPad = "SAME_UPPER" then (total.tdiv 2, total - total.tdiv 2)
  else (total - total.tdiv 2, total.tdiv 2)

/-- Decompose.cpp 354-443: `padTop` and `padBottom` of one axis. -/
def padsOf (autoPad : String) (inp k s d op pb pe : ℕ) (os : Option ℕ) : ℤ × ℤ :=
  match os with
  | some out => padsFromOutput autoPad inp k s d op out
  | none =>
    if autoPad = "VALID" then (0, 0)
    else if autoPad = "SAME_UPPER" ∨ autoPad = "SAME_LOWER" then padsSame autoPad k s d op
    else (pb, pe)

/-- Conv.cpp 384-408 and Decompose.cpp 337-346: attributes of one axis with their defaults. The kernel extent is the
attribute, which the verifier compares with the weights (NNHelper.cpp.inc 182-224). -/
def mAxis (a : Attrs) (xs ks : List ℕ) (i : ℕ) : MAxis :=
  let inp := xs.getD i 0
  let k := (a.kernel.getD ks).getD i 0
  let s := a.strides.elim 1 (·.getD i 0)
  let d := a.dilations.elim 1 (·.getD i 0)
  let op := a.outputPadding.elim 0 (·.getD i 0)
  let p := padsOf a.autoPad inp k s d op (a.pads.elim 0 (·.getD i 0)) (a.pads.elim 0 (·.getD (i + xs.length) 0))
    (a.outputShape.map fun o => o.getD i 0)
  ⟨inp, k, s, d, op, p.1, p.2⟩

/-- All spatial axes. -/
def mAxes (a : Attrs) (xs ks : List ℕ) : List MAxis := (List.range xs.length).map (mAxis a xs ks)

/-! ### UpsampleAndPad -/

/-- Stride and paddings of one axis of UpsampleAndPad. -/
structure UAxis where
  s : ℕ
  pb : ℤ
  pe : ℤ
deriving DecidableEq

/-- Additional/UpsampleAndPad.cpp 78-109: extents of the result; the last axes are those of `u`. -/
def upDims (xs : List ℕ) (u : List UAxis) : List ℤ :=
  (xs.take (xs.length - u.length)).map (fun (d : ℕ) => (d : ℤ)) ++
    List.zipWith (fun (d : ℕ) (a : UAxis) => ((d : ℤ) - 1) * a.s + 1 + (a.pb + a.pe)) (xs.drop (xs.length - u.length)) u

/-- ONNXToKrnl/Additional/UpsampleAndPad.cpp 121-137: where the element at an index of the input is stored. -/
def upTarget (u : List UAxis) (idx : List ℕ) : List ℤ :=
  (idx.take (idx.length - u.length)).map (fun (i : ℕ) => (i : ℤ)) ++
    List.zipWith (fun (i : ℕ) (a : UAxis) => (i : ℤ) * a.s + a.pb) (idx.drop (idx.length - u.length)) u

/-- A store to a buffer of shape `s`; `none` when the index is outside. -/
def storeAt (s : List ℕ) (data : List V) (idx : List ℤ) (v : V) : Option (List V) :=
  if List.Forall₂ (fun (i : ℤ) (d : ℕ) => 0 ≤ i ∧ i < d) idx s then
    some (data.set (rowMajor s (idx.map Int.toNat)) v)
  else none

/-- ONNXToKrnl/Additional/UpsampleAndPad.cpp 105-141: the loop nest over the input. -/
def upLoop (s : List ℕ) (u : List UAxis) (x : Tensor V) : List (List ℕ) → List V → Option (List V)
  | [], data => some data
  | i :: is, data => (storeAt s data (upTarget u i) (x.get i)).bind fun data => upLoop s u x is data

/-- The lowering of UpsampleAndPad (lines 90-141): a buffer of zeros, filled by the loops. `none`: more axes than the input has
(rejected by the verifier), a negative extent, or a store outside of the buffer. When all strides are 1 the operator is
turned into Pad first (/repo/src/Dialect/ONNX/ONNXOps/Canonicalize.td 549-558), whose lowering runs the same loops
(/repo/src/Conversion/ONNXToKrnl/Tensor/Pad.cpp 64-108). -/
def upsampleAndPad (A : Alg V) (x : Tensor V) (u : List UAxis) : Option (Tensor V) :=
  if u.length ≤ x.shape.length ∧ ∀ d ∈ upDims x.shape u, 0 ≤ d then
    let s := (upDims x.shape u).map Int.toNat
    (upLoop s u x (allIndices x.shape) (List.replicate s.prod (A.ofInt 0))).map fun data =>
      build s fun q => data.getD (rowMajor s q) default
  else none

/-! ### The pattern -/

/-- Decompose.cpp 445-475: stride and paddings of UpsampleAndPad. -/
def upAxis (m : MAxis) : UAxis :=
  ⟨m.s, ((m.k : ℤ) - 1) * m.d - m.padTop, ((m.k : ℤ) - 1) * m.d - m.padBottom + m.op⟩

/-- INT64_MAX and INT64_MIN. -/
def i64max : ℤ := 2 ^ 63 - 1
def i64min : ℤ := -2 ^ 63

/-- Decompose.cpp 477-548: the weights are reshaped to one matrix for each group, flipped along the spatial axes,
transposed and reshaped again. -/
def convWeights (group : ℕ) (w : Tensor V) : Option (Tensor V) :=
  let cin := w.shape.getD 0 0
  let coutPg := w.shape.getD 1 0
  let cinPg := cin / group
  let ks := w.shape.drop 2
  let n := ks.length
  (reshape w false ((group :: cinPg :: coutPg :: ks).map fun (d : ℕ) => (d : ℤ))).bind fun w1 =>
    (slice w1 (List.replicate n i64max) (List.replicate n i64min)
      (some ((List.range n).map fun i => ((3 + i : ℕ) : ℤ))) (some (List.replicate n (-1)))).bind fun w2 =>
      (transpose w2 (0 :: 2 :: 1 :: (List.range n).map (3 + ·))).bind fun w3 =>
        reshape w3 false (((group * coutPg) :: cinPg :: ks).map fun (d : ℕ) => (d : ℤ))

/-- Decompose.cpp 550-562: the attributes of the convolution. -/
def convAttrs (m : List MAxis) (group : ℕ) (ks : List ℕ) : WinAttrs :=
  { autoPad := "VALID", ceil := false, dilations := some (m.map MAxis.d), group := group, kernel := some ks,
    pads := some (List.replicate (2 * m.length) 0), strides := some (List.replicate m.length 1) }

/-- Decompose.cpp 298-565: what the operators that replace ConvTranspose compute. Modelled for weights of static shape
(the pattern requires it) and, with `output_shape`, an input of static shape. -/
def decomposed (A : Alg V) (a : Attrs) (x w : Tensor V) (b : Option (Tensor V)) : Option (Tensor V) :=
  let m := mAxes a (x.shape.drop 2) (w.shape.drop 2)
  (upsampleAndPad A x (m.map upAxis)).bind fun xUp =>
    (convWeights a.group w).bind fun wConv =>
      conv A (convAttrs m a.group (w.shape.drop 2)) xUp wConv b

/-! ### Shape inference -/

/-- Conv.cpp 416-484: the spatial extent that shape inference gives to the result. -/
def shapeAxis (autoPad : String) (inp k s d op pb pe : ℕ) (os : Option ℕ) : ℤ :=
  match os with
  | some out => out
  | none =>
    if autoPad = "NOTSET" ∨ autoPad = "VALID" then
      let pSum : ℤ := if autoPad = "NOTSET" then (pb : ℤ) + pe else 0
      s * ((inp : ℤ) - 1) + op + (((k : ℤ) - 1) * d + 1) - pSum
    else (inp : ℤ) * s

/-- Conv.cpp 410-489: the inferred shape of the result. -/
def inferredShape (a : Attrs) (x w : List ℕ) : List ℤ :=
  let xs := x.drop 2
  let ks := w.drop 2
  (x.getD 0 0 : ℤ) :: ((w.getD 1 0 : ℤ) * a.group) :: (List.range xs.length).map fun i =>
    shapeAxis a.autoPad (xs.getD i 0) ((a.kernel.getD ks).getD i 0) (a.strides.elim 1 (·.getD i 0))
      (a.dilations.elim 1 (·.getD i 0)) (a.outputPadding.elim 0 (·.getD i 0)) (a.pads.elim 0 (·.getD i 0))
      (a.pads.elim 0 (·.getD (i + xs.length) 0)) (a.outputShape.map fun o => o.getD i 0)

end Verif.ConvTranspose
