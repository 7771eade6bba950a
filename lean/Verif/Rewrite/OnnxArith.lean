import Verif.Rewrite.Alg

/-!
# ONNX operators that compute with elements (specification)

What the ONNX operator definitions say about matrix products, convolutions, normalizations and pooling. Like
`Onnx.lean` this is reference semantics and models no code of the compiler. Sums and products are those of the
element operations `A`; the order of a sum is not part of the ONNX definition, and the theorems that need a law
of arithmetic say so.
-/

namespace Verif.Rewrite

variable {V : Type} [Inhabited V]

/-- The sum of `f i` over a list. -/
def sumOver {ι : Type} (A : Alg V) (l : List ι) (f : ι → V) : V :=
  l.foldl (fun acc i => A.bin .add acc (f i)) (A.ofInt 0)

/-- Optional addition. -/
def addOpt (A : Alg V) (v : V) : Option V → V
  | none => v
  | some b => A.bin .add v b

/-! ### MatMul and Gemm -/

/-- The extents of a stack of matrices. -/
def batchOf (s : List ℕ) : List ℕ := s.take (s.length - 2)

/-- The last one or two extents. -/
def matOf (s : List ℕ) : List ℕ := s.drop (s.length - 2)

/-- MatMul as `numpy.matmul`: a product of stacks of matrices, the stacks being broadcast; an operand with one axis is
a row on the left and a column on the right, and that axis does not appear in the result. -/
def matmul (A : Alg V) (a b : Tensor V) : Option (Tensor V) :=
  if a.shape = [] ∨ b.shape = [] ∨ (matOf a.shape).getLastD 0 ≠ (matOf b.shape).headD 0 then none
  else (bshape (batchOf a.shape) (batchOf b.shape)).map fun bt =>
    build (bt ++ (matOf a.shape).dropLast ++ (matOf b.shape).tail) fun idx =>
      sumOver A (List.range ((matOf a.shape).getLastD 0)) fun k =>
        A.bin .mul
          (a.get (bidx (batchOf a.shape) (idx.take bt.length) ++
            (idx.drop bt.length).take ((matOf a.shape).length - 1) ++ [k]))
          (b.get (bidx (batchOf b.shape) (idx.take bt.length) ++ k ::
            idx.drop (bt.length + ((matOf a.shape).length - 1))))

/-- Gemm: `alpha * A' * B' + beta * C` on matrices, where C can be stretched to the shape of the product. -/
def gemm (A : Alg V) (alpha beta : ℚ) (ta tb : Bool) (a b : Tensor V) (c : Option (Tensor V)) :
    Option (Tensor V) :=
  match a.shape, b.shape with
  | [p, q], [r, s] =>
    if (if ta then p else q) ≠ (if tb then s else r) then none
    else if c.any (fun c => bshape c.shape [if ta then q else p, if tb then r else s] ≠
        some [if ta then q else p, if tb then r else s]) then none
    else some (build [if ta then q else p, if tb then r else s] fun idx =>
      let i := idx.getD 0 0
      let j := idx.getD 1 0
      addOpt A (A.bin .mul (A.ofRat alpha) (sumOver A (List.range (if ta then p else q)) fun k =>
        A.bin .mul (a.get (if ta then [k, i] else [i, k])) (b.get (if tb then [j, k] else [k, j]))))
        (c.map fun c => A.bin .mul (A.ofRat beta) (c.get (bidx c.shape idx))))
  | _, _ => none

/-! ### Windows: Conv and MaxPool -/

/-- Attributes of Conv and of the pooling operators (`group` only of Conv, `ceil` only of pooling). -/
structure WinAttrs where
  autoPad : String
  ceil : Bool
  dilations : Option (List ℕ)
  group : ℕ
  kernel : Option (List ℕ)
  pads : Option (List ℕ)
  strides : Option (List ℕ)
deriving DecidableEq

/-- A spatial axis: extents of input, kernel and output, stride, dilation and padding at the beginning. -/
structure WinAx where
  inp : ℕ
  k : ℕ
  s : ℕ
  d : ℕ
  pb : ℕ
  out : ℕ
deriving DecidableEq

/-- One spatial axis. With `ceil` the last window may stick out, but must begin before the padding at the end. -/
def winAxis (autoPad : String) (ceil : Bool) (inp k s d pb pe : ℕ) : Option WinAx :=
  let e := (k - 1) * d + 1
  if s = 0 then none
  else if autoPad = "SAME_UPPER" ∨ autoPad = "SAME_LOWER" then
    let out := (inp + s - 1) / s
    let tot := (out - 1) * s + e - inp
    some ⟨inp, k, s, d, if autoPad = "SAME_UPPER" then tot / 2 else tot - tot / 2, out⟩
  else
    let pb := if autoPad = "VALID" then 0 else pb
    let pe := if autoPad = "VALID" then 0 else pe
    if inp + pb + pe < e then none
    else
      let out := (if ceil then (inp + pb + pe - e + s - 1) / s else (inp + pb + pe - e) / s) + 1
      some ⟨inp, k, s, d, pb, if ceil ∧ inp + pb ≤ (out - 1) * s then out - 1 else out⟩

/-- All spatial axes; strides and dilations are 1 and pads 0 by default. -/
def winAxes (w : WinAttrs) (xs ks : List ℕ) : Option (List WinAx) :=
  let n := xs.length
  let st := w.strides.getD (List.replicate n 1)
  let di := w.dilations.getD (List.replicate n 1)
  let pa := w.pads.getD (List.replicate (2 * n) 0)
  if ks.length = n ∧ st.length = n ∧ di.length = n ∧ pa.length = 2 * n then
    (List.range n).mapM fun i => winAxis w.autoPad w.ceil (xs.getD i 0) (ks.getD i 0) (st.getD i 0)
      (di.getD i 0) (pa.getD i 0) (pa.getD (n + i) 0)
  else none

/-- The position of the input under position `ks` of the window number `os`; `none` in the padding. -/
def winPos : List WinAx → List ℕ → List ℕ → Option (List ℕ)
  | [], [], [] => some []
  | a :: as, o :: os, k :: ks =>
    if a.pb ≤ o * a.s + k * a.d ∧ o * a.s + k * a.d - a.pb < a.inp then
      (winPos as os ks).map ((o * a.s + k * a.d - a.pb) :: ·)
    else none
  | _, _, _ => none

/-- One element of a convolution without bias: output channel number `idx[1]` of `m` sees the input channels of its
group; the input is 0 in the padding. -/
def convDot (A : Alg V) (ax : List WinAx) (group m cg : ℕ) (ks : List ℕ) (x w : Tensor V) (idx : List ℕ) : V :=
  sumOver A (allIndices (cg :: ks)) fun ck =>
    A.bin .mul
      (match winPos ax (idx.drop 2) (ck.drop 1) with
       | some p => x.get (idx.getD 0 0 :: (idx.getD 1 0 / (m / group) * cg + ck.getD 0 0) :: p)
       | none => A.ofInt 0)
      (w.get (idx.getD 1 0 :: ck))

/-- Conv, with an optional bias for each output channel. -/
def conv (A : Alg V) (at_ : WinAttrs) (x w : Tensor V) (b : Option (Tensor V)) : Option (Tensor V) :=
  match x.shape, w.shape with
  | n :: c :: xs, m :: cg :: ks =>
    (winAxes at_ xs ks).bind fun ax =>
      if 0 < at_.group ∧ c = cg * at_.group ∧ at_.group ∣ m ∧ at_.kernel.getD ks = ks ∧
          b.all (fun b => b.shape = [m]) then
        some (build (n :: m :: ax.map WinAx.out) fun idx =>
          addOpt A (convDot A ax at_.group m cg ks x w idx) (b.map fun b => b.get [idx.getD 1 0]))
      else none
  | _, _ => none

/-- The maximum of a non-empty list. -/
def maxOf (A : Alg V) (l : List V) : V := l.tail.foldl (A.bin .max) (l.headD default)

/-- The elements under the window of MaxPool at an index of the result; padding is ignored. -/
def poolWindow (ax : List WinAx) (ks : List ℕ) (x : Tensor V) (idx : List ℕ) : List V :=
  (allIndices ks).filterMap fun k => (winPos ax (idx.drop 2) k).map fun p => x.get (idx.take 2 ++ p)

/-- MaxPool; a window that lies entirely in the padding has no maximum. -/
def maxPool (A : Alg V) (at_ : WinAttrs) (x : Tensor V) : Option (Tensor V) :=
  match x.shape with
  | n :: c :: xs =>
    at_.kernel.bind fun ks => (winAxes at_ xs ks).bind fun ax =>
      if ∀ idx ∈ allIndices (n :: c :: ax.map WinAx.out), (poolWindow ax ks x idx).length ≠ 0 then
        some (build (n :: c :: ax.map WinAx.out) fun idx => maxOf A (poolWindow ax ks x idx))
      else none
  | _ => none

/-! ### Normalization -/

/-- BatchNormalization in inference mode: `(x - mean) / sqrt(var + eps) * scale + bias`, with one parameter for each
index of the channel axis, which is axis 1; with one axis there is a single channel. -/
def batchNorm (A : Alg V) (eps : ℚ) (x sc b mean var : Tensor V) : Option (Tensor V) :=
  let c := if x.shape.length = 1 then 1 else x.shape.getD 1 0
  if x.shape ≠ [] ∧ sc.shape = [c] ∧ b.shape = [c] ∧ mean.shape = [c] ∧ var.shape = [c] then
    some (build x.shape fun idx =>
      let ch := if x.shape.length = 1 then 0 else idx.getD 1 0
      A.bin .add (A.bin .mul (A.bin .div (A.bin .sub (x.get idx) (mean.get [ch]))
        (A.un "Sqrt" [] (A.bin .add (var.get [ch]) (A.ofRat eps)))) (sc.get [ch])) (b.get [ch]))
  else none

/-- The mean of `f i` over a list. -/
def meanOver {ι : Type} (A : Alg V) (l : List ι) (f : ι → V) : V :=
  A.bin .div (sumOver A l f) (A.ofInt l.length)

/-- `(v - mean) / sqrt(variance + eps)` where mean and variance are those of `f` over a list. -/
def standardize {ι : Type} (A : Alg V) (eps : ℚ) (l : List ι) (f : ι → V) (v : V) : V :=
  A.bin .div (A.bin .sub v (meanOver A l f))
    (A.un "Sqrt" [] (A.bin .add
      (meanOver A l fun i => A.bin .mul (A.bin .sub (f i) (meanOver A l f)) (A.bin .sub (f i) (meanOver A l f)))
      (A.ofRat eps)))

/-- LayerNormalization: every slice along the axes from `axis` on is standardized, then scaled and shifted by
operands that can be stretched to the shape of the data. -/
def layerNorm (A : Alg V) (axis : ℤ) (eps : ℚ) (x sc : Tensor V) (b : Option (Tensor V)) : Option (Tensor V) :=
  (normAxis x.shape.length axis).bind fun ax =>
    if bshape sc.shape x.shape = some x.shape ∧ b.all (fun b => bshape b.shape x.shape = some x.shape) then
      some (build x.shape fun idx =>
        addOpt A (A.bin .mul
          (standardize A eps (allIndices (x.shape.drop ax)) (fun j => x.get (idx.take ax ++ j)) (x.get idx))
          (sc.get (bidx sc.shape idx))) (b.map fun b => b.get (bidx b.shape idx)))
    else none

/-- InstanceNormalization: every channel of every instance is standardized, then scaled and shifted by the
parameters of the channel. -/
def instanceNorm (A : Alg V) (eps : ℚ) (x sc b : Tensor V) : Option (Tensor V) :=
  if 2 < x.shape.length ∧ sc.shape = [x.shape.getD 1 0] ∧ b.shape = [x.shape.getD 1 0] then
    some (build x.shape fun idx =>
      A.bin .add (A.bin .mul
        (standardize A eps (allIndices (x.shape.drop 2)) (fun j => x.get (idx.take 2 ++ j)) (x.get idx))
        (sc.get [idx.getD 1 0])) (b.get [idx.getD 1 0]))
  else none

/-- GroupNormalization: the channels are divided in `groups` groups of equal size; every group of every instance is
standardized, then scaled and shifted by the parameters of the channel, or of the group in version 18. -/
def groupNorm (A : Alg V) (v18 : Bool) (groups : ℕ) (eps : ℚ) (x sc b : Tensor V) : Option (Tensor V) :=
  let c := x.shape.getD 1 0
  let par := if v18 then groups else c
  if 2 < x.shape.length ∧ 0 < groups ∧ groups ∣ c ∧ sc.shape = [par] ∧ b.shape = [par] then
    some (build x.shape fun idx =>
      let g := idx.getD 1 0 / (c / groups)
      let p := if v18 then g else idx.getD 1 0
      A.bin .add (A.bin .mul
        (standardize A eps (allIndices ((c / groups) :: x.shape.drop 2))
          (fun j => x.get (idx.getD 0 0 :: (g * (c / groups) + j.getD 0 0) :: j.drop 1)) (x.get idx))
        (sc.get [p])) (b.get [p]))
  else none

/-! ### Clip -/

/-- Apply an operator with an optional bound. -/
def bound (f : V → V → V) (b : Option (Tensor V)) (v : V) : V :=
  match b with
  | none => v
  | some t => f v (t.get [])

/-- Clip: `min(max(x, lo), hi)`; the bounds are optional and have no axes. -/
def clip (A : Alg V) (x : Tensor V) (lo hi : Option (Tensor V)) : Option (Tensor V) :=
  if lo.all (fun t => t.shape = []) ∧ hi.all (fun t => t.shape = []) then
    some (x.map fun v => bound (A.bin .min) hi (bound (A.bin .max) lo v))
  else none

end Verif.Rewrite
