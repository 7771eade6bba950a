import Verif.ConvTranspose.Model

/-!
# Conv as a matrix product

Model of the two patterns that replace Conv by MatMul (/repo/src/Dialect/ONNX/Transforms/Decompose.cpp 614-707 and
1257-1598), of the shape helper of Im2Col (/repo/src/Dialect/ONNX/ONNXOps/Additional/Im2Col.cpp) and of its two
lowerings (/repo/src/Conversion/ONNXToKrnl/Additional/Im2Col.cpp). Integers are exact: 64-bit overflow is not modelled.
-/

namespace Verif.ConvMatMul

open Verif.Rewrite
open Verif.ConvTranspose (storeAt)

variable {V : Type} [Inhabited V]

/-! ### Buffers -/

/-- A load from a buffer; `none` when the index is outside. -/
def loadAt (x : Tensor V) (idx : List ℤ) : Option V :=
  if List.Forall₂ (fun (i : ℤ) (d : ℕ) => 0 ≤ i ∧ i < d) idx x.shape then some (x.get (idx.map Int.toNat)) else none

/-- A loop that computes a value and stores it: `none` when a load or a store is outside of its buffer. -/
def storeAll {ι : Type} (s : List ℕ) (tgt : ι → List ℤ) (val : ι → Option V) : List ι → List V → Option (List V)
  | [], data => some data
  | i :: l, data => (val i).bind fun v => (storeAt s data (tgt i) v).bind fun data => storeAll s tgt val l data

/-! ### The shape helper of Im2Col -/

/-- One spatial axis: extents of input and kernel, stride, dilation, paddings and extent of the output. -/
structure IAxis where
  inp : ℕ
  k : ℕ
  s : ℕ
  d : ℕ
  pb : ℤ
  pe : ℤ
  out : ℤ
deriving DecidableEq

/-- Additional/Im2Col.cpp (Dialect) 89-120: paddings of SAME_UPPER and SAME_LOWER. -/
def samePads (autoPad : String) (inp k s d : ℕ) : ℤ × ℤ :=
  let e : ℤ := ((k : ℤ) - 1) * d + 1
  let out : ℤ := ((inp : ℤ) + s - 1) / s
  let total := max 0 ((out - 1) * s + e - inp)
  if autoPad = "SAME_UPPER" then (total / 2, total - total / 2) else (total - total / 2, total / 2)

/-- Additional/Im2Col.cpp (Dialect) 67-123: the paddings of an axis. -/
def i2cPads (autoPad : String) (inp k s d pb pe : ℕ) : ℤ × ℤ :=
  if autoPad = "NOTSET" then (pb, pe) else if autoPad = "VALID" then (0, 0) else samePads autoPad inp k s d

/-- Additional/Im2Col.cpp (Dialect) 125-145: the extent of the output along an axis. The divisor, a stride, is
positive. -/
def i2cAxis (autoPad : String) (inp k s d pb pe : ℕ) : IAxis :=
  let p := i2cPads autoPad inp k s d pb pe
  ⟨inp, k, s, d, p.1, p.2, ((inp : ℤ) + p.1 + p.2 - (((k : ℤ) - 1) * d + 1)) / s + 1⟩

/-- Additional/Im2Col.cpp (Dialect) 39-69: attributes with their defaults, axis by axis. -/
def i2cAxes (a : WinAttrs) (xs ks : List ℕ) : List IAxis :=
  (List.range xs.length).map fun i => i2cAxis a.autoPad (xs.getD i 0) (ks.getD i 0)
    (a.strides.elim 1 (·.getD i 0)) (a.dilations.elim 1 (·.getD i 0))
    (a.pads.elim 0 (·.getD i 0)) (a.pads.elim 0 (·.getD (xs.length + i) 0))

/-- Additional/Im2Col.cpp (Dialect) 147-165: the shape of the result. -/
def i2cDims (n c : ℕ) (ax : List IAxis) : List ℤ :=
  [(n : ℤ), ax.foldl (fun (r : ℤ) (a : IAxis) => r * a.k) c, ax.foldl (fun r a => r * a.out) 1]

/-! ### The lowerings of Im2Col -/

/-- Additional/Im2Col.cpp (ONNXToKrnl) 118-127: the column of an output position. -/
def colIdx (ax : List IAxis) (o : List ℕ) : ℤ :=
  ((o.zip ax).foldr (fun p (acc : ℤ × ℤ) => (acc.1 + (p.1 : ℤ) * acc.2, acc.2 * p.2.out)) (0, 1)).1

/-- Additional/Im2Col.cpp (ONNXToKrnl) 129-142: the row of an input channel and a kernel position. -/
def rowIdx (ks : List ℕ) (c : ℕ) (k : List ℕ) : ℤ :=
  (List.range ks.length).foldl (fun (p : ℤ) i => p + (k.getD i 0 : ℤ) * ((ks.drop (i + 1)).prod : ℤ))
    (ks.foldl (fun (p : ℤ) (d : ℕ) => p * d) c)

/-- Additional/Im2Col.cpp (ONNXToKrnl) 144-154: the input position under a kernel position. -/
def inIdx : List IAxis → List ℕ → List ℕ → List ℤ
  | a :: ax, o :: os, k :: ks => ((o : ℤ) * a.s + (k : ℤ) * a.d - a.pb) :: inIdx ax os ks
  | _, _, _ => []

/-- Additional/Im2Col.cpp (ONNXToKrnl) 156-168: is that position inside of the input? -/
def inside (ax : List IAxis) (p : List ℤ) : Prop := List.Forall₂ (fun (i : ℤ) (a : IAxis) => 0 ≤ i ∧ i < a.inp) p ax

instance (ax : List IAxis) (p : List ℤ) : Decidable (inside ax p) := by unfold inside; infer_instance

/-- Additional/Im2Col.cpp (ONNXToKrnl) 170-186: the value; outside of the input the element at spatial position 0 is
loaded and replaced by zero. -/
def simpleVal (A : Alg V) (x : Tensor V) (ax : List IAxis) (n c : ℕ) (o k : List ℕ) : Option V :=
  let p := inIdx ax o k
  (loadAt x ((n : ℤ) :: (c : ℤ) :: p.map fun i => if inside ax p then i else 0)).map fun v =>
    if inside ax p then v else A.ofInt 0

/-- The number of spatial axes splits the loop indices `n, o…, c, k…`. -/
def loopN (_ : ℕ) (i : List ℕ) : ℕ := i.getD 0 0
def loopO (r : ℕ) (i : List ℕ) : List ℕ := (i.drop 1).take r
def loopC (r : ℕ) (i : List ℕ) : ℕ := i.getD (1 + r) 0
def loopK (r : ℕ) (i : List ℕ) : List ℕ := i.drop (2 + r)

/-- Additional/Im2Col.cpp (ONNXToKrnl) 48-195: the simple algorithm, for any number of spatial axes. -/
def simpleLoop (A : Alg V) (x : Tensor V) (ax : List IAxis) (ks : List ℕ) (s : List ℕ) (data : List V) :
    Option (List V) :=
  storeAll s (fun i => [(loopN ax.length i : ℤ), rowIdx ks (loopC ax.length i) (loopK ax.length i),
      colIdx ax (loopO ax.length i)])
    (fun i => simpleVal A x ax (loopN ax.length i) (loopC ax.length i) (loopO ax.length i) (loopK ax.length i))
    (allIndices (x.shape.getD 0 0 :: (ax.map fun a => a.out.toNat) ++ x.shape.getD 1 0 :: ks)) data

/-- Additional/Im2Col.cpp (ONNXToKrnl) 294-339: the value when the whole kernel is inside of the input. -/
def interiorVal (x : Tensor V) (n c ih iw : ℤ) : Option V := loadAt x [n, c, ih, iw]

/-- Additional/Im2Col.cpp (ONNXToKrnl) 340-414: the value near the border; the row is checked before the column. -/
def borderVal (A : Alg V) (x : Tensor V) (h w : ℕ) (n c ih iw : ℤ) : Option V :=
  let hin := 0 ≤ ih ∧ ih < h
  let win := 0 ≤ iw ∧ iw < w
  (loadAt x [n, c, if hin then ih else 0, if hin ∧ win then iw else 0]).map fun v =>
    if hin ∧ win then v else A.ofInt 0

/-- Additional/Im2Col.cpp (ONNXToKrnl) 272-284: image, row and column of a linearized output column, and the base
position in the input. -/
def colN (oh ow l : ℕ) : ℕ := l / (oh * ow)
def colQ (oh ow l : ℕ) : ℕ := l - l / (oh * ow) * (oh * ow)
def colH (oh ow l : ℕ) : ℕ := colQ oh ow l / ow
def colW (oh ow l : ℕ) : ℕ := colQ oh ow l - colH oh ow l * ow

/-- Additional/Im2Col.cpp (ONNXToKrnl) 284-291: is the whole kernel inside of the input? -/
def interior (a b : IAxis) (ihb iwb : ℤ) : Prop :=
  (0 ≤ ihb ∧ 0 ≤ iwb) ∧ ihb + ((a.k : ℤ) - 1) * a.d < a.inp ∧ iwb + ((b.k : ℤ) - 1) * b.d < b.inp

instance (a b : IAxis) (ihb iwb : ℤ) : Decidable (interior a b ihb iwb) := by unfold interior; infer_instance

/-- The value of the optimized algorithm. -/
def optVal (A : Alg V) (x : Tensor V) (a b : IAxis) (l c kh kw : ℕ) : Option V :=
  let oh := a.out.toNat
  let ow := b.out.toNat
  let ihb : ℤ := (colH oh ow l : ℤ) * a.s - a.pb
  let iwb : ℤ := (colW oh ow l : ℤ) * b.s - b.pb
  if interior a b ihb iwb then interiorVal x (colN oh ow l) c (ihb + (kh : ℤ) * a.d) (iwb + (kw : ℤ) * b.d)
  else borderVal A x a.inp b.inp (colN oh ow l) c (ihb + (kh : ℤ) * a.d) (iwb + (kw : ℤ) * b.d)

/-- Additional/Im2Col.cpp (ONNXToKrnl) 206-417: the optimized algorithm, for two spatial axes. The loop indices are the
linearized column, the input channel and the kernel position. -/
def optLoop (A : Alg V) (x : Tensor V) (a b : IAxis) (s : List ℕ) (data : List V) : Option (List V) :=
  storeAll s (fun i => [(colN a.out.toNat b.out.toNat (i.getD 0 0) : ℤ),
      (i.getD 1 0 : ℤ) * ((a.k * b.k : ℕ) : ℤ) + (i.getD 2 0 : ℤ) * b.k + i.getD 3 0,
      (colQ a.out.toNat b.out.toNat (i.getD 0 0) : ℤ)])
    (fun i => optVal A x a b (i.getD 0 0) (i.getD 1 0) (i.getD 2 0) (i.getD 3 0))
    (allIndices [x.shape.getD 0 0 * (a.out.toNat * b.out.toNat), x.shape.getD 1 0, a.k, b.k]) data

/-- Additional/Im2Col.cpp (ONNXToKrnl) 218-222 and 449-454: the choice of the algorithm (the optimized one above
optimization level 0). -/
def i2cLoop (A : Alg V) (opt : Bool) (x : Tensor V) (ax : List IAxis) (ks s : List ℕ) (data : List V) :
    Option (List V) :=
  match opt, ax with
  | true, [a, b] => optLoop A x a b s data
  | _, _ => simpleLoop A x ax ks s data

/-- Im2Col: a buffer with any contents (`junk`), filled by the loops. `none`: a negative extent, or a load or a store
outside of its buffer. -/
def im2col (A : Alg V) (opt : Bool) (junk : V) (a : WinAttrs) (x : Tensor V) (ks : List ℕ) : Option (Tensor V) :=
  let ax := i2cAxes a (x.shape.drop 2) ks
  let dims := i2cDims (x.shape.getD 0 0) (x.shape.getD 1 0) ax
  if ∀ a ∈ ax, 0 ≤ a.out then
    let s := dims.map Int.toNat
    (i2cLoop A opt x ax ks s (List.replicate s.prod junk)).map fun data =>
      build s fun q => data.getD (rowMajor s q) default
  else none

/-! ### Collapsing axes -/

/-- The extents `from` … `to - 1`. -/
def cut {α : Type} (l : List α) (i j : ℕ) : List α := (l.drop i).take (j - i)

/-- /repo/src/Dialect/ONNX/DialectBuilder.cpp 675-698: the collapsed extent: a literal when the recorded extents are
known, otherwise -1. -/
def collapsed (l : List (Option ℕ)) : Option ℕ := (l.mapM id).map List.prod

/-- The request for an extent. -/
def reqOf : Option ℕ → ℤ
  | none => -1
  | some d => d

/-- DialectBuilder.cpp 648-713: `reshapeToNDim` of a tensor with recorded shape `t`, with the recorded shape of the
result. -/
def reshapeToNDim (t : List (Option ℕ)) (x : Tensor V) (n : ℕ) (msb : Bool) :
    Option (List (Option ℕ) × Tensor V) :=
  let r := x.shape.length
  if r < n then none
  else if r = n then some (t, x)
  else if msb then
    let c := collapsed (cut t 0 (r - (n - 1)))
    (reshape x false (reqOf c :: (cut x.shape (r - (n - 1)) r).map fun (d : ℕ) => (d : ℤ))).map fun y =>
      (c :: cut t (r - (n - 1)) r, y)
  else
    let c := collapsed (cut t (n - 1) r)
    (reshape x false (((cut x.shape 0 (n - 1)).map fun (d : ℕ) => (d : ℤ)) ++ [reqOf c])).map fun y =>
      (cut t 0 (n - 1) ++ [c], y)

/-! ### The patterns -/

/-- Decompose.cpp 1346-1356 and 1562-1568: the bias, as a column, is added to the product. -/
def addBias (A : Alg V) (y : Tensor V) : Option (Tensor V) → Option (Tensor V)
  | none => some y
  | some b => (unsqueeze b [-1]).bind fun c => binary (A.bin .add) y c

/-- Decompose.cpp 1389-1454: the extent of the output along an axis, computed by Add and Div (which truncates). -/
def outExtent (autoPad : String) (inp k s d : ℤ) (pb pe : ℤ) : ℤ :=
  if autoPad = "SAME_UPPER" ∨ autoPad = "SAME_LOWER" then (inp + (s - 1)).tdiv s
  else if autoPad = "VALID" then (inp + (0 - ((k - 1) * d + 1) + s)).tdiv s
  else (inp + (pb + pe - ((k - 1) * d + 1) + s)).tdiv s

/-- Decompose.cpp 1363-1454: the extents of the output along axes 2 and 3. -/
def outExtents (a : WinAttrs) (h w kh kw : ℕ) : List ℤ :=
  [outExtent a.autoPad h kh (a.strides.elim 1 (·.getD 0 0) : ℕ) (a.dilations.elim 1 (·.getD 0 0) : ℕ)
      (a.pads.elim 0 (·.getD 0 0) : ℕ) (a.pads.elim 0 (·.getD 2 0) : ℕ),
   outExtent a.autoPad w kw (a.strides.elim 1 (·.getD 1 0) : ℕ) (a.dilations.elim 1 (·.getD 1 0) : ℕ)
      (a.pads.elim 0 (·.getD 1 0) : ℕ) (a.pads.elim 0 (·.getD 3 0) : ℕ)]

/-- Decompose.cpp 678-707: when the pattern with Im2Col applies, given the recorded shape of X, and whether the shape
of W is known. -/
def shouldIm2Col (fast : Bool) (a : WinAttrs) (t : List (Option ℕ)) (wStatic : Bool) : Bool :=
  wStatic && decide (t.length = 4) && decide (a.group = 1) && (fast || decide (t.head? = some (some 1)))

/-- Decompose.cpp 1301-1320: Im2Col; a batch of one image loses its axis. The recorded shape of the result is
`[?, CI * KH * KW, ?]`. -/
def imCols (A : Alg V) (opt : Bool) (junk : V) (a : WinAttrs) (t : List (Option ℕ)) (x : Tensor V) (ks : List ℕ)
    (rows : ℕ) : Option (Tensor V) :=
  (im2col A opt junk a x (a.kernel.getD ks)).bind fun c =>
    if t.head? = some (some 1) then (reshapeToNDim [none, some rows, none] c 2 true).map Prod.snd else some c

/-- Decompose.cpp 1266-1475: what the operators that replace Conv compute. `t` is the recorded shape of X. -/
def convIm2Col (A : Alg V) (opt : Bool) (junk : V) (a : WinAttrs) (t : List (Option ℕ)) (x w : Tensor V)
    (b : Option (Tensor V)) : Option (Tensor V) :=
  let co := w.shape.getD 0 0
  let ks := w.shape.drop 2
  let rows := w.shape.getD 1 0 * w.shape.getD 2 0 * w.shape.getD 3 0
  (imCols A opt junk a t x ks rows).bind fun c =>
    (reshape w false [(co : ℤ), (rows : ℤ)]).bind fun w2 =>
      (matmul A w2 c).bind fun y =>
        (addBias A y b).bind fun y =>
          reshape y false ((x.shape.getD 0 0 : ℤ) :: (co : ℤ) ::
            outExtents a (x.shape.getD 2 0) (x.shape.getD 3 0) (w.shape.getD 2 0) (w.shape.getD 3 0))

/-- Decompose.cpp 615-627: absent, or as many entries as expected and all equal to the default. -/
def hasDefault (l : Option (List ℕ)) (n d : ℕ) : Bool :=
  l.elim true fun l => decide (l.length = n) && l.all fun e => decide (e = d)

/-- Decompose.cpp 629-676: when the pattern for kernels of one element applies, given the recorded shape of W. -/
def should1x1 (a : WinAttrs) (tw : List (Option ℕ)) : Bool :=
  decide (a.group = 1) && ((tw.drop 2).all fun d => decide (d = some 1)) &&
    hasDefault a.dilations (tw.length - 2) 1 && hasDefault a.strides (tw.length - 2) 1 &&
    (decide (a.autoPad = "NOTSET") || decide (a.autoPad = "VALID")) &&
    (!decide (a.autoPad = "NOTSET") || hasDefault a.pads (2 * (tw.length - 2)) 0)

/-- Decompose.cpp 1540-1547: the input as a stack of matrices, or one matrix. -/
def flatX (t : List (Option ℕ)) (x : Tensor V) : Option (Tensor V) :=
  (reshapeToNDim t x 3 false).bind fun p =>
    if t.head? = some (some 1) then (reshapeToNDim p.1 p.2 2 true).map Prod.snd else some p.2

/-- Decompose.cpp 1511-1598: what the operators that replace Conv with a kernel of one element compute. `t` and `tw` are
the recorded shapes of X and W. -/
def conv1x1 (A : Alg V) (t tw : List (Option ℕ)) (x w : Tensor V) (b : Option (Tensor V)) : Option (Tensor V) :=
  (flatX t x).bind fun c =>
    (reshapeToNDim tw w 2 false).bind fun w2 =>
      (matmul A w2.2 c).bind fun y =>
        (addBias A y b).bind fun y =>
          reshape y false ((x.shape.getD 0 0 : ℤ) :: (w.shape.getD 0 0 : ℤ) ::
            (x.shape.drop 2).map fun (d : ℕ) => (d : ℤ))

end Verif.ConvMatMul
