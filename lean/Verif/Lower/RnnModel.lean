import Verif.Lower.Nd
import Mathlib.Algebra.BigOperators.Group.List.Basic

/-!
Model of the lowerings of RNN, LSTM and GRU.

Source: /repo/src/Conversion/ONNXToKrnl/RNN/RNNBase.hpp 110-227, RNNBase.cpp, RNN.cpp, LSTM.cpp, GRU.cpp,
/repo/src/Conversion/ONNXConversionCommon/RNN/LSTM.cpp, and two rewrites of
/repo/src/Dialect/ONNX/ONNXOps/Canonicalize.cpp 1013-1181.

Numbers form a commutative ring (rounding is left out), activation functions are parameters.
MatMul, Transpose, Squeeze and Split, which the lowerings emit as ONNX operations, are
described by their ONNX semantics.  Memory allocation is not modelled.
-/

namespace Verif.Lower

section
variable {R : Type*} [CommRing R]

/-! ### ONNX operations used by the lowerings -/

/-- ONNX Squeeze of a leading dimension of size 1. -/
def squeeze0 (m : Mem R) : Mem R := ⟨m.shape.tail, fun i => m.data (0 :: i)⟩

/-- Part `p` of the ONNX Split of the leading dimension in `k` equal parts. -/
def split0 (m : Mem R) (k p : ℤ) : Mem R :=
  ⟨m.shape.headD 0 / k :: m.shape.tail, fun i => m.data ((p * (m.shape.headD 0 / k) + i.headD 0) :: i.tail)⟩

/-- ONNX Transpose of a matrix. -/
def transpose2 (m : Mem R) : Mem R := ⟨m.shape.reverse, fun i => m.data i.reverse⟩

/-- ONNX MatMul of two matrices. -/
def matmul2 (a b : Mem R) : Mem R :=
  ⟨[a.shape.headD 0, b.shape.getD 1 0],
    fun i => ((upto (b.shape.headD 0)).map fun k => a.data [i.getD 0 0, k] * b.data [k, i.getD 1 0]).sum⟩

/-- The `direction` attribute. -/
inductive RDir
  | forward | reverse | bidirectional
  deriving DecidableEq

/-- The part of a weight, bias or peephole tensor for a direction: squeezed, or split in two and squeezed
(RNN.cpp 163-186, 229-245; LSTM.cpp 69-93, 142-158, 201-217; GRU.cpp 209-232, 303-318). -/
def dirPart (dir : RDir) (fwd : Bool) (m : Mem R) : Mem R :=
  match dir with
  | .bidirectional => squeeze0 (split0 m 2 (if fwd then 0 else 1))
  | _ => squeeze0 m

/-! ### Common parts -/

/-- Intermediate states of a direction and the output Y.  RNN and GRU do not use the cell state. -/
structure RState (R : Type*) where
  H : Mem R
  C : Mem R
  Y : Option (Mem R)

/-- Initial value of a state at an index: zero or that of `initial_h`, `initial_c`
(`initializeIntermediateStates`, RNNBase.cpp 76-147). -/
def initVal (init : Option (Mem R)) (d : ℤ) (i : Idx) : Option R :=
  match init with
  | none => some 0
  | some m => m.load (d :: i)

/-- The store into Y, if it is an output. -/
def storeY (Y : Option (Mem R)) (idx : Idx) (v : R) : Option (Option (Mem R)) :=
  match Y with
  | none => some none
  | some y => (y.store idx v).map some

/-- `emitXSliceAt` (RNNBase.cpp 246-281): a copy of X at a time step. -/
def xSlice (X : Mem R) (t : ℤ) (junk : Idx → R) : Option (Mem R) :=
  fill ⟨X.shape.tail, junk⟩ fun i => X.load (t :: i)

/-- The loop over the time steps of a direction (RNNBase.hpp 158-178, 181-218); the position of the step in the
reverse direction is `size - iv - 1`. -/
def timeLoop (rev : Bool) (X : Mem R) (junk : Idx → R) (step : ℤ → Mem R → RState R → Option (RState R)) (s : RState R) :
    Option (RState R) :=
  (upto (X.shape.headD 0)).foldlM (fun s iv =>
    let t := if rev then X.shape.headD 0 - iv - 1 else iv
    (xSlice X t junk).bind fun Xt => step t Xt s) s

/-- Everything a lowering returns. -/
structure ROut (R : Type*) where
  Y : Option (Mem R)
  Yh : Mem R
  Yc : Mem R

/-- `stateToOutputForHiddenOrCell` (RNNBase.cpp 211-244): the copies of the states of the directions.
`memcpy` of the contents is a copy of all elements. -/
def stateOut (dir : RDir) (f r : Mem R) (junk : Idx → R) : Option (Mem R) :=
  match dir with
  | .forward => fill ⟨1 :: f.shape, junk⟩ fun i => f.load i.tail
  | .reverse => fill ⟨1 :: r.shape, junk⟩ fun i => r.load i.tail
  | .bidirectional => iterate f.shape (fun i o => (f.load i).bind fun v => (o.store (0 :: i) v).bind fun o =>
      (r.load i).bind fun v => o.store (1 :: i) v) ⟨2 :: f.shape, junk⟩

/-- `ONNXRNNOpLowering` (RNNBase.hpp 112-226): the states are initialised, then the forward and the reverse
loops run.  `step fwd d` is `calculateState` with the weights of the direction, for the index `d` of the
direction.  `junk` are the contents of fresh buffers. -/
def rnnLower (dir : RDir) (X : Mem R) (hidden : ℤ) (initH initC : Option (Mem R)) (hasY : Bool) (junk : Idx → R)
    (step : Bool → ℤ → ℤ → Mem R → RState R → Option (RState R)) : Option (ROut R) :=
  let N := X.shape.getD 1 0
  let dr : ℤ := if dir = .bidirectional then 1 else 0
  let Y : Option (Mem R) := if hasY then some ⟨[X.shape.headD 0, if dir = .bidirectional then 2 else 1, N, hidden], junk⟩ else none
  let alloc : ℤ → Option (Mem R × Mem R) := fun d =>
    (fill ⟨[N, hidden], junk⟩ (initVal initH d)).bind fun h => (fill ⟨[N, hidden], junk⟩ (initVal initC d)).map fun c => (h, c)
  match dir with
  | .forward => (alloc 0).bind fun hc =>
      (timeLoop false X junk (step true 0) ⟨hc.1, hc.2, Y⟩).bind fun s =>
        (stateOut dir s.H s.H junk).bind fun yh => (stateOut dir s.C s.C junk).map fun yc => ⟨s.Y, yh, yc⟩
  | .reverse => (alloc dr).bind fun hc =>
      (timeLoop true X junk (step false dr) ⟨hc.1, hc.2, Y⟩).bind fun s =>
        (stateOut dir s.H s.H junk).bind fun yh => (stateOut dir s.C s.C junk).map fun yc => ⟨s.Y, yh, yc⟩
  | .bidirectional => (alloc 0).bind fun hc => (alloc dr).bind fun hc' =>
      (timeLoop false X junk (step true 0) ⟨hc.1, hc.2, Y⟩).bind fun s =>
        (timeLoop true X junk (step false dr) ⟨hc'.1, hc'.2, s.Y⟩).bind fun s' =>
          (stateOut dir s.H s'.H junk).bind fun yh => (stateOut dir s.C s'.C junk).map fun yc => ⟨s'.Y, yh, yc⟩

/-- Part `p` of `k` of a vector of biases at position `j`; `none` without biases, when nothing is added. -/
def gateBias (b : Option (Mem R)) (k p j : ℤ) : Option (Option R) :=
  match b with
  | none => some none
  | some b => ((split0 b k p).load [j]).map some

/-- Addition of an optional value. -/
def addOpt (x : R) (b : Option R) : R := match b with | none => x | some b => x + b

/-! ### RNN -/

/-- The body of the loop (RNN.cpp 350-369). -/
def rnnPoint (f : R → R) (XW HR : Mem R) (B : Option (Mem R)) (t d : ℤ) (i : Idx) (s : RState R) : Option (RState R) :=
  (XW.load i).bind fun xw => (HR.load i).bind fun hr =>
    (gateBias B 2 0 (i.getD 1 0)).bind fun wb => (gateBias B 2 1 (i.getD 1 0)).bind fun rb =>
      let h := f (addOpt (addOpt (xw + hr) wb) rb)
      (s.H.store i h).bind fun H => (storeY s.Y (t :: d :: i) h).map fun Y => ⟨H, s.C, Y⟩

/-- `calculateState` (RNN.cpp 305-370). -/
def rnnCalc (dir : RDir) (f : Bool → R → R) (W Rw : Mem R) (B : Option (Mem R)) (fwd : Bool) (d t : ℤ) (Xt : Mem R) (s : RState R) :
    Option (RState R) :=
  let XW := matmul2 Xt (transpose2 (dirPart dir fwd W))
  let HR := matmul2 s.H (transpose2 (dirPart dir fwd Rw))
  iterate s.H.shape (fun i s => rnnPoint (f fwd) XW HR (B.map (dirPart dir fwd)) t d i s) s

/-- The lowering of RNN; `sequence_lens` is refused by an assertion (RNN.cpp 322). -/
def rnnOp (dir : RDir) (f : Bool → R → R) (X W Rw : Mem R) (B : Option (Mem R)) (seqLens : Option (Mem ℤ)) (initH : Option (Mem R)) (hasY : Bool)
    (junk : Idx → R) : Option (ROut R) :=
  match seqLens with
  | some _ => none
  | none => rnnLower dir X (Rw.shape.getD 2 0) initH none hasY junk (rnnCalc dir f W Rw B)

/-! ### LSTM -/

/-- Sum of the two products and the two biases of gate `g` (LSTM.cpp 361-369, 379-387, 397-405, 415-423). -/
def lstmGate (XW HR : Mem R) (B : Option (Mem R)) (hs g : ℤ) (i : Idx) : Option R :=
  (XW.load [i.getD 0 0, i.getD 1 0 + g * hs]).bind fun xw => (HR.load [i.getD 0 0, i.getD 1 0 + g * hs]).bind fun hr =>
    (gateBias B 8 g (i.getD 1 0)).bind fun wb => (gateBias B 8 (4 + g) (i.getD 1 0)).map fun rb =>
      addOpt (addOpt (xw + hr) wb) rb

/-- The body of the loop (LSTM.cpp 352-443); gates are in the order input, output, forget, cell. -/
def lstmPoint (f g h : R → R) (XW HR : Mem R) (B P : Option (Mem R)) (hs t d : ℤ) (i : Idx) (s : RState R) : Option (RState R) :=
  (s.C.load i).bind fun c =>
    (lstmGate XW HR B hs 0 i).bind fun gi => (gateBias P 3 0 (i.getD 1 0)).bind fun pi =>
      let it := f (addOpt gi (pi.map (· * c)))
      (lstmGate XW HR B hs 2 i).bind fun gf => (gateBias P 3 2 (i.getD 1 0)).bind fun pf =>
        let ft := f (addOpt gf (pf.map (· * c)))
        (lstmGate XW HR B hs 3 i).bind fun gc =>
          let ct := g gc
          let nc := ft * c + it * ct
          (lstmGate XW HR B hs 1 i).bind fun go => (gateBias P 3 1 (i.getD 1 0)).bind fun po =>
            let ot := f (addOpt go (po.map (· * nc)))
            let nh := ot * h nc
            (s.C.store i nc).bind fun C => (s.H.store i nh).bind fun H =>
              (storeY s.Y (t :: d :: i) nh).map fun Y => ⟨H, C, Y⟩

/-- The three activation functions. -/
structure LstmAct (R : Type*) where
  f : R → R
  g : R → R
  h : R → R

/-- `calculateState` (LSTM.cpp 290-444). -/
def lstmCalc (dir : RDir) (a : Bool → LstmAct R) (W Rw : Mem R) (B P : Option (Mem R)) (fwd : Bool) (d t : ℤ) (Xt : Mem R) (s : RState R) :
    Option (RState R) :=
  let XW := matmul2 Xt (transpose2 (dirPart dir fwd W))
  let HR := matmul2 s.H (transpose2 (dirPart dir fwd Rw))
  iterate s.H.shape (fun i s => lstmPoint (a fwd).f (a fwd).g (a fwd).h XW HR (B.map (dirPart dir fwd)) (P.map (dirPart dir fwd))
    (s.H.shape.getD 1 0) t d i s) s

/-- The lowering of LSTM; `sequence_lens` is ignored (LSTM.cpp 304-309). -/
def lstmOp (dir : RDir) (a : Bool → LstmAct R) (X W Rw : Mem R) (B : Option (Mem R)) (_seqLens : Option (Mem ℤ))
    (initH initC P : Option (Mem R)) (hasY : Bool) (junk : Idx → R) : Option (ROut R) :=
  rnnLower dir X (Rw.shape.getD 2 0) initH initC hasY junk (lstmCalc dir a W Rw B P)

/-! ### GRU -/

/-- `handleSequenceLens` (RNNBase.cpp 283-316): the value for Y and the state. -/
def seqLensSel (lens : Option (Mem ℤ)) (initH : Option (Mem R)) (t d : ℤ) (i : Idx) (next : R) (H : Mem R) : Option (R × Mem R) :=
  match lens with
  | none => (H.store i next).map fun H => (next, H)
  | some L => (L.load [i.getD 0 0]).bind fun ub => (initVal initH d i).bind fun ini => (H.load i).bind fun old =>
      let y := if t ≥ ub then ini else next
      (H.store i (if t ≥ ub then old else y)).map fun H => (y, H)

/-- `f(Xt*W^T + Ht-1*R^T + Wb + Rb)` for gate `g`, with the loaded product of the state (GRU.cpp
464-474, 476-486, 553-563, 586-596). -/
def gruGate (f : R → R) (XW : Mem R) (hr : R) (B : Option (Mem R)) (hs g : ℤ) (i : Idx) : Option R :=
  (XW.load [i.getD 0 0, i.getD 1 0 + g * hs]).bind fun xw =>
    (gateBias B 6 g (i.getD 1 0)).bind fun wb => (gateBias B 6 (3 + g) (i.getD 1 0)).map fun rb =>
      f (addOpt (addOpt (xw + hr) wb) rb)

/-- End of both bodies: the new state is selected and stored (GRU.cpp 501-516, 607-623). -/
def gruFinish (lens : Option (Mem ℤ)) (initH : Option (Mem R)) (t d : ℤ) (i : Idx) (z h old : R) (s : RState R) : Option (RState R) :=
  (seqLensSel lens initH t d i ((1 - z) * h + z * old) s.H).bind fun p =>
    (storeY s.Y (t :: d :: i) p.1).map fun Y => ⟨p.2, s.C, Y⟩

/-- Body with `linear_before_reset` (GRU.cpp 454-517). -/
def gruPointLin (f g : R → R) (XW HR : Mem R) (B : Option (Mem R)) (lens : Option (Mem ℤ)) (initH : Option (Mem R)) (hs t d : ℤ) (i : Idx)
    (s : RState R) : Option (RState R) :=
  (s.H.load i).bind fun old =>
    (HR.load [i.getD 0 0, i.getD 1 0]).bind fun hz => (gruGate f XW hz B hs 0 i).bind fun z =>
      (HR.load [i.getD 0 0, i.getD 1 0 + hs]).bind fun hr => (gruGate f XW hr B hs 1 i).bind fun r =>
        (XW.load [i.getD 0 0, i.getD 1 0 + 2 * hs]).bind fun xw => (HR.load [i.getD 0 0, i.getD 1 0 + 2 * hs]).bind fun hh =>
          (gateBias B 6 5 (i.getD 1 0)).bind fun rb => (gateBias B 6 2 (i.getD 1 0)).bind fun wb =>
            gruFinish lens initH t d i z (g (addOpt (xw + r * addOpt hh rb) wb)) old s

/-- First loop without `linear_before_reset` (GRU.cpp 542-568): `rt (.) Ht-1` (`rt` itself is stored but never
read). -/
def gruReset (f : R → R) (XW HRr : Mem R) (B : Option (Mem R)) (hs : ℤ) (H : Mem R) (junk : Idx → R) : Option (Mem R) :=
  fill ⟨H.shape, junk⟩ fun i => (H.load i).bind fun old => (HRr.load i).bind fun hr =>
    (gruGate f XW hr B hs 1 i).map fun r => r * old

/-- Body without `linear_before_reset` (GRU.cpp 575-624). -/
def gruPoint (f g : R → R) (XW HRz RHh : Mem R) (B : Option (Mem R)) (lens : Option (Mem ℤ)) (initH : Option (Mem R)) (hs t d : ℤ) (i : Idx)
    (s : RState R) : Option (RState R) :=
  (s.H.load i).bind fun old => (HRz.load i).bind fun hz => (gruGate f XW hz B hs 0 i).bind fun z =>
    (XW.load [i.getD 0 0, i.getD 1 0 + 2 * hs]).bind fun xw => (RHh.load i).bind fun rh =>
      (gateBias B 6 2 (i.getD 1 0)).bind fun wb => (gateBias B 6 5 (i.getD 1 0)).bind fun rb =>
        gruFinish lens initH t d i z (g (addOpt (addOpt (xw + rh) wb) rb)) old s

/-- `calculateState` (GRU.cpp 395-626, 234-270): the weights R are split in three when not linear before reset. -/
def gruCalc (dir : RDir) (lin : Bool) (a : Bool → (R → R) × (R → R)) (W Rw : Mem R) (B : Option (Mem R)) (lens : Option (Mem ℤ))
    (initH : Option (Mem R)) (junk : Idx → R) (fwd : Bool) (d t : ℤ) (Xt : Mem R) (s : RState R) : Option (RState R) :=
  let XW := matmul2 Xt (transpose2 (dirPart dir fwd W))
  let hs := s.H.shape.getD 1 0
  let B := B.map (dirPart dir fwd)
  if lin then
    let HR := matmul2 s.H (transpose2 (dirPart dir fwd Rw))
    iterate s.H.shape (fun i s => gruPointLin (a fwd).1 (a fwd).2 XW HR B lens initH hs t d i s) s
  else
    let HRz := matmul2 s.H (transpose2 (split0 (dirPart dir fwd Rw) 3 0))
    let HRr := matmul2 s.H (transpose2 (split0 (dirPart dir fwd Rw) 3 1))
    (gruReset (a fwd).1 XW HRr B hs s.H junk).bind fun rh =>
      let RHh := matmul2 rh (transpose2 (split0 (dirPart dir fwd Rw) 3 2))
      iterate s.H.shape (fun i s => gruPoint (a fwd).1 (a fwd).2 XW HRz RHh B lens initH hs t d i s) s

/-- The lowering of GRU. -/
def gruOp (dir : RDir) (lin : Bool) (a : Bool → (R → R) × (R → R)) (X W Rw : Mem R) (B : Option (Mem R)) (lens : Option (Mem ℤ))
    (initH : Option (Mem R)) (hasY : Bool) (junk : Idx → R) : Option (ROut R) :=
  rnnLower dir X (Rw.shape.getD 2 0) initH none hasY junk (gruCalc dir lin a W Rw B lens initH junk)

end

/-! ### Activation functions -/

/-- `getActivationPack` (ONNXConversionCommon/RNN/LSTM.cpp 29-150, RNN.cpp 51-123, GRU.cpp 61-160): entry `k` of the `n`
functions of a direction, in the list of the attribute, or the default. -/
def actAt {A : Type*} (n : ℕ) (dir : RDir) (fwd : Bool) (attr : List A) (dflt : A) (k : ℕ) : A :=
  if fwd then
    if dir = .forward ∨ dir = .bidirectional then (if attr.length > k then attr.getD k dflt else dflt) else dflt
  else
    let start := if dir = .reverse then 0 else n
    if dir = .reverse ∨ dir = .bidirectional then (if attr.length > start + k then attr.getD (start + k) dflt else dflt) else dflt

/-! ### Rewrites (Canonicalize.cpp) -/

/-- `RNNOpRewriteSeqLenPattern` (1127-1181): is `sequence_lens` dropped?  Shapes are given when known
(`none` for a dynamic dimension). -/
def dropSeqLens (xShape : List (Option ℤ)) (lensShape : List (Option ℤ)) (initShape : Option (List (Option ℤ))) : Bool :=
  let oneInX := xShape.getD 1 none == some 1
  let oneInLens := lensShape.length == 1 && lensShape.getD 0 none == some 1
  let oneInInit := match initShape with
    | none => false
    | some s => s.getD 1 none == some 1
  oneInX || oneInInit || oneInLens

/-- ONNX Transpose with permutation {1, 0, 2} (1028). -/
def perm3 {R : Type*} (m : Mem R) : Mem R :=
  ⟨[m.shape.getD 1 0, m.shape.getD 0 0, m.shape.getD 2 0], fun i => m.data [i.getD 1 0, i.getD 0 0, i.getD 2 0]⟩

/-- ONNX Transpose with permutation {2, 0, 1, 3} (1032). -/
def perm4 {R : Type*} (m : Mem R) : Mem R :=
  ⟨[m.shape.getD 2 0, m.shape.getD 0 0, m.shape.getD 1 0, m.shape.getD 3 0],
    fun i => m.data [i.getD 1 0, i.getD 2 0, i.getD 0 0, i.getD 3 0]⟩

/-- `RNNOpRewriteLayoutPattern` (1071-1125): inputs are transposed, the operation runs with layout 0, outputs are
transposed. -/
def layoutRewrite {R : Type*} (op : Mem R → Option (Mem R) → Option (Mem R) → Option (ROut R)) (X : Mem R) (initH initC : Option (Mem R)) :
    Option (ROut R) :=
  (op (perm3 X) (initH.map perm3) (initC.map perm3)).map fun o => ⟨o.Y.map perm4, perm3 o.Yh, perm3 o.Yc⟩

end Verif.Lower
