import Verif.Lower.Nd
import Mathlib.Algebra.Order.Floor.Ring
import Mathlib.Data.Rat.Floor

/-!
Model of the lowerings of Loop, Scan and the sequence operations.

Source:
* /repo/src/Conversion/ONNXToKrnl/ControlFlow/Loop.cpp 25-780
* /repo/src/Conversion/ONNXToKrnl/ControlFlow/Scan.cpp 24-360
* /repo/src/Conversion/ONNXToKrnl/Sequence/*.cpp
* /repo/src/Conversion/KrnlSeqToMemref/*.cpp
* /repo/src/Dialect/ONNX/ONNXOps/Canonicalize.cpp 715-1003

The body of a loop is arbitrary.  What it yields is either one of its own arguments, which
are the buffers of the loop, or a value computed in a buffer of its own.  A buffer that was
never written holds `none`.
-/

namespace Verif.Lower

variable {T R : Type*}

/-! ### Copies between buffers -/

/-- `emitCopy` (Loop.cpp 440-467): copies `src` to the slice of `dest` at `pre`. -/
def emitCopy (src dest : Mem R) (pre : Idx) : Option (Mem R) :=
  iterate src.shape (fun i o => (src.load i).bind fun v => o.store (pre ++ i) v) dest

/-! ### Bodies -/

/-- What a body yields: its `i`-th loop-carried argument (the buffer itself, not a copy), or
a value computed from the iteration number, the condition and the arguments. -/
inductive Yield (T : Type*) where
  | carried (i : ℕ)
  | computed (f : ℤ → Bool → List T → T)

/-- A body: the condition it yields (`none` when it yields its own condition argument), the
loop-carried values and the scan outputs. -/
structure LoopBody (T : Type*) where
  cond : Option (ℤ → Bool → List T → Bool)
  vals : List (Yield T)
  scans : List (Yield T)

/-- The buffer a yielded value is in after the execution of the body: one of the loop's
buffers, or one holding a value. -/
inductive Src (T : Type*) where
  | buf (i : ℕ)
  | val (t : T)

/-- Execution of the body (Loop.cpp 118-180): every computed value gets its own buffer. -/
def Yield.run (y : Yield T) (iv : ℤ) (c : Bool) (args : List T) : Src T :=
  match y with
  | .carried i => .buf i
  | .computed f => .val (f iv c args)

/-- Content of a source when it is copied: the buffers may have changed by then. -/
def Src.read (s : Src T) (bufs : List T) : Option T :=
  match s with
  | .buf i => bufs[i]?
  | .val t => some t

/-- The copies of the loop-carried values to the buffers of the loop, one after the other
(Loop.cpp 240-250, 745-747; Scan.cpp 168-172): from buffer `j` on. -/
def copyBack : List (Src T) → ℕ → List T → Option (List T)
  | [], _, bufs => some bufs
  | s :: ss, j, bufs => (s.read bufs).bind fun t => copyBack ss (j + 1) (bufs.set j t)

/-- Row `iv` of every scan output (Loop.cpp 216-236). -/
def writeRow (rows : List T) (iv : ℤ) (scan : ℤ → Option (List T)) : ℤ → Option (List T) :=
  fun k => if k = iv then some rows else scan k

/-- Contents of all sources. -/
def readAll (ss : List (Src T)) (bufs : List T) : Option (List T) := ss.mapM fun s => s.read bufs

/-! ### Loop as a counted loop -/

/-- State of the counted loop: condition, loop-carried buffers, rows of the scan outputs. -/
structure LoopState (T : Type*) where
  cond : Bool
  bufs : List T
  scan : ℤ → Option (List T)

/-- One iteration (Loop.cpp 104-262): the body runs when the recorded condition holds.  The
condition argument of the body is the initial one.  Scan outputs are copied before the
loop-carried values. -/
def loopIter (b : LoopBody T) (cond0 : Bool) (iv : ℤ) (s : LoopState T) : Option (LoopState T) :=
  if s.cond then
    let args := s.bufs
    let newCond := match b.cond with | none => cond0 | some f => f iv cond0 args
    let vals := b.vals.map fun y => y.run iv cond0 args
    let scans := b.scans.map fun y => y.run iv cond0 args
    (readAll scans s.bufs).bind fun rows =>
      (copyBack vals 0 s.bufs).map fun bufs => ⟨newCond, bufs, writeRow rows iv s.scan⟩
  else some s

/-- The counted loop (Loop.cpp 60-262): the buffers start as copies of the initial values,
the scan outputs have `maxTrip` rows. -/
def loopKrnl (b : LoopBody T) (maxTrip : ℤ) (cond0 : Bool) (init : List T) : Option (LoopState T) :=
  (upto maxTrip).foldlM (fun s iv => loopIter b cond0 iv s) ⟨cond0, init, fun _ => none⟩

/-! ### Loop as a while loop -/

/-- The test against the maximum trip count, if there is one (Loop.cpp 560-600). -/
def mayRun (M : Option ℤ) (iv : ℤ) : Bool := match M with | none => true | some m => decide (iv < m)

/-- Iterations of the while loop after the first one (Loop.cpp 520-770): the arguments are
the buffers of the loop. `fuel` bounds the number of iterations of the model. -/
def whileRest (b : LoopBody T) (M : Option ℤ) : ℕ → ℤ → Bool → List T → Option (List T)
  | 0, _, _, _ => none
  | fuel + 1, iv, c, bufs =>
    if mayRun M iv && c then
      let newCond := match b.cond with | none => c | some f => f iv c bufs
      (copyBack (b.vals.map fun y => y.run iv c bufs) 0 bufs).bind fun bufs =>
        whileRest b M fuel (iv + 1) newCond bufs
    else some bufs

/-- What the sources of the first iteration hold: its arguments are the initial values and
no buffer of the loop. -/
def firstVals (b : LoopBody T) (c : Bool) (init : List T) : Option (List T) :=
  readAll (b.vals.map fun y => y.run 0 c init) init

/-- `rewriteWithSCFWhile` (Loop.cpp 511-770) without scan outputs.  In the first iteration
the arguments are the initial values themselves; afterwards the buffers allocated for the
results.  The results are these buffers: `none` inside the answer when they were never
written. -/
def loopWhile (b : LoopBody T) (M : Option ℤ) (cond0 : Bool) (init : List T) (fuel : ℕ) :
    Option (Option (List T)) :=
  if mayRun M 0 && cond0 then
    let newCond := match b.cond with | none => cond0 | some f => f 0 cond0 init
    (firstVals b cond0 init).bind fun bufs => (whileRest b M fuel 1 newCond bufs).map some
  else some none

/-! ### Scan -/

/-- What a Scan body yields: a state argument, or a value computed from the states and the
slices of the scan inputs. -/
inductive ScanYield (T : Type*) where
  | carried (i : ℕ)
  | computed (f : List T → List T → T)

/-- Execution of the body. -/
def ScanYield.run (y : ScanYield T) (args slices : List T) : Src T :=
  match y with
  | .carried i => .buf i
  | .computed f => .val (f args slices)

/-- A Scan body. -/
structure ScanBody (T : Type*) where
  vals : List (ScanYield T)
  scans : List (ScanYield T)

/-- One iteration (Scan.cpp 74-190): the states are copied before the scan outputs. -/
def scanIter (b : ScanBody T) (iv : ℤ) (slices : List T) (s : List T × (ℤ → Option (List T))) :
    Option (List T × (ℤ → Option (List T))) :=
  let vals := b.vals.map fun y => y.run s.1 slices
  let scans := b.scans.map fun y => y.run s.1 slices
  (copyBack vals 0 s.1).bind fun bufs =>
    (readAll scans bufs).map fun rows => (bufs, writeRow rows iv s.2)

/-- The slices of the scan inputs at one position: every scan input is a list of slices. -/
def slicesAt (inputs : List (List T)) (k : ℕ) : Option (List T) := inputs.mapM fun l => l[k]?

/-- The lowering of Scan (Scan.cpp 24-195): as many iterations as the first scan input has
slices. -/
def scanKrnl (b : ScanBody T) (init : List T) (inputs : List (List T)) :
    Option (List T × (ℤ → Option (List T))) :=
  (List.range ((inputs.map List.length).headD 0)).foldlM
    (fun s k => (slicesAt inputs k).bind fun sl => scanIter b (k : ℤ) sl s) (init, fun _ => none)

/-! ### Maximum trip count -/

/-- The rewriting with constant bounds (Canonicalize.cpp 948-973): the new trip count.  The
quotient is computed in double precision there, which is exact below 2^53. -/
def tripConst (maxTrip lb ub step : ℤ) : Option ℤ :=
  if step ≤ 0 ∨ ub ≤ lb then none
  else
    let derived := -((-(ub - lb)) / step)
    if maxTrip ≤ derived then none else some derived

/-- The rewriting with a bound known at run time (Canonicalize.cpp 975-1000): `toF32` is the
conversion to single precision and the division is rounded with `rnd`; the step is not zero. -/
def tripDyn (toF32 : ℤ → ℚ) (rnd : ℚ → ℚ) (maxTrip lb ub step : ℤ) : ℤ :=
  min maxTrip ⌈rnd (toF32 (ub - lb) / toF32 step)⌉

/-! ### Sequences -/

/-- A sequence under construction: a length and its slots. -/
structure SeqBuf (T : Type*) where
  len : ℤ
  slot : ℤ → Option T

/-- `KrnlSeqAllocOp` (KrnlSeqAlloc.cpp 44-57). -/
def seqAlloc (n : ℤ) : SeqBuf T := ⟨n, fun _ => none⟩

/-- `KrnlSeqStoreOp` (KrnlSeqStore.cpp 41-70): stores a copy.  Outside of the sequence: `none`. -/
def SeqBuf.store (s : SeqBuf T) (i : ℤ) (t : T) : Option (SeqBuf T) :=
  if 0 ≤ i ∧ i < s.len then some ⟨s.len, fun k => if k = i then some t else s.slot k⟩ else none

/-- Load of an element of the input sequence. -/
def seqLoad (s : List T) (i : ℤ) : Option T := if 0 ≤ i then s[i.toNat]? else none

/-- Position with negative values counted from the end (SequenceAt.cpp 44-47). -/
def seqPos (n : ℤ) (p : ℤ) : ℤ := if p < 0 then p + n else p

/-- A loop from `lb` to `ub`. -/
def forIE (lb ub : ℤ) : List ℤ := (upto (ub - lb)).map fun t => lb + t

/-- The position operand, or its default (SequenceInsert.cpp 45-60, SequenceErase.cpp 45-58). -/
def posOr (dflt n : ℤ) (pos : Option ℤ) : ℤ := match pos with | none => dflt | some p => seqPos n p

/-- SequenceInsert (SequenceInsert.cpp 26-104): `emptyInput` says that the input is known to
be empty; `pos = none` for the missing operand. -/
def seqInsert (s : List T) (emptyInput : Bool) (t : T) (pos : Option ℤ) : Option (SeqBuf T) :=
  let n : ℤ := s.length
  let p := posOr n n pos
  let copied : Option (SeqBuf T) :=
    if emptyInput then some (seqAlloc (n + 1))
    else
      ((forIE 0 p).foldlM (fun o i => (seqLoad s i).bind fun e => o.store p e) (seqAlloc (n + 1))).bind fun o =>
        (forIE (p + 1) n).foldlM (fun o i => (seqLoad s i).bind fun e => o.store (i + 1) e) o
  copied.bind fun o => o.store p t

/-- SequenceErase (SequenceErase.cpp 26-86). -/
def seqErase (s : List T) (pos : Option ℤ) : Option (SeqBuf T) :=
  let n : ℤ := s.length
  let p := posOr (n - 1) n pos
  ((forIE 0 p).foldlM (fun o i => (seqLoad s i).bind fun e => o.store p e) (seqAlloc (n - 1))).bind fun o =>
    (forIE (p + 1) n).foldlM (fun o i => (seqLoad s i).bind fun e => o.store (i - 1) e) o

/-- SequenceAt (SequenceAt.cpp 26-55). -/
def seqAt (s : List T) (pos : ℤ) : Option T := seqLoad s (seqPos s.length pos)

/-- SequenceLength (SequenceLength.cpp 26-43). -/
def seqLength (s : List T) : ℤ := s.length

/-- The content of a sequence, when every slot was written. -/
def SeqBuf.toList (s : SeqBuf T) : Option (List T) := (upto s.len).mapM s.slot

end Verif.Lower
