import Mathlib.Data.Nat.Bitwise
import Mathlib.Tactic.NormNum

/-!
# Instrumentation (model)

Source: /repo/src/Transform/InstrumentPass.cpp 103-187, /repo/src/Conversion/KrnlToLLVM/KrnlInstrument.cpp 176-256,
/repo/src/Runtime/OMInstrument.c 46-411, /repo/include/onnx-mlir/Compiler/OMCompilerRuntimeTypes.h 44-88.

Simplified: reports of time on a system with `gettimeofday`, without the environment variables that switch reports off;
times are microseconds; names are compared by content (the compiler makes one string for each, the runtime compares
addresses); an operation has at most two regions.
-/

namespace Verif.Instrument

abbrev Name := List Char

/-! ### The pass -/

/-- What the pass sees of an operation: its name for reports and node name, whether it is to be instrumented (it matches
the regular expressions, its result is not none, it is not an instrument itself: InstrumentPass.cpp 149-167), whether it
ends a block. -/
structure Info where
  op : Name
  node : Name
  enabled : Bool
  last : Bool
deriving DecidableEq

/-- Code before and after the pass: operations, each with two regions (an If has two, a Loop one, most have none), and
calls of the runtime. The body of a fused operation is empty here: the pass does not enter it (line 186). -/
inductive Code
  | nil
  | op (i : Info) (r1 r2 rest : Code)
  | init (rest : Code)
  | before (i : Info) (rest : Code)
  | after (i : Info) (rest : Code)
deriving DecidableEq

/-- The options `instrument-before` and `instrument-after`. -/
structure Opts where
  before : Bool
  after : Bool

/-- `emitInstrument`, InstrumentPass.cpp 169-175: the runtime is initialised before the first call. -/
def emit (done : Bool) (c : Code → Code) (rest : Code) : Code := if done then c rest else .init (c rest)

/-- Whether a call is put before the operation, InstrumentPass.cpp 167, 176. -/
def wantsBefore (o : Opts) (i : Info) : Bool := i.enabled && o.before

/-- Whether a call is put after the operation, InstrumentPass.cpp 167, 180. -/
def wantsAfter (o : Opts) (i : Info) : Bool := i.enabled && (o.after && !i.last)

/-- The walk of InstrumentPass.cpp 134-187, and whether the runtime has been initialised: an operation is handled before
its regions, and these before what follows. -/
def instrument (o : Opts) : Bool → Code → Code × Bool
  | done, .nil => (.nil, done)
  | done, .op i r1 r2 rest =>
    let d1 := done || wantsBefore o i
    let d2 := d1 || wantsAfter o i
    let (r1', d3) := instrument o d2 r1
    let (r2', d4) := instrument o d3 r2
    let (rest', d5) := instrument o d4 rest
    let tail := if wantsAfter o i then emit d1 (.after i) rest' else rest'
    (if wantsBefore o i then emit done (.before i) (.op i r1' r2' tail) else .op i r1' r2' tail, d5)
  | done, .init rest => let (c, d) := instrument o done rest; (.init c, d)
  | done, .before i rest => let (c, d) := instrument o done rest; (.before i c, d)
  | done, .after i rest => let (c, d) := instrument o done rest; (.after i c, d)

/-! ### The tag -/

/-- The tag of a call, OMCompilerRuntimeTypes.h 78, 85-86, KrnlInstrument.cpp 213-217. -/
def setLens (tag opLen nodeLen : ℕ) : ℕ := tag ||| ((opLen &&& 0x3F) <<< 8) ||| ((nodeLen &&& 0x1FF) <<< 24)

/-- The length of the operation's name, OMCompilerRuntimeTypes.h 79-80. -/
def opLen (tag : ℕ) : ℕ := (tag >>> 8) &&& 0x3F

/-- The length of the node's name, OMCompilerRuntimeTypes.h 87-88. -/
def nodeLen (tag : ℕ) : ℕ := (tag >>> 24) &&& 0x1FF

/-- The bit for calls before operations, OMCompilerRuntimeTypes.h 47-52. -/
def isBefore (tag : ℕ) : Bool := tag.testBit 0

/-- The tag that the compiler gives to a call, InstrumentPass.cpp 103-123 with time reports; the bits are those of
`InstrumentActions`, OMCompilerRuntimeTypes.h 29-35. -/
def callTag (before : Bool) (op node : Name) : ℕ := setLens (if before then 5 else 6) op.length node.length

/-! ### The runtime -/

/-- `TimeRecord`, OMInstrument.c 64-75. A time is none while it has not been set in this record. -/
structure Rec where
  op : Name
  node : Name
  tag : ℕ
  beforeTime : Option ℤ
  afterTime : Option ℤ
deriving DecidableEq

/-- A line of the report, OMInstrument.c 164-168, 235: names, before or after, time since the line before, time since
the start. None for a time computed from one that was never set. -/
inductive Line
  | start
  | perf (op node : Name) (before : Bool) (sinceLast sinceInit : Option ℤ)
deriving DecidableEq

/-- The variables of OMInstrument.c 43-80 that matter here, and what has been written. -/
structure St where
  buf : List Rec
  last : Option ℤ
  init : ℤ
  started : Bool
  out : List Line
deriving DecidableEq

/-- `MAX_TIME_RECORD_BUFFER`, OMInstrument.c 78. -/
def maxRecords : ℕ := 8 * 1024

/-- `PrintTime`, OMInstrument.c 159-171, after `ProcessName` (210-227). -/
def printTime (r : Rec) (before : Bool) (t : Option ℤ) (s : St) : St :=
  { s with
    out := s.out ++ [.perf (r.op.take (opLen r.tag)) (r.node.take (nodeLen r.tag)) before
      (do return (← t) - (← s.last)) (do return (← t) - s.init)]
    last := t }

/-- One turn of the loop in `flushRecordBuffer`, OMInstrument.c 247-256. Both tests look at the same bit. -/
def printRec (s : St) (r : Rec) : St :=
  let s := if isBefore r.tag then printTime r true r.beforeTime s else s
  if isBefore r.tag then printTime r false r.afterTime s else s

/-- `printStartReport`, OMInstrument.c 231-240, without information about the compilation. -/
def printStart (s : St) : St := if s.started then s else { s with out := s.out ++ [.start], started := true }

/-- Another content of the buffer, OMInstrument.c 258, 273. -/
def setBuf (b : List Rec) (s : St) : St := { s with buf := b }

/-- `flushRecordBuffer`, OMInstrument.c 242-259. -/
def flush (s : St) : St :=
  if s.buf = [] then s else setBuf [] (s.buf.foldl printRec (printStart s))

/-- Set the time of a record, OMInstrument.c 280-285. -/
def setTime (tag : ℕ) (t : ℤ) (r : Rec) : Rec :=
  if isBefore tag then { r with beforeTime := some t } else { r with afterTime := some t }

/-- A new entry, OMInstrument.c 270-277. -/
def newEntry (op node : Name) (tag : ℕ) (t : ℤ) (s : St) : St :=
  let s := if maxRecords ≤ s.buf.length then flush s else s
  setBuf (s.buf ++ [setTime tag t ⟨op, node, tag, none, none⟩]) s

/-- `updateRecordBuffer`, OMInstrument.c 261-286, at time `t`. -/
def update (op node : Name) (tag : ℕ) (t : ℤ) (s : St) : St :=
  match s.buf.getLast? with
  | some r =>
    if r.op = op ∧ r.node = node then
      setBuf (s.buf.dropLast ++ [setTime tag t { r with tag := r.tag ||| tag }]) s
    else newEntry op node tag t s
  | none => newEntry op node tag t s

/-- `OMInstrumentPointInit`, OMInstrument.c 381-384, 312-345, at time `t`. -/
def start (t : ℤ) (s : St) : St := { s with buf := [], started := false, last := some t, init := t }

/-- A call of the runtime, with the time at which it happens. -/
inductive Call
  | init (t : ℤ)
  | before (op node : Name) (t : ℤ)
  | after (op node : Name) (t : ℤ)

/-- `OMInstrumentPoint`, OMInstrument.c 387-408, and `OMInstrumentPointInit`. -/
def call (s : St) : Call → St
  | .init t => start t s
  | .before op node t => update op node (callTag true op node) t s
  | .after op node t => update op node (callTag false op node) t s

/-- The report of a run: the calls, then `omInstrumentPrint`, OMInstrument.c 354-357. -/
def report (s : St) (cs : List Call) : List Line := (flush (cs.foldl call s)).out

end Verif.Instrument
