import Verif.Instrument.Model

/-!
# What runs of a program and reports of it should be (specification)
-/

namespace Verif.Instrument

/-- What can be seen of a run: an operation starts or ends, or the runtime is called. -/
inductive Ev
  | start (i : Info)
  | finish (i : Info)
  | init
  | before (i : Info)
  | after (i : Info)
deriving DecidableEq

/-- Code to run, or two regions of an operation to run any number of times in any order. -/
inductive Task
  | code (c : Code)
  | regions (r1 r2 : Code)

/-- The runs of code. -/
inductive Run : Task → List Ev → Prop
  | nil : Run (.code .nil) []
  | op {i r1 r2 rest t1 t2} : Run (.regions r1 r2) t1 → Run (.code rest) t2 →
      Run (.code (.op i r1 r2 rest)) (.start i :: t1 ++ .finish i :: t2)
  | init {rest t} : Run (.code rest) t → Run (.code (.init rest)) (.init :: t)
  | before {i rest t} : Run (.code rest) t → Run (.code (.before i rest)) (.before i :: t)
  | after {i rest t} : Run (.code rest) t → Run (.code (.after i rest)) (.after i :: t)
  | stop {r1 r2} : Run (.regions r1 r2) []
  | first {r1 r2 t1 t2} : Run (.code r1) t1 → Run (.regions r1 r2) t2 → Run (.regions r1 r2) (t1 ++ t2)
  | second {r1 r2 t1 t2} : Run (.code r2) t1 → Run (.regions r1 r2) t2 → Run (.regions r1 r2) (t1 ++ t2)

/-- Code without calls of the runtime: what the pass is given. -/
def Plain : Code → Prop
  | .nil => True
  | .op _ r1 r2 rest => Plain r1 ∧ Plain r2 ∧ Plain rest
  | _ => False

/-- An event of the program itself. -/
def Ev.own : Ev → Bool
  | .start _ => true
  | .finish _ => true
  | _ => false

/-- A call that reports something. -/
def Ev.reports : Ev → Bool
  | .before _ => true
  | .after _ => true
  | _ => false

/-- What a run should look like with calls: one directly before each start and one directly after each end, if asked
for. -/
def marked (o : Opts) : Ev → List Ev
  | .start i => if i.enabled ∧ o.before then [.before i, .start i] else [.start i]
  | .finish i => if i.enabled ∧ o.after ∧ ¬ i.last then [.finish i, .after i] else [.finish i]
  | _ => []

/-- The runtime is initialised once, before all reports. -/
def InitFirst (t : List Ev) : Prop := ∃ t1 t2, t = t1 ++ .init :: t2 ∧ (∀ e ∈ t1, e.own) ∧ .init ∉ t2

/-- No calls at all. -/
def Silent (t : List Ev) : Prop := ∀ e ∈ t, e.own

/-- One execution of an operation: its names, and the times before and after. -/
structure Exec where
  op : Name
  node : Name
  t1 : ℤ
  t2 : ℤ

/-- The lines that a report should have for a list of executions, one after the other: `prev` is the time of the line
before, `init` the start. -/
def expected (init : ℤ) : ℤ → List Exec → List Line
  | _, [] => []
  | prev, x :: xs =>
    .perf x.op x.node true (some (x.t1 - prev)) (some (x.t1 - init)) ::
      .perf x.op x.node false (some (x.t2 - x.t1)) (some (x.t2 - init)) :: expected init x.t2 xs

/-- The calls for a list of executions. -/
def calls (xs : List Exec) : List Call := xs.flatMap fun x => [.before x.op x.node x.t1, .after x.op x.node x.t2]

/-- Consecutive executions are of different operations. -/
def Alternates : List Exec → Prop
  | [] => True
  | [_] => True
  | x :: y :: xs => ¬ (x.op = y.op ∧ x.node = y.node) ∧ Alternates (y :: xs)

/-- Nothing in the code is instrumented. -/
def Quiet (o : Opts) : Code → Prop
  | .nil => True
  | .op i r1 r2 rest => wantsBefore o i = false ∧ wantsAfter o i = false ∧ Quiet o r1 ∧ Quiet o r2 ∧ Quiet o rest
  | _ => False

/-- The first instrumented operation of the text is not inside another operation, and if only calls after operations are
asked for, nothing inside it is instrumented. -/
def FirstOutside (o : Opts) : Code → Prop
  | .nil => True
  | .op i r1 r2 rest =>
    if wantsBefore o i then True
    else if wantsAfter o i then Quiet o r1 ∧ Quiet o r2
    else Quiet o r1 ∧ Quiet o r2 ∧ FirstOutside o rest
  | _ => False

end Verif.Instrument
