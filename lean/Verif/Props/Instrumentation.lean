import Verif.Instrument.Lemmas
import Verif.Instrument.PassLemmas

/-!
# C115: profiles show what ran

The compiler adds calls of the runtime around operations (`--instrument-ops`, `--profile-ir`); the runtime collects times
and writes a report. `Run`, `marked`, `InitFirst`, `FirstOutside`, `Alternates` and `expected` are in `Verif/Instrument/Spec.lean`.
-/

namespace Verif.Props

open Verif.Instrument

/-- Instrumentation does not change the program: without its calls, a run of the instrumented program is a run of the
program, and every run of the program is one of these. -/
theorem C115_program (o : Opts) (c : Code) (hc : Plain c) (t : List Ev) :
    Run (.code c) t ↔ ∃ t', Run (.code (instrument o false c).1) t' ∧ t'.filter Ev.own = t := by
  constructor
  · exact instrument_complete o c hc false t
  · rintro ⟨t', h, rfl⟩
    exact instrument_sound o c hc false t' h

/-- In every run, whatever branches are taken and however often loops run, there is a call directly before every start
of a selected operation and directly after every end, as asked for, and there are no other calls but initialisations. -/
theorem C115_calls (o : Opts) (c : Code) (hc : Plain c) (t : List Ev) (h : Run (.code (instrument o false c).1) t) :
    t.filter (fun e => !decide (e = .init)) = (t.filter Ev.own).flatMap (marked o) :=
  instrument_right o c hc false t h

/-- The runtime is initialised once, before all other calls, if the first selected operation is not inside another.
Missing: programs whose first selected operation is in a region (`C115_branch_false`, `C115_loop_false`), and with calls
after operations only, in an operation that is itself selected (`C115_after_false`). -/
theorem C115_init_partial (o : Opts) (c : Code) (hc : Plain c) (hf : FirstOutside o c) (t : List Ev)
    (h : Run (.code (instrument o false c).1) t) : Silent t ∨ InitFirst t :=
  init_first o c hc hf t h

/-- The report of a run of any length in which operations do not overlap, consecutive ones are different, and names are
short: two lines for every execution, with the right times. Missing: everything in the theorems `C115_..._false`. -/
theorem C115_report_partial (s : St) (t0 : ℤ) (xs : List Exec) (hne : xs ≠ []) (ha : Alternates xs)
    (hs : ∀ x ∈ xs, x.op.length < 64 ∧ x.node.length < 512) :
    report s (.init t0 :: calls xs) = s.out ++ .start :: expected t0 t0 xs := by
  rw [report, List.foldl_cons]
  have hcut : xs.map cut = xs := by
    conv_rhs => rw [← List.map_id xs]
    apply List.map_congr_left
    intro x hx
    obtain ⟨h1, h2⟩ := hs x hx
    simp only [cut, Nat.mod_eq_of_lt h1, Nat.mod_eq_of_lt h2, List.take_length, id]
  have h := run_flush xs (start t0 s) t0 ha (by simp [start]) (by simp [flush, start])
  rw [call, h, hcut]
  simp [flush, start, hne]

/-- A run without calls leaves no report. -/
theorem C115_report_empty (s : St) (t0 : ℤ) : report s [.init t0] = s.out := by
  simp [report, call, flush, start]

/-! ### Instances -/

def nameA : Info := ⟨['A'], ['a'], true, false⟩
def nameB : Info := ⟨['B'], ['b'], true, false⟩
def plainC : Info := ⟨['C'], ['c'], false, false⟩
def opA : Code := .op nameA .nil .nil .nil

/-- C, then a loop A around B. -/
def sampleCode : Code := .op plainC .nil .nil (.op nameA (.op nameB .nil .nil .nil) .nil .nil)

example : Plain sampleCode ∧ FirstOutside ⟨true, true⟩ sampleCode ∧
    ∃ t, Run (.code (instrument ⟨true, true⟩ false sampleCode).1) t ∧ InitFirst t := by
  refine ⟨by simp [sampleCode, Plain], by simp [sampleCode, FirstOutside, wantsBefore, wantsAfter, plainC, nameA, Quiet], ?_⟩
  obtain ⟨t', h, ht⟩ := (C115_program ⟨true, true⟩ sampleCode (by simp [sampleCode, Plain]) _).1
    (Run.op (i := plainC) .stop (Run.op (i := nameA) .stop .nil))
  refine ⟨t', h, ?_⟩
  rcases C115_init_partial _ _ (by simp [sampleCode, Plain])
    (by simp [sampleCode, FirstOutside, wantsBefore, wantsAfter, plainC, nameA, Quiet]) t' h with hs | hi
  · exfalso
    have h2 := C115_calls _ _ (by simp [sampleCode, Plain]) t' h
    rw [ht] at h2
    have : Ev.before nameA ∈ t'.filter (fun e => !decide (e = .init)) := by
      rw [h2]; decide
    exact absurd (hs _ (List.mem_filter.1 this).1) (by decide)
  · exact hi

/-- The state at the start of a process. -/
def freshSt : St := ⟨[], none, 0, false, []⟩

example : report freshSt (.init 10 :: calls [⟨['A'], ['a'], 11, 15⟩, ⟨['B'], ['b'], 16, 19⟩]) =
    [.start, .perf ['A'] ['a'] true (some 1) (some 1), .perf ['A'] ['a'] false (some 4) (some 5),
      .perf ['B'] ['b'] true (some 1) (some 6), .perf ['B'] ['b'] false (some 3) (some 9)] := by
  rw [C115_report_partial _ _ _ (by simp) (by simp [Alternates]) (by simp)]
  decide

/-! ### Where the property fails -/

/-- Calls after operations only: operations inside the first one report before the runtime is initialised. -/
theorem C115_after_false : ∃ o c t, Plain c ∧ Run (.code (instrument o false c).1) t ∧ ¬ (Silent t ∨ InitFirst t) := by
  refine ⟨⟨false, true⟩, .op nameA (.op nameB .nil .nil .nil) .nil .nil,
    [.start nameA, .start nameB, .finish nameB, .after nameB, .finish nameA, .init, .after nameA],
    by simp [Plain], ?_, ?_⟩
  · have h : (instrument ⟨false, true⟩ false (.op nameA (.op nameB .nil .nil .nil) .nil .nil)).1 =
      .op nameA (.op nameB .nil .nil (.after nameB .nil)) .nil (.init (.after nameA .nil)) := by decide
    rw [h]
    exact Run.op (t1 := [.start nameB, .finish nameB, .after nameB] ++ [])
      (Run.first (Run.op (t1 := []) .stop (.after .nil)) .stop) (.init (.after .nil))
  · rintro (h | ⟨t1, t2, h, h1, _⟩)
    · exact absurd (h (.after nameB) (by simp)) (by decide)
    · have hm : Ev.after nameB ∈ t1 := by
        rcases t1 with _ | ⟨a, _ | ⟨b, _ | ⟨c, _ | ⟨d, t1⟩⟩⟩⟩ <;> simp_all
      exact absurd (h1 _ hm) (by decide)

/-- The first selected operation is in one branch, the run takes the other: the runtime is not initialised. -/
theorem C115_branch_false : ∃ o c t, Plain c ∧ Run (.code (instrument o false c).1) t ∧ ¬ (Silent t ∨ InitFirst t) := by
  refine ⟨⟨true, true⟩, .op plainC opA (.op nameB .nil .nil .nil) .nil,
    [.start plainC, .before nameB, .start nameB, .finish nameB, .after nameB, .finish plainC], by simp [Plain, opA], ?_, ?_⟩
  · have h : (instrument ⟨true, true⟩ false (.op plainC opA (.op nameB .nil .nil .nil) .nil)).1 =
      .op plainC (.init (.before nameA (.op nameA .nil .nil (.after nameA .nil))))
        (.before nameB (.op nameB .nil .nil (.after nameB .nil))) .nil := by decide
    rw [h]
    exact Run.op (t1 := [.before nameB, .start nameB, .finish nameB, .after nameB] ++ [])
      (Run.second (.before (Run.op (t1 := []) .stop (.after .nil))) .stop) .nil
  · rintro (h | ⟨t1, t2, h, _⟩)
    · exact absurd (h (.before nameB) (by simp)) (by decide)
    · have : Ev.init ∈ t1 ++ Ev.init :: t2 := by simp
      rw [← h] at this
      exact absurd this (by decide)

/-- The first selected operation is in a loop: the runtime is initialised in every iteration, and the report has the last
one only. -/
theorem C115_loop_false : (∃ o c t, Plain c ∧ Run (.code (instrument o false c).1) t ∧ ¬ (Silent t ∨ InitFirst t)) ∧
    report freshSt ([.init 1] ++ calls [⟨['A'], ['a'], 2, 3⟩] ++ [.init 4] ++ calls [⟨['A'], ['a'], 5, 6⟩]) =
      [.start, .perf ['A'] ['a'] true (some 1) (some 1), .perf ['A'] ['a'] false (some 1) (some 2)] := by
  refine ⟨⟨⟨true, true⟩, .op plainC opA .nil .nil,
    [.start plainC, .init, .before nameA, .start nameA, .finish nameA, .after nameA,
      .init, .before nameA, .start nameA, .finish nameA, .after nameA, .finish plainC], by simp [Plain, opA], ?_, ?_⟩, ?_⟩
  · have h : (instrument ⟨true, true⟩ false (.op plainC opA .nil .nil)).1 =
      .op plainC (.init (.before nameA (.op nameA .nil .nil (.after nameA .nil)))) .nil .nil := by decide
    rw [h]
    have hb : Run (.code (.init (.before nameA (.op nameA .nil .nil (.after nameA .nil)))))
        [.init, .before nameA, .start nameA, .finish nameA, .after nameA] :=
      .init (.before (Run.op (t1 := []) .stop (.after .nil)))
    exact Run.op (Run.first hb (Run.first hb .stop)) .nil
  · rintro (h | ⟨t1, t2, h, h1, h2⟩)
    · exact absurd (h .init (by simp)) (by decide)
    · rcases t1 with _ | ⟨a, _ | ⟨b, t1⟩⟩
      · simp at h
      · simp only [List.cons_append, List.nil_append, List.cons.injEq] at h
        obtain ⟨_, _, rfl⟩ := h
        simp at h2
      · simp only [List.cons_append, List.cons.injEq] at h
        obtain ⟨_, rfl, _⟩ := h
        exact absurd (h1 .init (by simp)) (by decide)
  · decide +kernel

/-- Calls after operations only: the report has no line for any operation. -/
theorem C115_report_after_false : report freshSt [.init 1, .after ['A'] ['a'] 2, .after ['B'] ['b'] 3] = [.start] := by
  decide +kernel

/-- Calls before operations only: the report has lines for ends that nobody reported, with times that were never set. -/
theorem C115_report_before_false : report freshSt [.init 1, .before ['A'] ['a'] 2] =
    [.start, .perf ['A'] ['a'] true (some 1) (some 1), .perf ['A'] ['a'] false none none] := by
  decide +kernel

/-- An operation A around B: the end of A is not in the report; there is a line for it before B, with a time that was
never set. -/
theorem C115_report_nested_false : report freshSt [.init 1, .before ['A'] ['a'] 2, .before ['B'] ['b'] 3,
    .after ['B'] ['b'] 4, .after ['A'] ['a'] 5] =
    [.start, .perf ['A'] ['a'] true (some 1) (some 1), .perf ['A'] ['a'] false none none,
      .perf ['B'] ['b'] true none (some 2), .perf ['B'] ['b'] false (some 1) (some 3)] := by
  decide +kernel

/-- The same operation twice in a row, as in a loop: the report has the second execution only. -/
theorem C115_report_repeated_false : report freshSt (.init 1 :: calls [⟨['A'], ['a'], 2, 3⟩, ⟨['A'], ['a'], 4, 5⟩]) =
    [.start, .perf ['A'] ['a'] true (some 3) (some 3), .perf ['A'] ['a'] false (some 1) (some 4)] := by
  decide +kernel

/-- A node name of 512 characters is empty in the report. -/
theorem C115_report_long_name_false (n : List Char) (hn : n.length = 512) :
    report freshSt (.init 1 :: calls [⟨['A'], n, 2, 3⟩]) =
    [.start, .perf ['A'] [] true (some 1) (some 1), .perf ['A'] [] false (some 1) (some 2)] := by
  rw [report, List.foldl_cons]
  have h := run_flush [⟨['A'], n, 2, 3⟩] (start 1 freshSt) 1 trivial 
    (by intro r x hr; simp [start] at hr) (by simp [flush, start])
  rw [call, h]
  simp [flush, start, freshSt, cut, expected, hn]

end Verif.Props
