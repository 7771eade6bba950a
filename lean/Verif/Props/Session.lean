import Verif.Session.Lemmas
/-!
# C109: sessions answer as documented and leave the process as it was
-/
namespace Verif.Props
open Verif.Session

/-- The sessions of a program that has made no call yet. -/
def start (In Out : Type) (p : Process) : World In Out := ⟨p, fun _ => none⟩

/-! ## A model to run -/

/-- A library whose symbols have the suffix `_m`.  Its function returns the successor of its
argument, except that it aborts, crashes and fails on the first three numbers. -/
def toyLib (dir : Option Str) : Library Nat Nat where
  constDir := dir
  symbol n :=
    if n = "omQueryEntryPoints_m".toList then some 1
    else if n = "omInputSignature_m".toList then some 2
    else if n = "omOutputSignature_m".toList then some 3
    else if n = "run_main_graph_m".toList then some 4
    else none
  entry _ x := if x = 0 then .raised 6 else if x = 1 then .raised 11 else if x = 2 then .null 5
    else .list (x + 1)
  sig f n := (if f = 2 then "in:".toList else "out:".toList) ++ n
  info _ := []

/-- A system with the library `m.so` in the directories `a` and `b`, and a library without the
symbols of a model, `bad.so`, in `a`. -/
def toySys (savesMask : Bool) : Sys Nat Nat where
  dlopen path env :=
    if path = "a/m.so".toList ∨ path = "b/M.so".toList then some (toyLib env)
    else if path = "a/bad.so".toList then some { toyLib env with symbol := fun _ => none }
    else none
  savesMask := savesMask

/-- A process whose handlers are all the default, except that SIGILL is handled. -/
def toyProc : Process where
  handlers s := if s = 4 then .user 7 else .dfl
  blocked _ := false
  constPath := none
  errno := 0
  opened := 0

/-! ## Every history of calls -/

/-- **C109 (partial).** For every program (every history of calls on any number of sessions), every
library and every entry point: the answers are those of the specification, in particular a run
executes the function whose name was chosen last, on the given inputs, and an error is reported by
an exception and by nothing else; the constants are looked for in `OM_CONSTANT_PATH`, or else in
the directory of the library; at the end `OM_CONSTANT_PATH` is what it was, no signal is blocked,
and the handlers of all signals but SIGILL and SIGABRT are those of the program.
Missing: systems whose `longjmp` does not restore the mask of signals, and the calls that are not
`Admissible`; for these the claims are false, see below. -/
theorem C109_history_partial {In Out : Type} (sys : Sys In Out) (hsave : sys.savesMask = true)
    (p : Process) (hmask : ∀ s, p.blocked s = false) (calls : List (Call In))
    (hadm : AllAdmissible sys dirOf stemOf p.constPath (fun _ => none) calls) :
    (runAll sys (start In Out p) calls).1 =
        (specRunAll sys dirOf stemOf p.constPath (fun _ => none) calls).1 ∧
      (runAll sys (start In Out p) calls).2.proc.constPath = p.constPath ∧
      (∀ s, (runAll sys (start In Out p) calls).2.proc.blocked s = false) ∧
      ∀ s, s ≠ 4 → s ≠ 6 →
        (runAll sys (start In Out p) calls).2.proc.handlers s = p.handlers s := by
  have hw : WRel p.constPath p.handlers (start In Out p) (fun _ => none) :=
    ⟨⟨rfl, hmask, fun _ _ _ => rfl⟩, fun _ => trivial⟩
  obtain ⟨h1, ⟨h2, h3, h4⟩, _⟩ := runAll_rel sys hsave calls hw hadm
  exact ⟨h1, h2, h3, h4⟩

/-- The directory used for constants is the directory of the path. -/
theorem C109_directory (path : Str) : IsDir path (dirOf path) := dirOf_isDir path

/-- The default tag is the name of the file without directory and extension, in lower case. -/
theorem C109_tag (dir base ext : Str) (hdir : dir = [] ∨ dir.getLast? = some '/') (hbase : base ≠ [])
    (hslash : '/' ∉ base) (hext : ext ≠ []) (hext1 : '/' ∉ ext) (hext2 : '.' ∉ ext) :
    stemOf (dir ++ base ++ '.' :: ext) = lower base :=
  stemOf_eq dir base ext hdir hbase hslash hext hext1 hext2

example : stemOf ("/models/v1.2/".toList ++ "MNist.v2".toList ++ '.' :: "so".toList) =
    "mnist.v2".toList := by decide +kernel

/-- A program with two sessions; one crashes while it is guarded. -/
def toyCalls : List (Call Nat) :=
  [.construct 0 "a/m.so".toList [] true, .construct 1 "b/M.so".toList [] false, .run 1 5,
   .setEntryPoint 1 "run_main_graph_m".toList, .run 1 5, .runDebug 0 1 true, .runDebug 0 2 true,
   .inputSignature 0, .compilationInfo 1, .destroy 0, .run 1 7]

example : (runAll (toySys true) (start Nat Nat toyProc) toyCalls).1 =
    [.done, .done, .throws .noEntryPoint, .done, .outs 6, .throws (.signal 11),
     .throws (.failed 5), .text "in:run_main_graph_m".toList, .text "{}".toList, .done,
     .outs 8] := by decide +kernel

/-- The hypotheses of `C109_history_partial` hold for that program. -/
example : AllAdmissible (toySys true) dirOf stemOf toyProc.constPath (fun _ => none) toyCalls := by
  have hload : ∀ (path : Str) d, (path = "a/m.so".toList ∨ path = "b/M.so".toList) →
      ∀ b, (specLoad (toySys true) dirOf stemOf none path [] d).2 ≠ .fresh b := by
    intro path d hp b
    rcases hp with rfl | rfl <;> cases d <;> intro h <;> cases h
  refine ⟨fun ⟨b, h⟩ => absurd h (hload _ _ (.inl rfl) b),
    fun ⟨b, h⟩ => absurd h (hload _ _ (.inr rfl) b), ?_, trivial, ?_, ?_, ?_, trivial, trivial,
    ?_, ?_, trivial⟩
  · rintro s σ ⟨⟩ h; cases h
  · rintro s σ ⟨⟩ h; cases h
  · rintro s σ ⟨⟩ h
    have : σ = 11 := by injection h with h; injection h with h; exact h.symm
    exact ⟨rfl, by rw [this]; decide⟩
  · rintro s σ ⟨⟩ h; cases h
  · intro h; cases h
  · rintro s σ ⟨⟩ h; cases h

/-! ## Handlers -/

/-- **C109.** For every program and every system: if the program gave SIGILL and SIGABRT the same
handler, and no call told of a signal, then the handlers of all signals are those of the
program. -/
theorem C109_handlers_partial {In Out : Type} (sys : Sys In Out) (p : Process)
    (calls : List (Call In)) (hsame : p.handlers 4 = p.handlers 6)
    (hquiet : ∀ r ∈ (runAll sys (start In Out p) calls).1, tellsSignal r = false) :
    (runAll sys (start In Out p) calls).2.proc.handlers = p.handlers :=
  runAll_handlers sys calls (start In Out p) hsame hquiet

example : ∀ r ∈ (runAll (toySys false)
    (start Nat Nat { toyProc with handlers := fun s => if s = 11 then .user 3 else .dfl })
    [.construct 0 "a/m.so".toList [] true, .runDebug 0 5 true]).1, tellsSignal r = false := by
  decide +kernel

/-- The handlers of a program are not restored in general: a run with handlers that succeeds
replaces the handler of SIGILL by the one of SIGABRT. -/
theorem C109_ill_false : ∃ (p : Process) (calls : List (Call Nat)),
    (runAll (toySys true) (start Nat Nat p) calls).1 = [.done, .outs 6] ∧
    p.handlers 4 = .user 7 ∧
    (runAll (toySys true) (start Nat Nat p) calls).2.proc.handlers 4 = .dfl :=
  ⟨toyProc, [.construct 0 "a/m.so".toList [] true, .runDebug 0 5 true], by decide +kernel⟩

/-- After a signal was caught, the handler of SIGABRT stays installed: an abort in a later run
without handlers jumps into a function that has returned, instead of aborting. -/
theorem C109_abort_false : ∃ (calls : List (Call Nat)),
    (runAll (toySys true) (start Nat Nat toyProc) calls).1 =
      [.done, .throws (.signal 11), .undefined] ∧
    (runAll (toySys true) (start Nat Nat toyProc) calls).2.proc.handlers 6 = .session :=
  ⟨[.construct 0 "a/m.so".toList [] true, .runDebug 0 1 true, .run 0 0], by decide +kernel⟩

/-- Where `longjmp` does not restore the mask of signals (Linux), the second crash is not caught:
it kills the process, although the run is guarded. -/
theorem C109_second_false : ∃ (calls : List (Call Nat)),
    (runAll (toySys false) (start Nat Nat toyProc) calls).1 =
      [.done, .throws (.signal 11), .killed 11] :=
  ⟨[.construct 0 "a/m.so".toList [] true, .runDebug 0 1 true, .runDebug 0 1 true],
    by decide +kernel⟩

/-! ## Failures -/

/-- A load that fails leaves `OM_CONSTANT_PATH` behind, and the next model looks for its constants
in the directory of the model that failed. -/
theorem C109_environment_false : ∃ (calls : List (Call Nat)) (s : Sess Nat Nat),
    (runAll (toySys true) (start Nat Nat toyProc) calls).1 =
      [.throws (.cannotOpen "a/none.so".toList), .done] ∧
    toyProc.constPath = none ∧
    (runAll (toySys true) (start Nat Nat toyProc) calls).2.proc.constPath = some "a".toList ∧
    (runAll (toySys true) (start Nat Nat toyProc) calls).2.sess 1 = some s ∧
    s.handle = .lib (toyLib (some "a".toList)) ∧ dirOf "b/M.so".toList = some "b".toList :=
  ⟨[.construct 0 "a/none.so".toList [] true, .construct 1 "b/M.so".toList [] true], _,
    by decide +kernel, rfl, by decide +kernel, rfl, rfl, by decide +kernel⟩

/-- A call of `setEntryPoint` that fails is not without effect: the entry point chosen before is
lost. -/
theorem C109_entry_false : ∃ (calls : List (Call Nat)),
    (runAll (toySys true) (start Nat Nat toyProc) calls).1 =
      [.done, .outs 6, .throws (.cannotLoad "f".toList), .throws .noEntryPoint] :=
  ⟨[.construct 0 "a/m.so".toList [] true, .run 0 5, .setEntryPoint 0 "f".toList, .run 0 5],
    by decide +kernel⟩

/-- A session made by the default constructor cannot be destroyed before a load: its handle was
never written. -/
theorem C109_destroy_false : ∃ (calls : List (Call Nat)),
    (runAll (toySys true) (start Nat Nat toyProc) calls).1 = [.done, .undefined] :=
  ⟨[.create 0, .destroy 0], by decide +kernel⟩

/-- **C109.** A session that was constructed and is destroyed closes the library it opened. -/
theorem C109_release {In Out : Type} (sys : Sys In Out) (w : World In Out) (i : Nat)
    (path tag : Str) (d : Bool) (hnew : w.sess i = none)
    (hok : (step sys w (.construct i path tag d)).1 = .done) :
    (runAll sys w [.construct i path tag d, .destroy i]).1 = [.done, .done] ∧
      (runAll sys w [.construct i path tag d, .destroy i]).2.proc.opened = w.proc.opened := by
  simp only [step, hnew] at hok
  rcases hL : loadModel sys w.proc {} path tag d with ⟨r, p', s'⟩
  rw [hL] at hok
  have hr : r = .done := by cases r <;> first | rfl | (simp at hok)
  subst hr
  obtain ⟨h1, L, h2⟩ := loadModel_done sys w.proc {} path tag d (by rw [hL])
  rw [hL] at h1 h2
  simp only at h1 h2
  simp only [runAll, step, hnew, hL, put, if_true, destroy, h2]
  exact ⟨by trivial, by omega⟩

/-- A constructor that fails after it has opened the library never closes it. -/
theorem C109_leak_false : ∃ (calls : List (Call Nat)),
    (runAll (toySys true) (start Nat Nat toyProc) calls).1 =
      [.throws (.cannotLoad "omQueryEntryPoints_bad".toList)] ∧
    (runAll (toySys true) (start Nat Nat toyProc) calls).2.proc.opened = 1 :=
  ⟨[.construct 0 "a/bad.so".toList [] true], by decide +kernel⟩

end Verif.Props
