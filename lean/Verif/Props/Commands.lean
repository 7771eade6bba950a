import Verif.Command.Lemmas
import Mathlib.Data.List.Induction
/-!
# C123: external commands

A command is run with the arguments that were given since the last reset, in the requested
directory, and its caller sees the exit code of the program and nothing else as a result; the
current directory is the same afterwards.
-/
namespace Verif.Props
open Verif.Command

/-- **C123.** After any history of calls the program is the one that was given, and its arguments
are its base name and the words that are not empty of the calls since the last reset, in order. -/
theorem C123_arguments (path base : Str) (hb : Basename path base) (c : Cmd)
    (hc : mkCommand path = some c) (h : List Call) :
    (h.foldl call c).path = path ∧
      (h.foldl call c).args = base :: (afterReset h).flatMap Call.words := by
  have h0 : c = { path := path, args := [base] } := by
    unfold mkCommand at hc
    split at hc
    · cases hc
    · rw [getBasename_eq path base hb] at hc
      exact (Option.some.inj hc).symm
  subst h0
  induction h using List.reverseRecOn with
  | nil => exact ⟨rfl, rfl⟩
  | append_singleton h a ih =>
    obtain ⟨i1, i2⟩ := ih
    rw [List.foldl_append]
    generalize h.foldl call { path := path, args := [base] } = c at i1 i2
    obtain ⟨p, args⟩ := c
    simp only at i1 i2
    subst i1 i2
    cases a with
    | reset => exact ⟨rfl, by simp [call, resetArgs, afterReset, Call.isReset]⟩
    | str s =>
      have e : afterReset (h ++ [.str s]) = afterReset h ++ [.str s] := by
        simp [afterReset, Call.isReset]
      rw [e]
      cases s with
      | nil => exact ⟨rfl, by simp [call, appendStr, Call.words]⟩
      | cons x s => exact ⟨rfl, by simp [call, appendStr, Call.words]⟩
    | list l =>
      have e : afterReset (h ++ [.list l]) = afterReset h ++ [.list l] := by
        simp [afterReset, Call.isReset]
      rw [e]
      simp [call, appendList_eq, Call.words]

/-- Witness: `/b/opt`, with a reset in the history. -/
example : ∃ c, mkCommand ['/', 'b', '/', 'o'] = some c ∧
    Basename ['/', 'b', '/', 'o'] ['o'] ∧
    ([Call.str ['x'], .reset, .list [['y'], [], ['z']]].foldl call c).args =
      [['o'], ['y'], ['z']] :=
  ⟨⟨['/', 'b', '/', 'o'], [['o']]⟩, rfl, Basename.dir ['/', 'b'] ['o'] (by decide), rfl⟩

/-- **C123 (partial).** When the system lets the process change directory and fork, the program
is started with the arguments of the command in the directory that was asked for. The caller gets
its exit code; an exception with the signal when a signal ended it; and an error code of the
compiler when it could not be started. The current directory is as before. What is missing: a
signal during the wait, see `C123_interrupted_false`. -/
theorem C123_result_partial (w : World) (c : Cmd) (cwd wdir dir : Str) (hcwd : w.cwd = some cwd)
    (hdir : Resolves cwd wdir dir) (he : wdir ≠ [] → w.canEnter dir = true)
    (hr : wdir ≠ [] → w.canRestore cwd = true) (hf : w.forkOk = true)
    (hi : w.interrupted = false)
    (hok : ∀ e, w.run ⟨c.path, c.args, dir⟩ = .ended e → e.Ok) :
    exec w c wdir =
      (match w.run ⟨c.path, c.args, dir⟩ with
        | .ended (.exited n) => .returns n
        | .ended (.signalled s core) => .throws (.signal s core)
        | .notStarted errno => .returns (startError errno), some cwd) := by
  have hd := absolute_eq cwd wdir dir hdir
  unfold exec
  rw [hcwd]
  simp only [hd]
  have h1 : ((!wdir.isEmpty) && !w.canEnter dir) = false := by
    cases wdir with
    | nil => rfl
    | cons a l => simp [he]
  have h2 : ((!wdir.isEmpty) && !w.canRestore cwd) = false := by
    cases wdir with
    | nil => rfl
    | cons a l => simp [hr]
  simp only [h1, Bool.false_eq_true, if_false, forked, hf, if_true, finish, h2, hi]
  cases hrun : w.run ⟨c.path, c.args, dir⟩ with
  | ended e =>
    have := decode_waitStatus e (hok e hrun)
    cases e with
    | exited n => simpa [childEnd] using this
    | signalled s core => simpa [childEnd] using this
  | notStarted errno =>
    simp only [childEnd, startError]
    split
    · rfl
    · split <;> rfl

/-- Witness: a program that ends with code 3 in `/t/d`. -/
example :
    let w : World := ⟨some ['/', 't'], fun _ => true, fun _ => true, true,
      fun l => if l.dir = ['/', 't', '/', 'd'] then .ended (.exited 3) else .notStarted 2, false⟩
    (exec w ⟨['o'], [['o']]⟩ ['d']) = (.returns 3, some ['/', 't']) := by
  intro w
  have := C123_result_partial w ⟨['o'], [['o']]⟩ ['/', 't'] ['d'] ['/', 't', '/', 'd'] rfl
    (Resolves.relative 'd' [] (by decide) (by decide)) (fun _ => rfl) (fun _ => rfl) rfl rfl
    (by
      intro e h
      have : e = .exited 3 := by
        simp [w] at h
        exact h.symm
      subst this
      show 3 < 256
      decide)
  exact this

/-- **C123.** Zero, which means success, is returned only if the program was started and ended
with zero, whatever else happens. -/
theorem C123_success (w : World) (c : Cmd) (wdir cwd dir : Str) (hcwd : w.cwd = some cwd)
    (hdir : Resolves cwd wdir dir)
    (hok : ∀ e, w.run ⟨c.path, c.args, dir⟩ = .ended e → e.Ok) (after : Option Str)
    (h : exec w c wdir = (.returns 0, after)) :
    w.run ⟨c.path, c.args, dir⟩ = .ended (.exited 0) ∧ after = some cwd ∧
      (wdir ≠ [] → w.canEnter dir = true) := by
  have hd := absolute_eq cwd wdir dir hdir
  unfold exec at h
  rw [hcwd] at h
  simp only [hd] at h
  split at h
  · cases h
  rename_i hent
  unfold forked at h
  split at h
  · unfold finish at h
    split at h
    · cases h
    · split at h
      · cases h
      · have h1 := (Prod.mk.inj h).1
        have h2 := (Prod.mk.inj h).2
        refine ⟨?_, h2.symm, ?_⟩
        · cases hrun : w.run ⟨c.path, c.args, dir⟩ with
          | notStarted errno =>
            rw [hrun] at h1
            simp only [childEnd] at h1
            split at h1
            · simp [decode, waitStatus, wifexited, wexitstatus] at h1
            · split at h1 <;> simp [decode, waitStatus, wifexited, wexitstatus] at h1
          | ended e =>
            rw [hrun] at h1
            have := decode_waitStatus e (hok e hrun)
            simp only [childEnd] at h1
            rw [this] at h1
            cases e with
            | exited n =>
              simp only [Outcome.returns.injEq] at h1
              rw [h1]
            | signalled s core => simp at h1
        · intro hne
          cases wdir with
          | nil => exact (hne rfl).elim
          | cons a l => simpa using hent
  · split at h
    · split at h <;> cases h
    · cases h

/-- Witness. -/
example :
    let w : World := ⟨some ['/'], fun _ => true, fun _ => true, true,
      fun _ => .ended (.exited 0), false⟩
    exec w ⟨['o'], [['o']]⟩ ['d'] = (.returns 0, some ['/']) := rfl

/-- **C123.** Whatever the system does, the current directory is the same after the command,
unless the process is not allowed to go back to it: then an exception says so. -/
theorem C123_directory (w : World) (c : Cmd) (cwd wdir : Str) (hcwd : w.cwd = some cwd) :
    (exec w c wdir).2 = some cwd ∨
      (wdir ≠ [] ∧ w.canRestore cwd = false ∧
        ((exec w c wdir).1 = .throws .cannotRestore ∨ (exec w c wdir).1 = .throws .fileSystem)) := by
  unfold exec
  rw [hcwd]
  cases wdir with
  | nil =>
    left
    simp only [List.isEmpty_nil, Bool.not_true, Bool.false_and, Bool.false_eq_true, if_false,
      forked, finish]
    split <;> rfl
  | cons a l =>
    simp only [List.isEmpty_cons, Bool.not_false, Bool.true_and, if_true, forked, finish]
    split
    · exact Or.inl rfl
    · cases hr : w.canRestore cwd with
      | true =>
        left
        cases w.forkOk <;> simp
      | false =>
        right
        cases w.forkOk <;> simp

/-- Witness: a program that is killed does not change the directory. -/
example :
    let w : World := ⟨some ['/', 't'], fun _ => true, fun _ => true, true,
      fun _ => .ended (.signalled 9 false), false⟩
    exec w ⟨['o'], [['o']]⟩ ['d'] = (.throws (.signal 9 false), some ['/', 't']) := rfl

/-- **C123 (disagreement).** A signal that has a handler can interrupt the wait, which is not
repeated; then the status that is looked at was never set. -/
theorem C123_interrupted_false :
    ∃ (w : World) (c : Cmd), w.cwd = some ['/'] ∧ w.forkOk = true ∧
      w.run ⟨c.path, c.args, ['/']⟩ = .ended (.exited 1) ∧
      (exec w c []).1 = .undefined :=
  ⟨⟨some ['/'], fun _ => true, fun _ => true, true, fun _ => .ended (.exited 1), true⟩,
    ⟨['o'], [['o']]⟩, rfl, rfl, rfl, rfl⟩

end Verif.Props
