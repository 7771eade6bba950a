import Verif.Command.Model
/-!
# External commands: lemmas (C123)
-/
namespace Verif.Command

theorem appendList_eq (c : Cmd) (l : List Str) :
    appendList c l = { path := c.path, args := c.args ++ l.filter (· ≠ []) } := by
  induction l generalizing c with
  | nil => simp [appendList]
  | cons s l ih =>
    cases s with
    | nil => simp [appendList, ih]
    | cons a s => simp [appendList, ih]

theorem getBasename_eq (path b : Str) (h : Basename path b) : getBasename path = b := by
  have hall : ∀ b : Str, '/' ∉ b → ∀ c ∈ b.reverse, notSlash c = true := by
    intro b hb c hc
    have : c ≠ '/' := fun e => hb (by simpa [e] using hc)
    simp [notSlash, this]
  unfold getBasename
  cases h with
  | plain b hb =>
    have := List.takeWhile_append_of_pos (l₂ := []) (hall _ hb)
    simp only [List.append_nil, List.takeWhile_nil] at this
    rw [this, List.reverse_reverse]
  | dir d b hb =>
    have e : (d ++ '/' :: b).reverse = b.reverse ++ '/' :: d.reverse := by simp
    rw [e, List.takeWhile_append_of_pos (hall b hb)]
    simp [notSlash]

/-- The status tells how a process ended. -/
theorem decode_waitStatus (e : End) (he : e.Ok) :
    decode (waitStatus e) = match e with
      | .exited c => .returns c
      | .signalled s core => .throws (.signal s core) := by
  cases e with
  | exited c =>
    have hc : c < 256 := he
    have h1 : c * 256 % 128 = 0 := by omega
    simp [decode, waitStatus, wifexited, wexitstatus, h1, hc]
  | signalled s core =>
    obtain ⟨h1, h2⟩ := he
    cases core with
    | false =>
      have a1 : s % 128 = s := by omega
      have a2 : s ≠ 0 := by omega
      have a3 : s + 1 < 128 := by omega
      have a5 : s / 128 % 2 = 0 := by omega
      simp [decode, waitStatus, wifexited, wifsignaled, wtermsig, wcoredump, a1, a2, a3, a5]
    | true =>
      have a1 : (s + 128) % 128 = s := by omega
      have a2 : s ≠ 0 := by omega
      have a3 : s + 1 < 128 := by omega
      have a5 : (s + 128) / 128 % 2 = 1 := by omega
      simp only [decode, waitStatus, wifexited, wifsignaled, wtermsig, wcoredump, if_true, a1, a5]
      simp [a2, a3]

theorem absolute_eq (cwd wdir dir : Str) (h : Resolves cwd wdir dir) :
    (if (!wdir.isEmpty) = true then absolute cwd wdir else cwd) = dir := by
  cases h with
  | empty => rfl
  | absolute r => rfl
  | relative c r hc hcwd => simp [absolute, hcwd]
  | relativeRoot c r hc hcwd => simp [absolute, hcwd]

end Verif.Command
