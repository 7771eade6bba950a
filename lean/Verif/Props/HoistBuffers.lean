import Verif.Hoist.Lemmas

/-!
# C116: moving buffers out of parallel loops changes no result

A run is an interleaving of the steps of all threads; `Safe`, `Single` and `allocs` are in `Verif/Hoist/Spec.lean`.
-/

namespace Verif.Props

open Verif.Hoist

variable {O S R V I : Type}

/-- If the loop has no errors in any interleaving, it has none after the pass. -/
theorem C116_safe (body : Code O S R V) (h1 : Single body) (init : I → R) (o : ℕ → O) (s : S) (r : ℕ → R)
    (share : ℕ → List I) (hs : Safe (plain body) init o (start (plain body) s r share)) :
    Safe (hoist body) init o (start (hoist body) s r share) := by
  intro js
  obtain ⟨ks, y, y', h, _⟩ := hoist_sim h1 s r share hs js
  simp [h]

/-- What the shared memory is at any point of a run after the pass, it is at some point of a run before it; and if all
threads have finished, they have finished there too, with the same values. For all bodies with conditionals and inner
loops, all numbers of threads and iterations, all ways to distribute the iterations and all interleavings. -/
theorem C116_results (body : Code O S R V) (h1 : Single body) (init : I → R) (o : ℕ → O) (s : S) (r : ℕ → R)
    (share : ℕ → List I) (hs : Safe (plain body) init o (start (plain body) s r share)) (js : List ℕ) (y' : Sys O S R V I)
    (hy : run (hoist body) init o js (start (hoist body) s r share) = some y') :
    ∃ ks y, run (plain body) init o ks (start (plain body) s r share) = some y ∧ y'.shared = y.shared ∧
      ∀ j, (y'.th j).finished → (y.th j).finished ∧ (y'.th j).regs = (y.th j).regs := by
  obtain ⟨ks, y, z, h, h2, h3, h4⟩ := hoist_sim h1 s r share hs js
  rw [hy] at h
  cases h
  refine ⟨ks, y, h2, h3, fun j hj => ?_⟩
  obtain ⟨_, a2, a3⟩ := hj
  cases h4 j with
  | front l hl sub st st' its e1 e2 regs no no' => rw [e2] at a3; cases a3
  | loop h => rw [h.l'] at a3; cases a3
  | back l nd sub al gone st st' its its0 e1 e2 regs same => rw [st'] at a2; cases a2
  | done f f' regs gone same => exact ⟨f, regs⟩

/-- A buffer that is moved is freed by every thread that finishes. -/
theorem C116_freed (body : Code O S R V) (h1 : Single body) (init : I → R) (o : ℕ → O) (s : S) (r : ℕ → R)
    (share : ℕ → List I) (hs : Safe (plain body) init o (start (plain body) s r share)) (js : List ℕ) (y' : Sys O S R V I)
    (hy : run (hoist body) init o js (start (hoist body) s r share) = some y') (j : ℕ) (hj : (y'.th j).finished)
    (b : ℕ) (f : O → ℕ) (hb : (b, f) ∈ collect body body) : (y'.th j).bufs b = none := by
  obtain ⟨ks, y, z, h, h2, h3, h4⟩ := hoist_sim h1 s r share hs js
  rw [hy] at h
  cases h
  obtain ⟨_, a2, a3⟩ := hj
  cases h4 j with
  | front l hl sub st st' its e1 e2 regs no no' => rw [e2] at a3; cases a3
  | loop h => rw [h.l'] at a3; cases a3
  | back l nd sub al gone st st' its its0 e1 e2 regs same => rw [st'] at a2; cases a2
  | done f f' regs gone same => exact gone b (List.mem_map_of_mem hb)

/-- A buffer allocated outside inner loops, with a size known outside, and freed once, in the same block, is moved: no
iteration allocates it. -/
theorem C116_moved (body rest : Code O S R V) (b : ℕ) (f : O → ℕ) (h : AllocAt b f rest body)
    (h1 : deallocs b body = 1) (h2 : freedHere b rest = true) :
    (b, f) ∈ collect body body ∧ b ∉ (allocs (hoist body).body).map Prod.fst := by
  have find : ∀ c : Code O S R V, AllocAt b f rest c → (b, f) ∈ collect body c := by
    intro c hc
    induction hc with
    | here => simp [collect, handleOne, outerSize, h1, h2]
    | act _ ih => simpa [collect] using ih
    | get _ ih => simpa [collect] using ih
    | put _ ih => simpa [collect] using ih
    | alloc _ ih => simp [collect, ih]
    | dealloc _ ih => simpa [collect] using ih
    | yes _ ih => simp [collect, ih]
    | no _ ih => simp [collect, ih]
    | cond _ ih => simp [collect, ih]
    | loop _ ih => simpa [collect] using ih
  have hm := find body h
  refine ⟨hm, ?_⟩
  have key : ∀ (ids : List ℕ) (c : Code O S R V), b ∈ ids → b ∉ (allocs (strip ids c)).map Prod.fst := by
    intro ids c hb
    induction c with
    | nil => simp [strip, allocs]
    | act f rest ih => simpa [strip, allocs] using ih
    | get b a f rest ih => simpa [strip, allocs] using ih
    | put b a v rest ih => simpa [strip, allocs] using ih
    | cond q t e rest i1 i2 i3 =>
      simp only [strip, allocs, List.map_append, List.mem_append, not_or]
      exact ⟨⟨i1, i2⟩, i3⟩
    | loop n body rest i1 i2 =>
      simp only [strip, allocs, List.map_append, List.mem_append, not_or]
      exact ⟨i1, i2⟩
    | alloc c z rest ih =>
      simp only [strip]
      split_ifs with hc
      · exact ih
      · simp only [allocs, List.map_cons, List.mem_cons, not_or]
        exact ⟨fun e => hc (e ▸ hb), ih⟩
    | dealloc c rest ih =>
      simp only [strip]
      split_ifs with hc
      · exact ih
      · simpa [allocs] using ih
  exact key _ _ (List.mem_map_of_mem hm)

/-! ### An instance -/

/-- Code that puts the number of the iteration into a buffer of one cell, reads it back and adds it to a sum. -/
def addD : Code ℕ ℕ ℕ ℕ := .dealloc 0 .nil
def addC : Code ℕ ℕ ℕ ℕ := .act (fun s r => (s + r, r)) addD
def addB : Code ℕ ℕ ℕ ℕ := .get 0 (fun _ => 0) (fun _ v => v) addC
def addA : Code ℕ ℕ ℕ ℕ := .put 0 (fun _ => 0) (fun r => r) addB
def addBody : Code ℕ ℕ ℕ ℕ := .alloc 0 (.outer fun o => o + 1) addA

/-- What is true of a thread that runs this code. -/
def AddInv (o : ℕ) (t : Thread ℕ ℕ ℕ ℕ ℕ) : Prop :=
  t.stack = [] ∨ t.stack = [.nil] ∨ t.stack = [addBody] ∨
  (t.stack = [addA] ∧ ∃ c, t.bufs 0 = some (o + 1, c)) ∨
  (t.stack = [addB] ∧ ∃ c v, t.bufs 0 = some (o + 1, c) ∧ c 0 = some v) ∨
  ((t.stack = [addC] ∨ t.stack = [addD]) ∧ ∃ c, t.bufs 0 = some (o + 1, c))

theorem add_body_step (o s : ℕ) (t : Thread ℕ ℕ ℕ ℕ ℕ) (h : AddInv o t) :
    ∃ y, step (plain addBody) id o s t = some y ∧ AddInv o y.2 := by
  rcases h with h | h | h | ⟨h, c, hc⟩ | ⟨h, c, v, hc, hv⟩ | ⟨h | h, c, hc⟩
  · rcases hi : t.its with _ | ⟨i, is⟩
    · by_cases hl : t.leaving
      · exact ⟨(s, t), by simp [step, h, hi, hl], .inl h⟩
      · exact ⟨_, by simp only [step, h, hi, hl]; rfl, .inr (.inl rfl)⟩
    · exact ⟨_, by simp only [step, h, hi]; rfl, .inr (.inr (.inl rfl))⟩
  · exact ⟨_, by simp only [step, h, exec]; rfl, .inl rfl⟩
  · exact ⟨_, by simp only [step, h, addBody, exec]; rfl, .inr (.inr (.inr (.inl ⟨rfl, fun _ => none, by simp [Size.eval]⟩)))⟩
  · refine ⟨_, by simp only [step, h, addA, exec, write, hc]; rfl, .inr (.inr (.inr (.inr (.inl ⟨rfl, Function.update c 0 (some t.regs), t.regs, ?_⟩))))⟩
    simp
  · refine ⟨_, by simp only [step, h, addB, exec, Hoist.read, hc, Nat.zero_lt_succ, if_true, hv]; rfl, .inr (.inr (.inr (.inr (.inr ⟨.inl rfl, c, hc⟩))))⟩
  · exact ⟨_, by simp only [step, h, addC, exec]; rfl, .inr (.inr (.inr (.inr (.inr ⟨.inr rfl, c, hc⟩))))⟩
  · exact ⟨_, by simp only [step, h, addD, exec, free, hc]; rfl, .inr (.inl rfl)⟩

theorem add_body_safe (o : ℕ → ℕ) : ∀ (js : List ℕ) (x : Sys ℕ ℕ ℕ ℕ ℕ), (∀ j, AddInv (o j) (x.th j)) →
    run (plain addBody) id o js x ≠ none
  | [], x, _ => by simp [run]
  | j :: js, x, h => by
    obtain ⟨y, hy, hi⟩ := add_body_step (o j) x.shared (x.th j) (h j)
    simp only [run, sysStep, hy, Option.map_some]
    refine add_body_safe o js _ fun i => ?_
    by_cases e : i = j
    · subst e; simpa using hi
    · simpa [Function.update_of_ne e] using h i

example : Single addBody ∧ AllocAt 0 (fun o => o + 1) addA addBody ∧ deallocs 0 addBody = 1 ∧ freedHere 0 addA = true ∧
    (∀ s r share, Safe (plain addBody) id (fun j => j) (start (plain addBody) s r share)) := by
  refine ⟨by simp [Single, addBody, addA, addB, addC, addD, allocs], .here, rfl, rfl, ?_⟩
  · intro s r share js
    exact add_body_safe _ js _ fun j => .inr (.inl rfl)

/-- Two threads share the iterations 1, 2 and 3, 4. -/
example : ∃ y', run (hoist addBody) id (fun j => j) ([0, 1, 1, 0, 0, 0, 1, 1] ++ List.replicate 40 0 ++ List.replicate 40 1)
    (start (hoist addBody) 0 (fun _ => 0) (fun j => if j = 0 then [1, 2] else if j = 1 then [3, 4] else [])) = some y' ∧
    y'.shared = 10 ∧ (y'.th 0).finished ∧ (y'.th 1).finished := by
  refine ⟨_, rfl, by decide +kernel, ?_, ?_⟩
  all_goals exact ⟨by rfl, by rfl, by rfl⟩

end Verif.Props
