import Verif.Pool.Lemmas
import Verif.Pool.Scrub

/-!
# The pool of constants

`Pool.Reach s`: the pool and program are in state `s` after some history of creating constants, editing
the program, garbage collection, scrubbing and closing. `s.prog` are the constants the program uses,
`s.read` reads one (`none`: its memory was released), `s.buf i` is the memory of constant `i`.
-/

namespace Verif.Props

open Verif.Pool

variable {V : Type}

/-- After every history, each constant of the program can be read. -/
theorem C30_used_constants_readable {s : St V} (h : Reach s) :
    ∀ a ∈ s.prog, ∃ v, s.read a = some v := by
  intro a ha
  cases a with
  | dense v => exact ⟨v, rfl⟩
  | disp id =>
    have hu : ∀ l : List (Attr V), Attr.disp id ∈ l → id ∈ used l := by
      intro l
      induction l with
      | nil => simp
      | cons b l ih =>
        intro hm
        cases b with
        | disp j =>
          simp only [List.mem_cons, Attr.disp.injEq] at hm
          simp only [used, List.mem_cons]
          exact hm.imp (fun h => h) ih
        | dense v => simp at hm; exact ih hm
    exact Option.isSome_iff_exists.1 ((h.inv.live id).1 (h.inv.prog id (hu _ ha)))

/-- Creating a constant succeeds after every history; the attribute reads as the value given, and all
other constants keep theirs. Once the pool is closed the result does not live in the pool and no
memory is held. -/
theorem C30_create {s : St V} (h : Reach s) (v : V) :
    ∃ s' a, s.create v = some (s', a) ∧ s'.read a = some v ∧
      (∀ b ∈ s.prog, s'.read b = s.read b) ∧ s'.prog = s.prog ∧
      (s.active = false → a = .dense v ∧ ∀ i, s'.buf i = none) := by
  obtain ⟨s', a, hc⟩ := create_total h.inv v
  obtain ⟨h1, h2, h3, h4, h5, h6, -, -⟩ := inv_create h.inv hc
  refine ⟨s', a, hc, h4, ?_, h2, ?_⟩
  · intro b hb
    cases b with
    | dense w => rfl
    | disp id =>
      obtain ⟨w, hw⟩ := C30_used_constants_readable h _ hb
      exact h5 id ((h.inv.live id).2 (by simpa [St.read] using Option.isSome_iff_exists.2 ⟨w, hw⟩))
  · intro hf
    refine ⟨?_, ?_⟩
    · unfold St.create at hc
      simp [hf] at hc
      exact hc.2.symm
    · intro i
      have := h1.live i
      rw [h6 hf] at this
      simpa using this

/-- Garbage collection never fails its assertion, leaves every constant of the program as it was, and
afterwards memory is held exactly for the constants the program uses. -/
theorem C30_garbage_collect {s : St V} (h : Reach s) :
    ∃ s', s.gc = some s' ∧ s'.prog = s.prog ∧ (∀ a ∈ s.prog, s'.read a = s.read a) ∧
      ∀ i, (s'.buf i).isSome ↔ Attr.disp i ∈ s.prog := by
  have hu : ∀ (l : List (Attr V)) i, i ∈ used l ↔ Attr.disp i ∈ l := by
    intro l i
    induction l with
    | nil => simp [used]
    | cons b l ih => cases b <;> simp [used, ih]
  refine ⟨_, gc_total h.inv, rfl, ?_, ?_⟩
  · intro a ha
    cases a with
    | dense v => rfl
    | disp id =>
      have := (hu s.prog id).2 ha
      simp [St.read, St.erase, this]
  · intro i
    have hl := h.inv.live i
    have hp := h.inv.prog i
    rw [← hu]
    simp only [St.erase]
    by_cases h1 : i ∈ used s.prog
    · simp only [h1, not_true, and_false, if_false, iff_true]
      exact hl.1 (hp h1)
    · by_cases h2 : i ∈ s.pool
      · simp [h1, h2]
      · simp only [h1, h2, false_and, if_false, iff_false]
        rw [hl] at h2; exact h2

/-- Scrubbing never fails; it replaces every constant of the program by a dense constant with the same
value, releases all memory, and closing the pool then succeeds. -/
theorem C30_scrub_close {s : St V} (h : Reach s) :
    ∃ s', s.scrub = some s' ∧ s'.prog.length = s.prog.length ∧ (∀ i, s'.buf i = none) ∧
      (∀ (k : Nat) a, s.prog[k]? = some a →
        ∃ v, s.read a = some v ∧ s'.prog[k]? = some (.dense v)) ∧
      ∃ s'', s'.close = some s'' ∧ s''.prog = s'.prog ∧ s''.active = false := by
  obtain ⟨s', h1, h2, h3, h4, h5, h6, h7, h8⟩ := scrub_spec h.inv
  refine ⟨s', h1, h6, h4, ?_, { s' with active := false }, ?_, rfl, rfl⟩
  · intro k a hk
    obtain ⟨v, g1, g2⟩ := h8 k a hk
    exact ⟨v, g2, g1⟩
  · simp [St.close, h3]

/-- Closing succeeds only when nothing is held, and from then on nothing is ever held again. -/
theorem C30_closed_holds_nothing {s : St V} (h : Reach s) (hc : s.active = false) :
    (∀ i, s.buf i = none) ∧ ∀ a ∈ s.prog, ∃ v, a = .dense v := by
  have hp := h.inv.closed hc
  refine ⟨fun i => ?_, fun a ha => ?_⟩
  · have := h.inv.live i
    rw [hp] at this
    simpa using this
  · cases a with
    | dense v => exact ⟨v, rfl⟩
    | disp id =>
      obtain ⟨v, hv⟩ := C30_used_constants_readable h _ ha
      have := (h.inv.live id).2 (by simpa [St.read] using Option.isSome_iff_exists.2 ⟨v, hv⟩)
      rw [hp] at this
      simp at this

theorem C30_closed_stays_closed {s s' : St V} (hc : s.active = false) (hs : Step s s') :
    s'.active = false := by
  cases hs with
  | create v h =>
    unfold St.create at h
    simp [hc] at h
    rw [← h.1]
  | edit prog h => exact hc
  | gc h =>
    unfold St.gc at h
    simp only at h
    split at h
    · simp only [Option.some.injEq] at h; rw [← h]; exact hc
    · simp at h
  | scrub h =>
    unfold St.scrub at h
    obtain ⟨p, -, h⟩ := Option.bind_eq_some_iff.1 h
    split at h
    · simp only [Option.some.injEq] at h; rw [← h]; exact hc
    · simp at h
  | close h =>
    unfold St.close at h
    split at h
    · simp only [Option.some.injEq] at h; rw [← h]
    · simp at h

/-- A history: create two constants, use the second, collect. The first is gone, the second reads. -/
example : ∃ s : St Nat, Reach s ∧ s.buf 1 = none ∧ s.read (.disp 2) = some 8 ∧
    s.prog = [.disp 2] ∧ s.active = true := by
  refine ⟨_, .step (.step (.step (.step (.init []) (.create _ 7 rfl)) (.create _ 8 rfl))
    (.edit _ [.disp 2] ?_)) (.gc _ rfl), ?_, ?_, ?_, ?_⟩
  · simp [used, init]
  all_goals rfl

/-! ## Parallel scrubbing -/

/-- At every moment of every interleaving of any number of workers: no worker has read released memory,
and no constant has been translated twice. -/
theorem C31_never_twice (val : Nat → V) (sizes : Nat → Nat) (N T : Nat) (sched : List Nat) :
    (scRun sizes N (scInit val T) sched).bad = false ∧
      ∀ i, (scRun sizes N (scInit val T) sched).cnt i ≤ 1 ∧
        (N ≤ i → (scRun sizes N (scInit val T) sched).cnt i = 0) := by
  have h := inv_scRun (sizes := sizes) (inv_scInit N T val) sched
  refine ⟨h.good, fun i => ?_⟩
  have hle := h.le
  by_cases h1 : (scRun sizes N (scInit val T) sched).next ≤ i
  · have := (h.todo i (Or.inl h1)).2.2
    exact ⟨by omega, fun _ => this⟩
  · by_cases h2 : ∃ t, i ∈ ((scRun sizes N (scInit val T) sched).wk t).pending
    · have := (h.todo i (Or.inr h2)).2.2
      exact ⟨by omega, fun _ => this⟩
    · have := (h.done i (by omega) (fun t ht => h2 ⟨t, ht⟩)).2.1
      exact ⟨by omega, fun _ => by omega⟩

/-- When all workers have returned, every one of the `N` constants has been translated exactly once, to
its value, and its memory has been released. -/
theorem C31_each_once (val : Nat → V) (sizes : Nat → Nat) (N T : Nat) (hT : 0 < T)
    (sched : List Nat) (hfin : ∀ t, t < T → (scRun sizes N (scInit val T) sched).wk t = .fin) :
    ∀ i, i < N → (scRun sizes N (scInit val T) sched).cnt i = 1 ∧
      (scRun sizes N (scInit val T) sched).dense i = some (val i) ∧
      (scRun sizes N (scInit val T) sched).buf i = none := by
  have h := inv_scRun (sizes := sizes) (inv_scInit N T val) sched
  have hall : ∀ t, (scRun sizes N (scInit val T) sched).wk t = .fin := fun t => by
    rcases Nat.lt_or_ge t T with ht | ht
    · exact hfin t ht
    · exact h.out t ht
  intro i hi
  have hn := h.fin ⟨0, hT, hall 0⟩
  obtain ⟨h1, h2, h3⟩ := h.done i (by omega) (fun t => by rw [hall t]; simp [Wk.pending])
  refine ⟨h2, h1, ?_⟩
  rcases h3 with h3 | ⟨t, ht⟩
  · exact h3
  · rw [hall t] at ht; simp [Wk.cur] at ht

/-- No schedule lets the workers go on forever: the steps made by workers that have not returned are at
most `5 N + T`. -/
theorem C31_terminates (val : Nat → V) (sizes : Nat → Nat) (N T : Nat) (sched : List Nat)
    (hlive : ∀ (k : Nat) t, sched[k]? = some t →
      t < T ∧ (scRun sizes N (scInit val T) (sched.take k)).wk t ≠ .fin) :
    sched.length ≤ 5 * N + T := by
  have key : ∀ n, n ≤ sched.length →
      n + Pool.measure N T (scRun sizes N (scInit val T) (sched.take n)) ≤ 5 * N + T := by
    intro n
    induction n with
    | zero =>
      intro _
      have : (List.map (fun t => (if t < T then Wk.fetch else Wk.fin).weight) (List.range T)) =
          (List.range T).map fun _ => 1 := by
        apply List.map_congr_left
        intro t ht
        rw [if_pos (List.mem_range.1 ht)]; rfl
      simp only [List.take_zero, scRun, List.foldl_nil, Pool.measure, scInit, this]
      simp
    | succ n ih =>
      intro hn
      have := ih (by omega)
      have hk : sched[n]? = some sched[n] := List.getElem?_eq_getElem (by omega)
      obtain ⟨h1, h2⟩ := hlive n _ hk
      have hle := (inv_scRun (sizes := sizes) (inv_scInit N T val) (sched.take n)).le
      have hlt := measure_lt (sizes := sizes) (N := N) (T := T) hle h1 h2
      have hs : scRun sizes N (scInit val T) (sched.take (n + 1)) =
          scStep sizes N (scRun sizes N (scInit val T) (sched.take n)) sched[n] := by
        rw [List.take_add_one, hk]
        unfold scRun
        rw [Option.toList_some, List.foldl_append]
        rfl
      rw [hs]; omega
  have := key _ (Nat.le_refl _)
  omega

/-- Two workers, three constants too large to share a batch, interleaved: both workers return. -/
example : ∃ s, s = scRun (fun _ => 1000) 3 (scInit (fun i => i + 5) 2)
        [0, 1, 0, 1, 1, 0, 1, 0, 1, 1, 1, 1, 1, 0] ∧
    (∀ t, t < 2 → s.wk t = .fin) ∧ s.dense 2 = some 7 := by
  refine ⟨_, rfl, fun t ht => ?_, by decide⟩
  match t, ht with
  | 0, _ => rfl
  | 1, _ => rfl

end Verif.Props
