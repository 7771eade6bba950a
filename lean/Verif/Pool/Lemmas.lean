import Verif.Pool.Model

namespace Verif.Pool

variable {V : Type}

/-- The invariant: the pool holds exactly the constants with a buffer, numbers do not exceed the
counter, and the program uses only constants in the pool. -/
structure Inv (s : St V) : Prop where
  nodup : s.pool.Nodup
  bound : ∀ i ∈ s.pool, i ≤ s.counter
  live : ∀ i, i ∈ s.pool ↔ (s.buf i).isSome
  prog : ∀ i ∈ used s.prog, i ∈ s.pool
  closed : s.active = false → s.pool = []

theorem used_map_dense (l : List V) : used (l.map Attr.dense) = [] := by
  induction l with
  | nil => rfl
  | cons v l ih => simpa [used] using ih

theorem inv_init (prog : List V) : Inv (init prog) :=
  { nodup := by simp [init]
    bound := by simp [init]
    live := by simp [init]
    prog := by simp [init, used_map_dense]
    closed := by simp [init] }

theorem create_total {s : St V} (h : Inv s) (v : V) : ∃ s' a, s.create v = some (s', a) := by
  unfold St.create
  simp only
  split
  · rw [if_neg fun hm => by have := h.bound _ hm; omega]
    exact ⟨_, _, rfl⟩
  · exact ⟨_, _, rfl⟩

theorem inv_create {s s' : St V} {a : Attr V} (h : Inv s) {v : V} (hc : s.create v = some (s', a)) :
    Inv s' ∧ s'.prog = s.prog ∧ s'.active = s.active ∧ s'.read a = some v ∧
      (∀ i ∈ s.pool, s'.buf i = s.buf i) ∧ (s.active = false → s'.pool = []) ∧
      (s.active = true → ∃ id, a = .disp id ∧ id ∈ s'.pool) ∧ (∀ i ∈ s.pool, i ∈ s'.pool) := by
  unfold St.create at hc
  simp only at hc
  split at hc
  · rename_i hact
    split at hc
    · simp at hc
    · rename_i hni
      simp only [Option.some.injEq, Prod.mk.injEq] at hc
      obtain ⟨rfl, rfl⟩ := hc
      refine ⟨⟨?_, ?_, ?_, ?_, ?_⟩, rfl, rfl, ?_, ?_, ?_, ?_, ?_⟩
      · simp only [List.nodup_cons]; exact ⟨hni, h.nodup⟩
      · intro i hi
        rcases List.mem_cons.1 hi with rfl | hi
        · exact Nat.le_refl _
        · have := h.bound i hi; simp only; omega
      · intro i
        simp only [List.mem_cons]
        by_cases hi : i = s.counter + 1
        · simp [hi]
        · simp [hi, h.live i]
      · intro i hi
        exact List.mem_cons_of_mem _ (h.prog i hi)
      · intro hf; simp [hact] at hf
      · simp [St.read]
      · intro i hi
        have : i ≠ s.counter + 1 := fun hh => by rw [hh] at hi; exact hni hi
        simp [this]
      · intro hf; simp [hact] at hf
      · intro _; exact ⟨_, rfl, by simp⟩
      · intro i hi; simp [hi]
  · rename_i hact
    simp only [Option.some.injEq, Prod.mk.injEq] at hc
    obtain ⟨rfl, rfl⟩ := hc
    have hp : s.pool = [] := h.closed (by simpa using hact)
    refine ⟨⟨h.nodup, ?_, ?_, h.prog, h.closed⟩, rfl, rfl, rfl, ?_, fun _ => hp, ?_, ?_⟩
    · rw [hp]; simp
    · intro i
      have := h.live i
      rw [hp] at this ⊢
      simp only [List.not_mem_nil, false_iff] at this ⊢
      split
      · simp
      · exact this
    · rw [hp]; simp
    · intro ht; exact absurd ht hact
    · rw [hp]; simp

theorem inv_erase {s : St V} (h : Inv s) {reach : List Nat} (hr : ∀ i ∈ used s.prog, i ∈ reach) :
    Inv (s.erase reach) where
  nodup := h.nodup.filter _
  bound := fun i hi => h.bound i (List.mem_filter.1 hi).1
  live := by
    intro i
    simp only [St.erase, List.mem_filter, decide_eq_true_eq]
    have := h.live i
    by_cases h1 : i ∈ s.pool <;> by_cases h2 : i ∈ reach <;> simp [h1, h2]
    · exact this.1 h1
    · simpa [h1] using this
    · simpa [h1] using this
  prog := by
    intro i hi
    simp only [St.erase, List.mem_filter, decide_eq_true_eq]
    exact ⟨h.prog i hi, hr i hi⟩
  closed := by
    intro hc
    simp [St.erase, h.closed hc]

theorem gc_total {s : St V} (h : Inv s) : s.gc = some (s.erase (used s.prog)) := by
  unfold St.gc
  simp only
  rw [if_pos h.prog]

theorem translate_spec {buf : Nat → Option V} (prog : List (Attr V))
    (h : ∀ i ∈ used prog, (buf i).isSome) :
    ∃ prog', translate buf prog = some prog' ∧ used prog' = [] ∧ prog'.length = prog.length ∧
      ∀ (k : Nat) a, prog[k]? = some a → ∃ v, prog'[k]? = some (.dense v) ∧
        (match a with | .disp id => buf id | .dense v => some v) = some v := by
  induction prog with
  | nil => exact ⟨[], rfl, rfl, rfl, by simp⟩
  | cons a prog ih =>
    cases a with
    | dense v =>
      obtain ⟨p, h1, h2, h3, h4⟩ := ih (fun i hi => h i hi)
      refine ⟨.dense v :: p, by simp [translate, h1], by simpa [used] using h2, by simp [h3], ?_⟩
      intro k a hk
      cases k with
      | zero => simp at hk; subst hk; exact ⟨v, rfl, rfl⟩
      | succ k => simpa using h4 k a (by simpa using hk)
    | disp id =>
      obtain ⟨p, h1, h2, h3, h4⟩ := ih (fun i hi => h i (by simp [used, hi]))
      have := h id (by simp [used])
      obtain ⟨v, hv⟩ := Option.isSome_iff_exists.1 this
      refine ⟨.dense v :: p, by simp [translate, h1, hv], by simpa [used] using h2, by simp [h3], ?_⟩
      intro k a hk
      cases k with
      | zero => simp at hk; subst hk; exact ⟨v, rfl, hv⟩
      | succ k => simpa using h4 k a (by simpa using hk)

theorem scrub_spec {s : St V} (h : Inv s) :
    ∃ s', s.scrub = some s' ∧ Inv s' ∧ s'.pool = [] ∧ (∀ i, s'.buf i = none) ∧
      used s'.prog = [] ∧ s'.prog.length = s.prog.length ∧ s'.active = s.active ∧
      ∀ (k : Nat) a, s.prog[k]? = some a → ∃ v, s'.prog[k]? = some (.dense v) ∧ s.read a = some v := by
  obtain ⟨p, h1, h2, h3, h4⟩ := translate_spec s.prog
    (buf := s.buf) (fun i hi => (h.live i).1 (h.prog i hi))
  unfold St.scrub
  rw [h1, Option.bind_some, if_pos h.prog]
  have hbuf : ∀ i, (St.erase { s with
      prog := p, buf := fun i => if i ∈ used s.prog then none else s.buf i } []).buf i = none := by
    intro i
    simp only [St.erase, List.not_mem_nil, not_false_eq_true, and_true]
    split
    · rfl
    · rename_i hni
      split
      · rfl
      · have := h.live i
        simp only [hni, false_iff] at this
        simpa using this
  refine ⟨_, rfl, ⟨?_, ?_, ?_, ?_, ?_⟩, by simp [St.erase], hbuf, h2, h3, rfl, ?_⟩
  · simp [St.erase]
  · simp [St.erase]
  · intro i
    rw [hbuf]; simp [St.erase]
  · intro i hi
    have : i ∈ used p := hi
    rw [h2] at this; simp at this
  · intro _; simp [St.erase]
  · intro k a hk
    obtain ⟨v, g1, g2⟩ := h4 k a hk
    refine ⟨v, g1, ?_⟩
    cases a <;> exact g2

theorem inv_step {s s' : St V} (h : Inv s) (hs : Step s s') : Inv s' := by
  cases hs with
  | create v hc => exact (inv_create h hc).1
  | edit prog hp => exact ⟨h.nodup, h.bound, h.live, hp, h.closed⟩
  | gc hg =>
    rw [gc_total h] at hg
    simp only [Option.some.injEq] at hg
    subst hg
    exact inv_erase h fun i hi => hi
  | scrub hsc =>
    obtain ⟨s'', h1, h2, -⟩ := scrub_spec h
    rw [h1] at hsc
    simp only [Option.some.injEq] at hsc
    exact hsc ▸ h2
  | close hc =>
    unfold St.close at hc
    split at hc
    · rename_i hp
      simp only [Option.some.injEq] at hc
      subst hc
      exact ⟨h.nodup, h.bound, h.live, h.prog, fun _ => hp⟩
    · simp at hc

theorem Reach.inv {s : St V} (h : Reach s) : Inv s := by
  induction h with
  | init prog => exact inv_init prog
  | step _ hs ih => exact inv_step ih hs

end Verif.Pool
