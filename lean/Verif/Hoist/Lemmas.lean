import Verif.Hoist.Spec

namespace Verif.Hoist

variable {O S R V I : Type}

/-- Buffers of the program before and after: those that are not moved are the same, those that are moved exist after, and
have what they have before where they exist before. -/
structure MemRel (H : List (ℕ × (O → ℕ))) (o : O) (m m' : Bufs V) : Prop where
  same : ∀ b, b ∉ H.map Prod.fst → m' b = m b
  moved : ∀ p ∈ H, ∃ c', m' p.1 = some (p.2 o, c') ∧ ∀ n c, m p.1 = some (n, c) → n = p.2 o ∧ ∀ a v, c a = some v → c' a = some v

theorem MemRel.read {H : List (ℕ × (O → ℕ))} {o : O} {m m' : Bufs V} (h : MemRel H o m m') {b a : ℕ} {v : V}
    (hr : read m b a = some v) : Hoist.read m' b a = some v := by
  by_cases hb : b ∈ H.map Prod.fst
  · obtain ⟨p, hp, rfl⟩ := List.mem_map.1 hb
    obtain ⟨c', h', hc⟩ := h.moved p hp
    unfold Hoist.read at hr ⊢
    rcases hm : m p.1 with _ | ⟨n, c⟩
    · simp [hm] at hr
    · obtain ⟨rfl, hc⟩ := hc n c hm
      simp only [hm] at hr
      simp only [h']
      by_cases ha : a < p.2 o
      · simp only [ha, if_true] at hr ⊢
        exact hc _ _ hr
      · simp [ha] at hr
  · unfold Hoist.read at hr ⊢
    rw [h.same b hb]; exact hr

theorem MemRel.write {H : List (ℕ × (O → ℕ))} {o : O} {m m' m2 : Bufs V} (h : MemRel H o m m') {b a : ℕ} {v : V}
    (hr : write m b a v = some m2) : ∃ m2', Hoist.write m' b a v = some m2' ∧ MemRel H o m2 m2' := by
  unfold Hoist.write at hr ⊢
  rcases hm : m b with _ | ⟨n, c⟩
  · simp [hm] at hr
  simp only [hm] at hr
  by_cases ha : a < n
  swap
  · simp [ha] at hr
  simp only [ha, if_true, Option.some.injEq] at hr
  subst hr
  by_cases hb : b ∈ H.map Prod.fst
  · obtain ⟨p, hp, rfl⟩ := List.mem_map.1 hb
    obtain ⟨c', h', hc⟩ := h.moved p hp
    obtain ⟨rfl, hc⟩ := hc n c hm
    simp only [h', ha, if_true]
    refine ⟨_, rfl, ?_, ?_⟩
    · intro b' hb'
      have : b' ≠ p.1 := fun e => hb' (e ▸ hb)
      simp [Function.update_of_ne this, h.same b' hb']
    · intro q hq
      by_cases e : q.1 = p.1
      · obtain ⟨d', hd', hd⟩ := h.moved q hq
        rw [e, h'] at hd'
        simp only [Option.some.injEq, Prod.mk.injEq] at hd'
        obtain ⟨e2, rfl⟩ := hd'
        refine ⟨Function.update c' a (some v), by simp [e, e2], ?_⟩
        intro n2 c2 h2
        simp only [e, Function.update_self, Option.some.injEq, Prod.mk.injEq] at h2
        obtain ⟨rfl, rfl⟩ := h2
        refine ⟨e2, fun x w hw => ?_⟩
        by_cases hx : x = a
        · subst hx; simpa using hw
        · simp only [Function.update_of_ne hx] at hw ⊢
          exact hc _ _ hw
      · simp only [Function.update_of_ne e]
        exact h.moved q hq
  · rw [h.same b hb, hm]
    simp only [ha, if_true]
    refine ⟨_, rfl, ?_, ?_⟩
    · intro b' hb'
      by_cases e : b' = b
      · subst e; simp
      · simp [Function.update_of_ne e, h.same b' hb']
    · intro q hq
      have e : q.1 ≠ b := fun e => hb (e ▸ List.mem_map_of_mem hq)
      simp only [Function.update_of_ne e]
      exact h.moved q hq

/-- The same change of a buffer that is not moved. -/
theorem MemRel.update {H : List (ℕ × (O → ℕ))} {o : O} {m m' : Bufs V} (h : MemRel H o m m') {b : ℕ}
    (hb : b ∉ H.map Prod.fst) (x : Option (ℕ × (ℕ → Option V))) :
    MemRel H o (Function.update m b x) (Function.update m' b x) := by
  refine ⟨?_, ?_⟩
  · intro b' hb'
    by_cases e : b' = b
    · subst e; simp
    · simp [Function.update_of_ne e, h.same b' hb']
  · intro q hq
    have e : q.1 ≠ b := fun e => hb (e ▸ List.mem_map_of_mem hq)
    simp only [Function.update_of_ne e]
    exact h.moved q hq

/-- An allocation or a release, before the move only. -/
theorem MemRel.left {H : List (ℕ × (O → ℕ))} {o : O} {m m' : Bufs V} (h : MemRel H o m m') {b : ℕ}
    (hb : b ∈ H.map Prod.fst) (x : Option (ℕ × (ℕ → Option V)))
    (hx : ∀ n c, x = some (n, c) → (∀ a, c a = none) ∧ ∀ p ∈ H, p.1 = b → n = p.2 o) :
    MemRel H o (Function.update m b x) m' := by
  refine ⟨?_, ?_⟩
  · intro b' hb'
    have e : b' ≠ b := fun e => hb' (e ▸ hb)
    simp [Function.update_of_ne e, h.same b' hb']
  · intro q hq
    obtain ⟨c', h', hc⟩ := h.moved q hq
    refine ⟨c', h', ?_⟩
    by_cases e : q.1 = b
    · intro n c h2
      rw [e, Function.update_self] at h2
      obtain ⟨h3, h4⟩ := hx n c h2
      exact ⟨h4 q hq e, fun a v hv => by rw [h3 a] at hv; cases hv⟩
    · simp only [Function.update_of_ne e]
      exact hc

/-- A step that is not the allocation or release of a moved buffer. -/
theorem exec_sim {H : List (ℕ × (O → ℕ))} {o : O} {s s2 : S} {r r2 : R} {m m' m2 : Bufs V} {c : Code O S R V}
    {cs : List (Code O S R V)} (h : MemRel H o m m') (he : exec o s r m c = some (s2, r2, m2, cs))
    (ha : ∀ b z rest, c = .alloc b z rest → b ∉ H.map Prod.fst) (hd : ∀ b rest, c = .dealloc b rest → b ∉ H.map Prod.fst) :
    ∃ m2', exec o s r m' (strip (H.map Prod.fst) c) = some (s2, r2, m2', cs.map (strip (H.map Prod.fst))) ∧
      MemRel H o m2 m2' := by
  cases c with
  | nil => simp only [exec, Option.some.injEq, Prod.mk.injEq] at he; obtain ⟨rfl, rfl, rfl, rfl⟩ := he; exact ⟨m', by simp [exec, strip], h⟩
  | act f rest => simp only [exec, Option.some.injEq, Prod.mk.injEq] at he; obtain ⟨rfl, rfl, rfl, rfl⟩ := he; exact ⟨m', by simp [exec, strip], h⟩
  | cond q t e rest =>
    simp only [exec, Option.some.injEq, Prod.mk.injEq] at he; obtain ⟨rfl, rfl, rfl, rfl⟩ := he
    refine ⟨m', ?_, h⟩
    simp only [exec, strip, List.map_cons, List.map_nil]
    split_ifs <;> rfl
  | loop n body rest => simp only [exec, Option.some.injEq, Prod.mk.injEq] at he; obtain ⟨rfl, rfl, rfl, rfl⟩ := he; exact ⟨m', by simp [exec, strip], h⟩
  | get b a f rest =>
    simp only [exec, Option.map_eq_some_iff, Prod.mk.injEq] at he
    obtain ⟨v, hv, rfl, rfl, rfl, rfl⟩ := he
    exact ⟨m', by simp [exec, strip, h.read hv], h⟩
  | put b a v rest =>
    simp only [exec, Option.map_eq_some_iff, Prod.mk.injEq] at he
    obtain ⟨m3, hv, rfl, rfl, rfl, rfl⟩ := he
    obtain ⟨m2', h1, h2⟩ := h.write hv
    exact ⟨m2', by simp [exec, strip, h1], h2⟩
  | alloc b z rest =>
    simp only [exec, Option.some.injEq, Prod.mk.injEq] at he; obtain ⟨rfl, rfl, rfl, rfl⟩ := he
    have hb := ha b z rest rfl
    exact ⟨_, by simp only [exec, strip, hb, if_false]; simp, h.update hb _⟩
  | dealloc b rest =>
    simp only [exec, Option.map_eq_some_iff, Prod.mk.injEq] at he
    obtain ⟨m3, hv, rfl, rfl, rfl, rfl⟩ := he
    have hb := hd b rest rfl
    unfold free at hv
    rcases hm : m b with _ | y
    · simp [hm] at hv
    simp only [hm, Option.some.injEq] at hv
    subst hv
    exact ⟨_, by simp only [exec, strip, hb, if_false, free, h.same b hb, hm]; simp, h.update hb _⟩

/-! ### Threads -/

/-- Several steps of one thread. -/
def steps (g : Region O S R V) (init : I → R) (o : O) : ℕ → S → Thread O S R V I → Option (S × Thread O S R V I)
  | 0, s, t => some (s, t)
  | n + 1, s, t =>
    match step g init o s t with
    | none => none
    | some y => steps g init o n y.1 y.2

theorem steps_add (g : Region O S R V) (init : I → R) (o : O) : ∀ (n k : ℕ) (s : S) (t : Thread O S R V I) (y : S × Thread O S R V I),
    steps g init o n s t = some y → steps g init o (n + k) s t = steps g init o k y.1 y.2
  | 0, k, s, t, y, h => by simp only [steps, Option.some.injEq] at h; subst h; simp
  | n + 1, k, s, t, y, h => by
    rw [Nat.add_right_comm]
    simp only [steps] at h ⊢
    cases hs : step g init o s t with
    | none => simp [hs] at h
    | some z => simp only [hs] at h ⊢; exact steps_add g init o n k z.1 z.2 y h

/-- All allocations of moved buffers in the code have the size that the pass found. -/
def SizesOK (H : List (ℕ × (O → ℕ))) (c : Code O S R V) : Prop :=
  ∀ b z, (b, z) ∈ allocs c → ∀ p ∈ H, p.1 = b → z = .outer p.2

theorem SizesOK.exec {H : List (ℕ × (O → ℕ))} {o : O} {s s2 : S} {r r2 : R} {m m2 : Bufs V} {c : Code O S R V}
    {cs : List (Code O S R V)} (h : SizesOK H c) (he : exec o s r m c = some (s2, r2, m2, cs)) : ∀ d ∈ cs, SizesOK H d := by
  intro d hd b z hz
  apply h b z
  cases c <;> simp only [Hoist.exec, Option.some.injEq, Option.map_eq_some_iff, Prod.mk.injEq] at he
  case nil => obtain ⟨_, _, _, rfl⟩ := he; simp at hd
  case act => obtain ⟨_, _, _, rfl⟩ := he; simp at hd; subst hd; simpa [allocs] using hz
  case get => obtain ⟨_, _, _, _, _, rfl⟩ := he; simp at hd; subst hd; simpa [allocs] using hz
  case put => obtain ⟨_, _, _, _, _, rfl⟩ := he; simp at hd; subst hd; simpa [allocs] using hz
  case alloc => obtain ⟨_, _, _, rfl⟩ := he; simp at hd; subst hd; exact List.mem_cons_of_mem _ hz
  case dealloc => obtain ⟨_, _, _, _, _, rfl⟩ := he; simp at hd; subst hd; simpa [allocs] using hz
  case cond q t e rest =>
    obtain ⟨_, _, _, rfl⟩ := he
    simp only [allocs, List.mem_append]
    simp only [List.mem_cons, List.not_mem_nil, or_false] at hd
    rcases hd with rfl | rfl
    · split_ifs at hz <;> tauto
    · tauto
  case loop n body rest =>
    obtain ⟨_, _, _, rfl⟩ := he
    simp only [allocs, List.mem_append]
    rw [List.mem_append] at hd
    rcases hd with hd | hd
    · exact .inl ((List.mem_replicate.1 hd).2 ▸ hz)
    · simp at hd; subst hd; exact .inr hz

/-- A thread before and after the move, in the loop. -/
structure InLoop (H : List (ℕ × (O → ℕ))) (o : O) (t t' : Thread O S R V I) : Prop where
  its : t'.its = t.its
  stack : t'.stack = t.stack.map (strip (H.map Prod.fst))
  l : t.leaving = false
  l' : t'.leaving = false
  regs : t'.regs = t.regs
  mem : MemRel H o t.bufs t'.bufs
  ok : ∀ c ∈ t.stack, SizesOK H c

/-- A thread before and after the move: at the allocations that have been moved, in the loop, at the releases. -/
inductive Rel (H : List (ℕ × (O → ℕ))) (o : O) (t t' : Thread O S R V I) : Prop
  | front (l : List (ℕ × (O → ℕ))) (hl : ∀ p ∈ H, p ∈ l ∨ ∃ c', t'.bufs p.1 = some (p.2 o, c'))
      (sub : ∀ p ∈ l, p ∈ H) (st : t.stack = [.nil]) (st' : t'.stack = [before l]) (its : t'.its = t.its)
      (h1 : t.leaving = false) (h2 : t'.leaving = false) (regs : t'.regs = t.regs)
      (no : ∀ b, t.bufs b = none) (no' : ∀ b, b ∉ H.map Prod.fst → t'.bufs b = none)
  | loop (h : InLoop H o t t')
  | back (l : List ℕ) (nd : l.Nodup) (sub : ∀ b ∈ l, b ∈ H.map Prod.fst) (al : ∀ b ∈ l, t'.bufs b ≠ none)
      (gone : ∀ b ∈ H.map Prod.fst, b ∉ l → t'.bufs b = none)
      (st : t.stack = [.nil]) (st' : t'.stack = [behind l]) (its : t'.its = []) (its0 : t.its = []) (h1 : t.leaving = true)
      (h2 : t'.leaving = true) (regs : t'.regs = t.regs) (same : ∀ b, b ∉ H.map Prod.fst → t'.bufs b = t.bufs b)
  | done (f : t.finished) (f' : t'.finished) (regs : t'.regs = t.regs) (gone : ∀ b ∈ H.map Prod.fst, t'.bufs b = none)
      (same : ∀ b, b ∉ H.map Prod.fst → t'.bufs b = t.bufs b)

variable {g g' : Region O S R V} {init : I → R}

/-- A step in the loop: the program before the move does some allocations and releases, then the same. -/
theorem loop_sim {H : List (ℕ × (O → ℕ))} {o : O} :
    ∀ (c : Code O S R V) (k : List (Code O S R V)) (s : S) (t t' : Thread O S R V I), InLoop H o t t' → t.stack = c :: k →
      (∀ n, steps g init o n s t ≠ none) →
      ∃ n s2 t2 t2', steps g init o n s t = some (s2, t2) ∧ step g' init o s t' = some (s2, t2') ∧ InLoop H o t2 t2' := by
  have main : ∀ (c : Code O S R V) (k : List (Code O S R V)) (s : S) (t t' : Thread O S R V I), InLoop H o t t' →
      t.stack = c :: k → (∀ n, steps g init o n s t ≠ none) →
      (∀ b z rest, c = .alloc b z rest → b ∉ H.map Prod.fst) → (∀ b rest, c = .dealloc b rest → b ∉ H.map Prod.fst) →
      ∃ n s2 t2 t2', steps g init o n s t = some (s2, t2) ∧ step g' init o s t' = some (s2, t2') ∧ InLoop H o t2 t2' := by
    intro c k s t t' h hk hs ha hd
    rcases he : exec o s t.regs t.bufs c with _ | ⟨s2, r2, m2, cs⟩
    · exact absurd (by simp [steps, step, hk, he]) (hs 1)
    · obtain ⟨m2', h1, h2⟩ := exec_sim h.mem he ha hd
      refine ⟨1, s2, ⟨t.its, cs ++ k, t.leaving, r2, m2⟩, ⟨t.its, cs.map (strip (H.map Prod.fst)) ++ k.map (strip (H.map Prod.fst)), false, r2, m2'⟩, ?_, ?_, ?_⟩
      · simp [steps, step, hk, he]
      · simp [step, h.stack, hk, h.regs, h1, h.its, h.l']
      · refine ⟨rfl, by simp, h.l, rfl, rfl, h2, ?_⟩
        intro d hd
        rcases List.mem_append.1 hd with hd | hd
        · exact (h.ok c (by simp [hk])).exec he d hd
        · exact h.ok d (by simp [hk, hd])
  have skip : ∀ (c rest : Code O S R V) (k : List (Code O S R V)) (s : S) (t t' : Thread O S R V I) (m2 : Bufs V), InLoop H o t t' →
      t.stack = c :: k → (∀ n, steps g init o n s t ≠ none) → exec o s t.regs t.bufs c = some (s, t.regs, m2, [rest]) →
      strip (H.map Prod.fst) c = strip (H.map Prod.fst) rest → MemRel H o m2 t'.bufs →
      (∀ (k : List (Code O S R V)) (s : S) (t t' : Thread O S R V I), InLoop H o t t' → t.stack = rest :: k → (∀ n, steps g init o n s t ≠ none) →
        ∃ n s2 t2 t2', steps g init o n s t = some (s2, t2) ∧ step g' init o s t' = some (s2, t2') ∧ InLoop H o t2 t2') →
      ∃ n s2 t2 t2', steps g init o n s t = some (s2, t2) ∧ step g' init o s t' = some (s2, t2') ∧ InLoop H o t2 t2' := by
    intro c rest k s t t' m2 h hk hs he hst hm ih
    have h1 : ∀ n, steps g init o (n + 1) s t = steps g init o n s ⟨t.its, rest :: k, t.leaving, t.regs, m2⟩ := by
      intro n; simp [steps, step, hk, he]
    obtain ⟨n, s2, t2, t2', e1, e2, e3⟩ := ih k s ⟨t.its, rest :: k, t.leaving, t.regs, m2⟩ t'
      ⟨h.its, by rw [h.stack, hk]; simp [hst], h.l, h.l', h.regs, hm, by
        intro d hd
        rcases List.mem_cons.1 hd with rfl | hd
        · exact (h.ok c (by simp [hk])).exec he d (by simp)
        · exact h.ok d (by simp [hk, hd])⟩ rfl (fun n => by rw [← h1]; exact hs _)
    exact ⟨n + 1, s2, t2, t2', by rw [h1]; exact e1, e2, e3⟩
  intro c
  induction c with
  | nil => intro k s t t' h hk hs; exact main _ k s t t' h hk hs (by simp) (by simp)
  | act f rest _ => intro k s t t' h hk hs; exact main _ k s t t' h hk hs (by simp) (by simp)
  | get b a f rest _ => intro k s t t' h hk hs; exact main _ k s t t' h hk hs (by simp) (by simp)
  | put b a v rest _ => intro k s t t' h hk hs; exact main _ k s t t' h hk hs (by simp) (by simp)
  | cond q u e rest _ _ _ => intro k s t t' h hk hs; exact main _ k s t t' h hk hs (by simp) (by simp)
  | loop n body rest _ _ => intro k s t t' h hk hs; exact main _ k s t t' h hk hs (by simp) (by simp)
  | alloc b z rest ih =>
    intro k s t t' h hk hs
    by_cases hb : b ∈ H.map Prod.fst
    · refine skip _ rest k s t t' _ h hk hs rfl (by simp only [strip, hb, if_true]) (h.mem.left hb _ ?_) ih
      intro n c hnc
      simp only [Option.some.injEq, Prod.mk.injEq] at hnc
      obtain ⟨rfl, rfl⟩ := hnc
      refine ⟨fun _ => rfl, fun p hp e => ?_⟩
      rw [h.ok _ (by rw [hk]; exact List.mem_cons_self) b z (by simp [allocs]) p hp e]
      rfl
    · exact main _ k s t t' h hk hs (by rintro _ _ _ e; cases e; exact hb) (by simp)
  | dealloc b rest ih =>
    intro k s t t' h hk hs
    by_cases hb : b ∈ H.map Prod.fst
    · rcases he : free t.bufs b with _ | m2
      · exact absurd (by simp [steps, step, hk, exec, he]) (hs 1)
      · refine skip _ rest k s t t' m2 h hk hs (by simp [exec, he]) (by simp only [strip, hb, if_true]) ?_ ih
        unfold free at he
        rcases hm : t.bufs b with _ | y
        · simp [hm] at he
        · simp only [hm, Option.some.injEq] at he
          subst he
          exact h.mem.left hb _ (by simp)
    · exact main _ k s t t' h hk hs (by simp) (by rintro _ _ e; cases e; exact hb)

/-- One step of a thread after the move. -/
theorem thread_sim {H : List (ℕ × (O → ℕ))} {o : O} {body : Code O S R V} {L : List ℕ}
    (hf : ∀ p ∈ H, ∀ q ∈ H, p.1 = q.1 → p.2 = q.2) (hL : L.Nodup) (hLm : ∀ b, b ∈ L ↔ b ∈ H.map Prod.fst)
    (hb : SizesOK H body) (hg : g.body = body) (hg' : g'.body = strip (H.map Prod.fst) body) (hp : g.post = .nil)
    (hp' : g'.post = behind L) (s : S) (t t' : Thread O S R V I) (h : Rel H o t t') (hs : ∀ n, steps g init o n s t ≠ none) :
    ∃ n s2 t2 t2', steps g init o n s t = some (s2, t2) ∧ step g' init o s t' = some (s2, t2') ∧ Rel H o t2 t2' := by
  cases h with
  | front l hl sub st st' its h1 h2 regs no no' =>
    cases l with
    | nil =>
      refine ⟨1, s, ⟨t.its, [], t.leaving, t.regs, t.bufs⟩, ⟨t'.its, [], t'.leaving, t'.regs, t'.bufs⟩, ?_, ?_, .loop ?_⟩
      · simp [steps, step, st, exec]
      · simp [step, st', before, exec]
      · refine ⟨its, rfl, h1, h2, regs, ⟨fun b hb => by simp [no, no' b hb], ?_⟩, by simp⟩
        intro p hp
        obtain ⟨c', hc⟩ := (hl p hp).resolve_left (by simp)
        exact ⟨c', hc, fun n c h => by simp [no] at h⟩
    | cons q l =>
      refine ⟨0, s, t, ⟨t'.its, [before l], t'.leaving, t'.regs, Function.update t'.bufs q.1 (some (q.2 o, fun _ => none))⟩,
        rfl, ?_, .front l ?_ (fun p hp => sub p (by simp [hp])) st rfl its h1 h2 regs no ?_⟩
      · simp [step, st', before, exec, Size.eval]
      · intro p hp
        by_cases e : p.1 = q.1
        · exact .inr ⟨fun _ => none, by simp [e, hf p hp q (sub q (by simp)) e]⟩
        · rcases hl p hp with h | h
          · rcases List.mem_cons.1 h with rfl | h
            · exact absurd rfl e
            · exact .inl h
          · exact .inr (by simpa [Function.update_of_ne e] using h)
      · intro b hb
        have e : b ≠ q.1 := fun e => hb (e ▸ List.mem_map_of_mem (sub q (by simp)))
        simp [Function.update_of_ne e, no' b hb]
  | loop h =>
    rcases hk : t.stack with _ | ⟨c, k⟩
    · have hk' : t'.stack = [] := by simp [h.stack, hk]
      rcases hi : t.its with _ | ⟨i, is⟩
      · have hi' : t'.its = [] := by rw [h.its, hi]
        refine ⟨1, s, ⟨[], [.nil], true, t.regs, t.bufs⟩, ⟨[], [behind L], true, t'.regs, t'.bufs⟩, ?_, ?_,
          .back L hL (fun b => (hLm b).1) ?_ ?_ rfl rfl rfl rfl rfl rfl h.regs h.mem.same⟩
        · simp [steps, step, hk, hi, h.l, hp]
        · simp [step, hk', hi', h.l', hp']
        · intro b hb
          obtain ⟨p, hp, rfl⟩ := List.mem_map.1 ((hLm b).1 hb)
          obtain ⟨c', hc, _⟩ := h.mem.moved p hp
          simp [hc]
        · intro b hb hn
          exact absurd ((hLm b).2 hb) hn
      · have hi' : t'.its = i :: is := by rw [h.its, hi]
        refine ⟨1, s, ⟨is, [body], t.leaving, init i, t.bufs⟩, ⟨is, [strip (H.map Prod.fst) body], t'.leaving, init i, t'.bufs⟩,
          ?_, ?_, .loop ⟨rfl, rfl, h.l, h.l', rfl, h.mem, by simpa using hb⟩⟩
        · simp [steps, step, hk, hi, hg]
        · simp [step, hk', hi', hg']
    · obtain ⟨n, s2, t2, t2', e1, e2, e3⟩ := loop_sim (g' := g') c k s t t' h hk hs
      exact ⟨n, s2, t2, t2', e1, e2, .loop e3⟩
  | back l nd sub al gone st st' its its0 h1 h2 regs same =>
    cases l with
    | nil =>
      refine ⟨1, s, ⟨t.its, [], t.leaving, t.regs, t.bufs⟩, ⟨t'.its, [], t'.leaving, t'.regs, t'.bufs⟩, ?_, ?_,
        .done ⟨its0, rfl, h1⟩ ⟨its, rfl, h2⟩ regs (fun b hb => gone b hb (by simp)) same⟩
      · simp [steps, step, st, exec]
      · simp [step, st', behind, exec]
    | cons b l =>
      rcases hm : t'.bufs b with _ | y
      · exact absurd hm (al b (by simp))
      refine ⟨0, s, t, ⟨t'.its, [behind l], t'.leaving, t'.regs, Function.update t'.bufs b none⟩, rfl, ?_,
        .back l (List.nodup_cons.1 nd).2 (fun c hc => sub c (by simp [hc])) ?_ ?_ st rfl its its0 h1 h2 regs ?_⟩
      · simp [step, st', behind, exec, free, hm]
      · intro c hc
        have e : c ≠ b := fun e => (List.nodup_cons.1 nd).1 (e ▸ hc)
        simpa [Function.update_of_ne e] using al c (by simp [hc])
      · intro c hc hn
        by_cases e : c = b
        · simp [e]
        · simpa [Function.update_of_ne e] using gone c hc (by simp [e, hn])
      · intro c hc
        have e : c ≠ b := fun e => hc (e ▸ sub b (by simp))
        simpa [Function.update_of_ne e] using same c hc
  | done f f' regs gone same =>
    refine ⟨0, s, t, t', rfl, ?_, .done f f' regs gone same⟩
    obtain ⟨h1, h2, h3⟩ := f'
    simp [step, h1, h2, h3]

/-! ### All threads -/

theorem run_append (g : Region O S R V) (init : I → R) (o : ℕ → O) : ∀ (js ks : List ℕ) (x y : Sys O S R V I),
    run g init o js x = some y → run g init o (js ++ ks) x = run g init o ks y
  | [], ks, x, y, h => by simp only [run, Option.some.injEq] at h; subst h; rfl
  | j :: js, ks, x, y, h => by
    simp only [List.cons_append, run] at h ⊢
    cases hs : sysStep g init o x j with
    | none => simp [hs] at h
    | some z => simp only [hs] at h ⊢; exact run_append g init o js ks z y h

theorem run_steps (g : Region O S R V) (init : I → R) (o : ℕ → O) (j : ℕ) : ∀ (n : ℕ) (x : Sys O S R V I),
    run g init o (List.replicate n j) x =
      (steps g init (o j) n x.shared (x.th j)).map fun y => ⟨y.1, Function.update x.th j y.2⟩
  | 0, x => by simp [run, steps]
  | n + 1, x => by
    simp only [List.replicate_succ, run, steps, sysStep]
    cases hs : step g init (o j) x.shared (x.th j) with
    | none => simp
    | some z =>
      simp only [Option.map_some]
      rw [run_steps g init o j n]
      simp

/-- Runs after the move. -/
theorem run_sim {H : List (ℕ × (O → ℕ))} {o : ℕ → O} {body : Code O S R V} {L : List ℕ}
    (hf : ∀ p ∈ H, ∀ q ∈ H, p.1 = q.1 → p.2 = q.2) (hL : L.Nodup) (hLm : ∀ b, b ∈ L ↔ b ∈ H.map Prod.fst)
    (hb : SizesOK H body) (hg : g.body = body) (hg' : g'.body = strip (H.map Prod.fst) body) (hp : g.post = .nil)
    (hp' : g'.post = behind L) : ∀ (js : List ℕ) (x x' : Sys O S R V I), x'.shared = x.shared →
      (∀ j, Rel H (o j) (x.th j) (x'.th j)) → Safe g init o x →
      ∃ ks y y', run g' init o js x' = some y' ∧ run g init o ks x = some y ∧ y'.shared = y.shared ∧
        ∀ j, Rel H (o j) (y.th j) (y'.th j)
  | [], x, x', hsh, hr, _ => ⟨[], x, x', rfl, rfl, hsh, hr⟩
  | j :: js, x, x', hsh, hr, hs => by
    have h1 : ∀ n, steps g init (o j) n x.shared (x.th j) ≠ none := by
      intro n hn
      exact hs (List.replicate n j) (by rw [run_steps, hn]; rfl)
    obtain ⟨n, s2, t2, t2', e1, e2, e3⟩ := thread_sim hf hL hLm hb hg hg' hp hp' x.shared _ _ (hr j) h1
    have h2 : run g init o (List.replicate n j) x = some ⟨s2, Function.update x.th j t2⟩ := by
      rw [run_steps, e1]; rfl
    obtain ⟨ks, y, y', e4, e5, e6, e7⟩ := run_sim hf hL hLm hb hg hg' hp hp' js ⟨s2, Function.update x.th j t2⟩
      ⟨s2, Function.update x'.th j t2'⟩ rfl (by
        intro i
        by_cases e : i = j
        · subst e; simpa using e3
        · simpa [Function.update_of_ne e] using hr i) (by
        intro ks hk
        refine hs (List.replicate n j ++ ks) ?_
        rw [run_append g init o _ ks x _ h2]; exact hk)
    refine ⟨List.replicate n j ++ ks, y, y', ?_, ?_, e6, e7⟩
    · simp only [run, sysStep, hsh, e2, Option.map_some]
      exact e4
    · rw [run_append g init o _ ks x _ h2]; exact e5

/-! ### What the pass collects -/

theorem collect_allocs (w : Code O S R V) : ∀ (c : Code O S R V) (p : ℕ × (O → ℕ)), p ∈ collect w c → (p.1, Size.outer p.2) ∈ allocs c := by
  intro c
  induction c with
  | nil => simp [collect]
  | act f rest ih => simpa [collect, allocs] using ih
  | get b a f rest ih => simpa [collect, allocs] using ih
  | put b a v rest ih => simpa [collect, allocs] using ih
  | dealloc b rest ih => simpa [collect, allocs] using ih
  | cond q t e rest i1 i2 i3 =>
    intro p hp
    simp only [collect, allocs, List.mem_append] at hp ⊢
    rcases hp with (hp | hp) | hp
    · exact .inl (.inl (i1 p hp))
    · exact .inl (.inr (i2 p hp))
    · exact .inr (i3 p hp)
  | loop n body rest _ ih =>
    intro p hp
    simp only [collect, allocs, List.mem_append] at hp ⊢
    exact .inr (ih p hp)
  | alloc b z rest ih =>
    intro p hp
    simp only [collect, allocs, List.mem_append, List.mem_cons] at hp ⊢
    rcases hp with hp | hp
    · left
      unfold handleOne at hp
      cases z with
      | outer f =>
        simp only [outerSize] at hp
        split_ifs at hp
        · simp at hp; subst hp; rfl
        · simp at hp
      | inner f => simp [outerSize] at hp
    · exact .inr (ih p hp)

theorem collect_sublist (w : Code O S R V) : ∀ (c : Code O S R V), ((collect w c).map Prod.fst).Sublist ((allocs c).map Prod.fst) := by
  intro c
  induction c with
  | nil => simp [collect]
  | act f rest ih => simpa [collect, allocs] using ih
  | get b a f rest ih => simpa [collect, allocs] using ih
  | put b a v rest ih => simpa [collect, allocs] using ih
  | dealloc b rest ih => simpa [collect, allocs] using ih
  | cond q t e rest i1 i2 i3 =>
    simp only [collect, allocs, List.map_append]
    exact (i1.append i2).append i3
  | loop n body rest _ ih =>
    simp only [collect, allocs, List.map_append]
    exact (List.nil_sublist _).append ih
  | alloc b z rest ih =>
    simp only [collect, allocs, List.map_append, List.map_cons]
    unfold handleOne
    cases z with
    | outer f =>
      simp only [outerSize]
      split_ifs
      · simpa using ih.cons_cons b
      · simpa using ih.cons b
    | inner f => simpa [outerSize] using ih.cons b

theorem eq_of_nodup {A B : Type} : ∀ (l : List (A × B)), (l.map Prod.fst).Nodup → ∀ p ∈ l, ∀ q ∈ l, p.1 = q.1 → p = q
  | [], _, p, hp, _, _, _ => by simp at hp
  | x :: l, h, p, hp, q, hq, e => by
    simp only [List.map_cons, List.nodup_cons] at h
    rcases List.mem_cons.1 hp with rfl | _
    · rcases List.mem_cons.1 hq with rfl | hq
      · rfl
      · exact absurd (e ▸ List.mem_map_of_mem hq) h.1
    · rename_i hpl
      rcases List.mem_cons.1 hq with e2 | hq
      · subst e2; exact absurd (e ▸ List.mem_map_of_mem hpl) h.1
      · exact eq_of_nodup l h.2 p hpl q hq e

/-- Runs of a region after the pass. -/
theorem hoist_sim {o : ℕ → O} {body : Code O S R V} (h1 : Single body) (s : S) (r : ℕ → R) (share : ℕ → List I)
    (hs : Safe (plain body) init o (start (plain body) s r share)) (js : List ℕ) :
    ∃ ks y y', run (hoist body) init o js (start (hoist body) s r share) = some y' ∧
      run (plain body) init o ks (start (plain body) s r share) = some y ∧ y'.shared = y.shared ∧
      ∀ j, Rel (collect body body) (o j) (y.th j) (y'.th j) := by
  have hn : ((collect body body).map Prod.fst).Nodup := h1.sublist (collect_sublist body body)
  refine run_sim (L := ((collect body body).map Prod.fst).reverse) (body := body) (fun p hp q hq e => by rw [eq_of_nodup _ hn p hp q hq e])
    (List.nodup_reverse.2 hn) (by simp) ?_ rfl rfl rfl rfl js _ _ rfl ?_ hs
  · intro b z hz p hp e
    have := eq_of_nodup _ h1 _ hz _ (collect_allocs body body p hp) e.symm
    simpa using congrArg Prod.snd this
  · intro j
    exact .front _ (fun p hp => .inl hp) (fun p hp => hp) rfl rfl rfl rfl rfl rfl (fun _ => rfl) (fun _ _ => rfl)

end Verif.Hoist
