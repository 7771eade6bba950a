import Verif.WriteOnly.Pass

/-!
# C104: buffers that are only written are removed

A buffer that nothing reads is removed together with everything that only served to fill it.  The
results of the function must not change, and everything that can be removed in this way must be.
-/

namespace Verif.Props
open Verif.WriteOnly

/-- The pass keeps what a function computes: values that are returned, buffers of the caller and
returned buffers, and all other effects.  For every function with operations that do what they
declare, and every order of the lists of uses. -/
theorem C104_results {V M W : Type} (sem : Sem V M W) {f g : Func} (hf : WellFormed f)
    (hon : HonestOn sem f.code) {order : List (Op × Option ℕ) → List (Op × Option ℕ)}
    (hord : ∀ l, (order l).Perm l) (h : eliminate order f = some g) : SameResults sem f g :=
  eliminate_sound hf hon hord h

/-- The allocations in `T` are not needed: what uses them is an operation with known effects that
does not read them and that writes to nothing but `T`. -/
def NotNeeded (f : Func) (T : List Var) : Prop :=
  ∀ x ∈ T, (∃ o ∈ f.code.ops, o.isAlloc = true ∧ x ∈ o.results) ∧
    x ∉ f.code.loopUses ∧ x ∉ f.returns ∧
    ∀ o ∈ f.code.ops, x ∈ o.operands → o.iface = true ∧ (∃ e, (e, some x) ∈ o.effects) ∧
      (Eff.read, some x) ∉ o.effects ∧
      ∀ y ∈ o.operands, (Eff.write, some y) ∈ o.effects → y ∈ T

theorem subset_prune {f : Func} {T : List Var} (hT : ∀ x ∈ T, ∀ o ∈ f.code.ops, x ∈ o.operands →
    o.iface = true ∧ ∀ y ∈ o.operands, (Eff.write, some y) ∈ o.effects → y ∈ T) :
    ∀ {n : ℕ} {cands : List Var}, T ⊆ cands → T ⊆ prune f n cands
  | 0, _, h => h
  | n + 1, cands, h => by
    unfold prune
    split
    · exact h
    · refine subset_prune hT fun x hx => ?_
      unfold pruneOnce
      rw [List.mem_filter]
      refine ⟨h hx, ?_⟩
      unfold hasLiveCoWrite
      simp only [Bool.not_eq_true', List.any_eq_false]
      intro u hu
      obtain ⟨hu1, hu2⟩ := users_mem hu
      obtain ⟨hi, hw⟩ := hT x hx u.1 hu1 hu2
      rw [Bool.not_eq_true]
      unfold liveCoWrite
      simp only [hi, Bool.not_true, Bool.false_or, List.any_eq_false, Bool.and_eq_true,
        Bool.not_eq_true', List.contains_eq_mem, decide_eq_false_iff_not, decide_eq_true_eq,
        not_and, not_not]
      intro y hy hyw
      exact h (hw y hy (mem_effectsOn.1 hyw.2))

/-- Everything that is not needed is chosen for removal. -/
theorem C104_complete {f : Func} {T : List Var} (hT : NotNeeded f T) : T ⊆ toEliminate f := by
  intro x hx
  have hal : ∀ x ∈ T, x ∈ f.code.allocs := by
    intro x hx
    obtain ⟨⟨o, ho, hoa, hox⟩, -⟩ := hT x hx
    unfold Code.allocs
    exact List.mem_flatMap.2 ⟨o, List.mem_filter.2 ⟨ho, hoa⟩, hox⟩
  unfold toEliminate
  dsimp only
  rw [List.mem_filter]
  refine ⟨hal x hx, ?_⟩
  simp only [List.contains_eq_mem, decide_eq_true_eq]
  refine subset_prune (fun x hx o ho hxo => ?_) (fun y hy => ?_) hx
  · obtain ⟨-, -, -, h⟩ := hT x hx
    obtain ⟨h1, -, -, h4⟩ := h o ho hxo
    exact ⟨h1, h4⟩
  · rw [List.mem_filter]
    refine ⟨hal y hy, ?_⟩
    obtain ⟨-, hl, hr, h⟩ := hT y hy
    unfold isWriteOnly
    simp only [Bool.and_eq_true, List.all_eq_true, Bool.not_eq_true', List.contains_eq_mem,
      List.mem_append, decide_eq_false_iff_not, not_or]
    refine ⟨fun u hu => ?_, hl, hr⟩
    obtain ⟨hu1, hu2⟩ := users_mem hu
    obtain ⟨h1, ⟨e, he⟩, h3, -⟩ := h u.1 hu1 hu2
    unfold writesOnly
    simp only [h1, Bool.true_and, Bool.and_eq_true, Bool.not_eq_true', List.isEmpty_eq_false_iff,
      List.all_eq_true, bne_iff_ne]
    refine ⟨List.ne_nil_of_mem (mem_effectsOn.2 he), fun e' he' hre => h3 ?_⟩
    subst hre
    exact mem_effectsOn.1 he'

/-- What is chosen is indeed not needed. -/
theorem C104_chosen (f : Func) : NotNeeded f (toEliminate f) := by
  intro x hx
  obtain ⟨ha, hw, hl⟩ := mem_toEliminate hx
  unfold isWriteOnly at hw
  simp only [Bool.and_eq_true, List.all_eq_true, Bool.not_eq_true', List.contains_eq_mem,
    List.mem_append, decide_eq_false_iff_not, not_or] at hw
  refine ⟨mem_allocs ha, hw.2.1, hw.2.2, fun o ho hxo => ?_⟩
  obtain ⟨q, hq⟩ := mem_users (p := none) ho hxo
  have h1 := hw.1 _ hq
  unfold writesOnly at h1
  simp only [Bool.and_eq_true, Bool.not_eq_true', List.isEmpty_eq_false_iff, List.all_eq_true,
    bne_iff_ne] at h1
  obtain ⟨⟨hi, hne⟩, hr⟩ := h1
  obtain ⟨e0, he0⟩ := List.exists_mem_of_ne_nil _ hne
  refine ⟨hi, ⟨e0, mem_effectsOn.1 he0⟩, fun h => hr _ (mem_effectsOn.2 h) rfl, fun y hy hyw => ?_⟩
  by_cases e : y = x
  · exact e ▸ hx
  · have h2 := hl o ho hxo
    unfold liveCoWrite at h2
    simp only [Bool.or_eq_false_iff, List.any_eq_false, Bool.and_eq_true, bne_iff_ne,
      Bool.not_eq_true', List.contains_eq_mem, decide_eq_false_iff_not, not_and, not_not,
      decide_eq_true_eq] at h2
    exact h2.2 y hy ⟨e, mem_effectsOn.2 hyw⟩

/-! ### An example -/

/-- Values of the example: numbers and pointers. -/
abbrev ExVal := ℕ ⊕ Var

def woRoot : ExVal → Option Var
  | .inl _ => none
  | .inr b => some b

/-- Operations of the example, by their code: allocation, store, load, number, print.  A buffer
holds one number, the world is what has been printed. -/
def woExec (o : Op) (vs : List ExVal) (m : Var → ℕ) (w : List ℕ) :
    Option (List ExVal × (Var → ℕ) × List ℕ) :=
  match o.code, vs, o.results with
  | 0, [], [x] => some ([.inr x], Function.update m x 0, w)
  | 1, [.inl n, .inr b], [] => some ([], Function.update m b n, w)
  | 2, [.inr b], [_] => some ([.inl (m b)], m, w)
  | 3, [], [x] => some ([.inl x], m, w)
  | 4, [.inr b], [] => some ([], m, w ++ [m b])
  | 5, [.inr b], [] => some ([], Function.update m b 7, w ++ [7])
  | _, _, _ => none

def woSem : Sem ExVal ℕ (List ℕ) := ⟨woExec, fun _ _ => [.inl 0, .inl 1, .inl 2], woRoot⟩

def exAlloc (i : ℕ) (x : Var) : Op :=
  { id := i, isAlloc := true, operands := [], results := [x], effects := [(.alloc, some x)], code := 0 }
def exStore (i : ℕ) (v p : Var) : Op :=
  { id := i, operands := [v, p], results := [], effects := [(.write, some p)], stored := some v,
    code := 1 }
def exLoad (i : ℕ) (p x : Var) : Op :=
  { id := i, operands := [p], results := [x], effects := [(.read, some p)], code := 2 }
def exConst (i : ℕ) (x : Var) : Op :=
  { id := i, operands := [], results := [x], effects := [], code := 3 }
def exPrint (i : ℕ) (p : Var) : Op :=
  { id := i, operands := [p], results := [], effects := [(.read, some p), (.write, none)], code := 4 }
/-- A store that prints as well. -/
def exLoud (i : ℕ) (p : Var) : Op :=
  { id := i, operands := [p], results := [], effects := [(.write, some p), (.write, none)], code := 5 }

theorem exec_alloc {i x : ℕ} {vs : List ExVal} {m : Var → ℕ} {w : List ℕ} {r}
    (h : woSem.exec (exAlloc i x) vs m w = some r) :
    vs = [] ∧ r = ([.inr x], Function.update m x 0, w) := by
  rcases vs with _ | ⟨v, vs⟩
  · simp only [woSem, woExec, exAlloc, Option.some.injEq] at h
    exact ⟨rfl, h.symm⟩
  · simp [woSem, woExec, exAlloc] at h

theorem exec_store {i a p : ℕ} {vs : List ExVal} {m : Var → ℕ} {w : List ℕ} {r}
    (h : woSem.exec (exStore i a p) vs m w = some r) :
    ∃ n b, vs = [.inl n, .inr b] ∧ r = ([], Function.update m b n, w) := by
  rcases vs with _ | ⟨v | v, _ | ⟨u | u, _ | ⟨t, vs⟩⟩⟩ <;> simp [woSem, woExec, exStore] at h
  exact ⟨v, u, rfl, h.symm⟩

theorem exec_load {i p x : ℕ} {vs : List ExVal} {m : Var → ℕ} {w : List ℕ} {r}
    (h : woSem.exec (exLoad i p x) vs m w = some r) :
    ∃ b, vs = [.inr b] ∧ r = ([.inl (m b)], m, w) := by
  rcases vs with _ | ⟨v | v, _ | ⟨u, vs⟩⟩ <;> simp [woSem, woExec, exLoad] at h
  exact ⟨v, rfl, h.symm⟩

theorem exec_const {i x : ℕ} {vs : List ExVal} {m : Var → ℕ} {w : List ℕ} {r}
    (h : woSem.exec (exConst i x) vs m w = some r) : vs = [] ∧ r = ([.inl x], m, w) := by
  rcases vs with _ | ⟨v, vs⟩
  · simp only [woSem, woExec, exConst, Option.some.injEq] at h
    exact ⟨rfl, h.symm⟩
  · simp [woSem, woExec, exConst] at h

theorem exec_print {i p : ℕ} {vs : List ExVal} {m : Var → ℕ} {w : List ℕ} {r}
    (h : woSem.exec (exPrint i p) vs m w = some r) :
    ∃ b, vs = [.inr b] ∧ r = ([], m, w ++ [m b]) := by
  rcases vs with _ | ⟨v | v, _ | ⟨u, vs⟩⟩ <;> simp [woSem, woExec, exPrint] at h
  exact ⟨v, rfl, h.symm⟩

theorem exec_loud {i p : ℕ} {vs : List ExVal} {m : Var → ℕ} {w : List ℕ} {r}
    (h : woSem.exec (exLoud i p) vs m w = some r) :
    ∃ b, vs = [.inr b] ∧ r = ([], Function.update m b 7, w ++ [7]) := by
  rcases vs with _ | ⟨v | v, _ | ⟨u, vs⟩⟩ <;> simp [woSem, woExec, exLoud] at h
  exact ⟨v, rfl, h.symm⟩

theorem update_ne {m : Var → ℕ} {a b n : ℕ} (h : Function.update m a n b ≠ m b) : b = a := by
  by_contra hne
  exact h (Function.update_of_ne hne _ _)

theorem update_or {m m' : Var → ℕ} (a n b : ℕ) :
    Function.update m' a n b = Function.update m a n b ∨
      (Function.update m' a n b = m' b ∧ Function.update m a n b = m b) := by
  by_cases e : b = a
  · subst e; simp
  · right; simp [Function.update_of_ne e]

theorem honest_alloc (i x : ℕ) : Honest woSem (exAlloc i x) where
  loc := by
    intro vs m m' w r h _
    obtain ⟨rfl, rfl⟩ := exec_alloc h
    exact ⟨Function.update m' x 0, rfl, update_or x 0⟩
  declared := by
    intro _ vs m w r _ h b hb
    obtain ⟨rfl, rfl⟩ := exec_alloc h
    exact ⟨.alloc, x, by simp [exAlloc], by decide, Or.inr ⟨by simp [exAlloc], update_ne hb⟩⟩
  world := by
    intro _ _ vs m w r h
    obtain ⟨rfl, rfl⟩ := exec_alloc h
    rfl
  pointers := by
    intro vs m w r h v hv b hb
    obtain ⟨rfl, rfl⟩ := exec_alloc h
    right
    simp only [List.mem_singleton] at hv
    subst hv
    simp only [woSem, woRoot, Option.some.injEq] at hb
    simp [exAlloc, hb]
  alloc := by
    intro _ vs m w r h v hv b hb
    obtain ⟨rfl, rfl⟩ := exec_alloc h
    simp only [List.mem_singleton] at hv
    subst hv
    simp only [woSem, woRoot, Option.some.injEq] at hb
    simp [exAlloc, hb]

theorem honest_store (i a p : ℕ) : Honest woSem (exStore i a p) where
  loc := by
    intro vs m m' w r h _
    obtain ⟨n, c, rfl, rfl⟩ := exec_store h
    exact ⟨Function.update m' c n, rfl, update_or c n⟩
  declared := by
    intro _ vs m w r _ h b hb
    obtain ⟨n, c, rfl, rfl⟩ := exec_store h
    exact ⟨.write, p, by simp [exStore], by decide,
      Or.inl ⟨.inr c, by simp [exStore], by simp [woSem, woRoot, update_ne hb]⟩⟩
  world := by
    intro _ _ vs m w r h
    obtain ⟨n, c, rfl, rfl⟩ := exec_store h
    rfl
  pointers := by
    intro vs m w r h v hv
    obtain ⟨n, c, rfl, rfl⟩ := exec_store h
    simp at hv
  alloc := by intro h; simp [exStore] at h

theorem honest_load (i p x : ℕ) : Honest woSem (exLoad i p x) where
  loc := by
    intro vs m m' w r h hm
    obtain ⟨c, rfl, rfl⟩ := exec_load h
    have e : m c = m' c := hm (.inr c) (by simp) c rfl
    exact ⟨m', by rw [e]; rfl, fun b => Or.inr ⟨rfl, rfl⟩⟩
  declared := by
    intro _ vs m w r _ h b hb
    obtain ⟨c, rfl, rfl⟩ := exec_load h
    exact absurd rfl hb
  world := by
    intro _ _ vs m w r h
    obtain ⟨c, rfl, rfl⟩ := exec_load h
    rfl
  pointers := by
    intro vs m w r h v hv b hb
    obtain ⟨c, rfl, rfl⟩ := exec_load h
    simp only [List.mem_singleton] at hv
    subst hv
    simp [woSem, woRoot] at hb
  alloc := by intro h; simp [exLoad] at h

theorem honest_const (i x : ℕ) : Honest woSem (exConst i x) where
  loc := by
    intro vs m m' w r h hm
    obtain ⟨rfl, rfl⟩ := exec_const h
    exact ⟨m', rfl, fun b => Or.inr ⟨rfl, rfl⟩⟩
  declared := by
    intro _ vs m w r _ h b hb
    obtain ⟨rfl, rfl⟩ := exec_const h
    exact absurd rfl hb
  world := by
    intro _ _ vs m w r h
    obtain ⟨rfl, rfl⟩ := exec_const h
    rfl
  pointers := by
    intro vs m w r h v hv b hb
    obtain ⟨rfl, rfl⟩ := exec_const h
    simp only [List.mem_singleton] at hv
    subst hv
    simp [woSem, woRoot] at hb
  alloc := by intro h; simp [exConst] at h

theorem honest_print (i p : ℕ) : Honest woSem (exPrint i p) where
  loc := by
    intro vs m m' w r h hm
    obtain ⟨c, rfl, rfl⟩ := exec_print h
    have e : m c = m' c := hm (.inr c) (by simp) c rfl
    exact ⟨m', by rw [e]; rfl, fun b => Or.inr ⟨rfl, rfl⟩⟩
  declared := by
    intro _ vs m w r _ h b hb
    obtain ⟨c, rfl, rfl⟩ := exec_print h
    exact absurd rfl hb
  world := by
    intro _ hw
    exact absurd ⟨.write, by simp [exPrint], by decide⟩ hw
  pointers := by
    intro vs m w r h v hv
    obtain ⟨c, rfl, rfl⟩ := exec_print h
    simp at hv
  alloc := by intro h; simp [exPrint] at h

theorem honest_loud (i p : ℕ) : Honest woSem (exLoud i p) where
  loc := by
    intro vs m m' w r h _
    obtain ⟨c, rfl, rfl⟩ := exec_loud h
    exact ⟨Function.update m' c 7, rfl, update_or c 7⟩
  declared := by
    intro _ vs m w r _ h b hb
    obtain ⟨c, rfl, rfl⟩ := exec_loud h
    exact ⟨.write, p, by simp [exLoud], by decide,
      Or.inl ⟨.inr c, by simp [exLoud], by simp [woSem, woRoot, update_ne hb]⟩⟩
  world := by
    intro _ hw
    exact absurd ⟨.write, by simp [exLoud], by decide⟩ hw
  pointers := by
    intro vs m w r h v hv
    obtain ⟨c, rfl, rfl⟩ := exec_loud h
    simp at hv
  alloc := by intro h; simp [exLoud] at h

theorem woSem_trips (h : Head) (vs : List ExVal) : ∀ v ∈ woSem.trips h vs, woSem.root v = none := by
  intro v hv
  simp only [woSem, List.mem_cons, List.not_mem_nil, or_false] at hv
  rcases hv with rfl | rfl | rfl <;> rfl

/-- Buffer 1 is filled in a loop with values loaded from the argument 0 and with a number, and never
read.  Buffer 10 is filled, printed and returned. -/
def woEx : Func where
  args := [0]
  code :=
    .op (exAlloc 1 1) <| .op (exAlloc 2 10) <| .op (exConst 3 3) <| .op (exConst 4 4) <|
    .loop { id := 5, operands := [], iv := 5 }
      (.op (exLoad 6 0 6) <| .op (exStore 7 6 1) .nil) <|
    .op (exStore 8 3 1) <| .op (exStore 9 4 10) <| .op (exPrint 10 10) .nil
  returns := [10]

/-- What is left. -/
def woExAfter : Func where
  args := [0]
  code :=
    .op (exAlloc 2 10) <| .op (exConst 4 4) <| .op (exStore 9 4 10) <| .op (exPrint 10 10) .nil
  returns := [10]

example : eliminate id woEx = some woExAfter ∧ eliminate List.reverse woEx = some woExAfter := by
  constructor <;> decide +kernel

instance (o : Op) : Decidable (AllocForm o) :=
  decidable_of_iff (o.isAlloc = true → o.iface = true ∧ ∃ x ∈ o.results, o.results = [x] ∧
      ∀ e ∈ o.effects, e.2 = some x) (by
    unfold AllocForm
    constructor
    · intro h ha
      obtain ⟨h1, x, -, h2, h3⟩ := h ha
      exact ⟨h1, x, h2, fun e y he => h3 (e, y) he⟩
    · intro h ha
      obtain ⟨h1, x, h2, h3⟩ := h ha
      exact ⟨h1, x, by simp [h2], h2, fun e he => h3 e.1 e.2 he⟩)

instance (o : Op) : Decidable (Tame o) :=
  decidable_of_iff ((∃ x ∈ o.operands, ∃ e ∈ o.effects, e.2 = some x ∧ e.1 ≠ .read) →
      ∀ e ∈ o.effects, e.1 ≠ .read → ∃ z ∈ o.operands, e.2 = some z ∧
        (e.1 = .write ∨ o.operands = [z])) (by
    unfold Tame
    constructor
    · rintro h ⟨x, hx, e, he, hne⟩ e' y he' hne'
      exact h ⟨x, hx, (e, some x), he, rfl, hne⟩ (e', y) he' hne'
    · rintro h ⟨x, hx, ⟨e, y⟩, he, rfl, hne⟩ e' he' hne'
      exact h ⟨x, hx, e, he, hne⟩ e'.1 e'.2 he' hne')

theorem woEx_wellFormed : WellFormed woEx where
  ids := by decide
  defs := by decide
  alloc := by decide
  tame := by decide

theorem woEx_honest : HonestOn woSem woEx.code where
  ops := by
    intro o ho
    simp only [woEx, Code.ops, List.cons_append, List.nil_append, List.mem_cons, List.not_mem_nil,
      or_false] at ho
    rcases ho with rfl | rfl | rfl | rfl | rfl | rfl | rfl | rfl | rfl
    · exact honest_alloc _ _
    · exact honest_alloc _ _
    · exact honest_const _ _
    · exact honest_const _ _
    · exact honest_load _ _ _
    · exact honest_store _ _ _
    · exact honest_store _ _ _
    · exact honest_store _ _ _
    · exact honest_print _ _
  trips := woSem_trips

example : SameResults woSem woEx woExAfter :=
  C104_results woSem woEx_wellFormed woEx_honest (order := id) (fun _ => List.Perm.refl _)
    (by decide +kernel)

/-- A state from which the example runs. -/
def woStart : State ExVal ℕ (List ℕ) :=
  ⟨fun x => if x = 0 then some (.inr 0) else none, fun _ => 5, []⟩

example : Starts woSem woEx woStart ∧ (run woSem woEx.code woStart).isSome = true := by
  refine ⟨⟨?_, ?_⟩, by decide +kernel⟩
  · intro x v h
    simp only [woStart, Option.ite_none_right_eq_some] at h
    rw [h.1]
    decide
  · intro x v b h hb
    simp only [woStart, Option.ite_none_right_eq_some, Option.some.injEq] at h
    rw [← h.2] at hb
    simp only [woSem, woRoot, Option.some.injEq] at hb
    subst hb
    decide

example : NotNeeded woEx [1] ∧ toEliminate woEx = [1] := by
  refine ⟨?_, by decide +kernel⟩
  have := C104_chosen woEx
  rwa [show toEliminate woEx = [1] by decide +kernel] at this

/-! ### What goes wrong -/

/-- An effect on no value in particular is lost if the operation writes to a buffer that is removed,
although the effect is declared. -/
theorem C104_world_false : ∃ f g : Func, HonestOn woSem f.code ∧ f.code.ids.Nodup ∧
    f.code.defs.Nodup ∧ (∀ o ∈ f.code.ops, AllocForm o) ∧ eliminate id f = some g ∧
    ¬ SameResults woSem f g := by
  refine ⟨⟨[], .op (exAlloc 1 1) <| .op (exLoud 2 1) .nil, []⟩, ⟨[], .nil, []⟩, ⟨?_, woSem_trips⟩,
    by decide, by decide, by decide, by decide +kernel, ?_⟩
  · intro o ho
    simp only [Code.ops, List.mem_cons, List.not_mem_nil, or_false] at ho
    rcases ho with rfl | rfl
    · exact honest_alloc _ _
    · exact honest_loud _ _
  · intro h
    obtain ⟨t', ht, hw, -⟩ := h ⟨fun _ => none, fun _ => 0, []⟩ _
      ⟨fun _ _ h => by simp at h, fun _ _ _ h => by simp at h⟩ rfl
    simp only [run, Option.some.injEq] at ht
    rw [← ht] at hw
    revert hw
    decide +kernel

theorem pair_perm {α : Type} {a b : α} {l : List α} (h : l.Perm [a, b]) :
    l = [a, b] ∨ l = [b, a] := by
  match l, h.length_eq with
  | [c, d], _ =>
    have hc : c = a ∨ c = b := by simpa using h.mem_iff.1 (List.mem_cons_self)
    rcases hc with rfl | rfl
    · left
      have := (List.perm_cons c).1 h
      rw [List.perm_singleton.1 this]
    · right
      have := (List.perm_cons c).1 (h.trans (List.Perm.swap c a []))
      rw [List.perm_singleton.1 this]

/-- When one value is stored twice to a buffer that is removed, and is not used otherwise, the
operation that computes it is erased twice, whatever the order of the uses. -/
theorem C104_same_value_false : ∃ f : Func, WellFormed f ∧ HonestOn woSem f.code ∧
    ∀ order : List (Op × Option ℕ) → List (Op × Option ℕ), (∀ l, (order l).Perm l) →
      eliminate order f = none := by
  refine ⟨⟨[], .op (exAlloc 1 1) <| .op (exConst 2 2) <| .op (exStore 3 2 1) <|
    .op (exStore 4 2 1) .nil, []⟩, ⟨by decide, by decide, by decide, by decide⟩,
    ⟨?_, woSem_trips⟩, ?_⟩
  · intro o ho
    simp only [Code.ops, List.mem_cons, List.not_mem_nil, or_false] at ho
    rcases ho with rfl | rfl | rfl | rfl
    · exact honest_alloc _ _
    · exact honest_const _ _
    · exact honest_store _ _ _
    · exact honest_store _ _ _
  · intro order hord
    have e : toEliminate ⟨[], .op (exAlloc 1 1) <| .op (exConst 2 2) <| .op (exStore 3 2 1) <|
        .op (exStore 4 2 1) .nil, []⟩ = [1] := by decide +kernel
    unfold eliminate
    rw [e]
    unfold forAll
    refine Option.bind_eq_none_iff.2 ?_
    have k : ∀ o : Option Func, o = none → ∀ a, o = some a →
        forAll (eliminateOne order) [] a = none := by
      rintro o rfl a ha
      cases ha
    refine k _ ?_
    unfold eliminateOne
    have hp := hord [(exStore 3 2 1, none), (exStore 4 2 1, none)]
    have e2 : Code.users 1 none (.op (exAlloc 1 1) <| .op (exConst 2 2) <| .op (exStore 3 2 1) <|
        .op (exStore 4 2 1) .nil) = [(exStore 3 2 1, none), (exStore 4 2 1, none)] := by
      decide +kernel
    dsimp only
    rw [e2]
    have hcases : order [(exStore 3 2 1, none), (exStore 4 2 1, none)] =
          [(exStore 3 2 1, none), (exStore 4 2 1, none)] ∨
        order [(exStore 3 2 1, none), (exStore 4 2 1, none)] =
          [(exStore 4 2 1, none), (exStore 3 2 1, none)] := by
      exact pair_perm hp
    rcases hcases with h | h <;> rw [h] <;> decide +kernel

/-- A loop that is erased together with the loop around it is looked at afterwards, for some orders
of the uses. -/
theorem C104_nested_false : ∃ f : Func, WellFormed f ∧ HonestOn woSem f.code ∧
    eliminate id f = none ∧ (eliminate List.reverse f).isSome = true := by
  refine ⟨⟨[], .op (exAlloc 1 1) <| .op (exConst 2 2) <| .op (exConst 3 3) <|
    .loop { id := 4, operands := [], iv := 4 } (.op (exStore 5 2 1) <|
      .loop { id := 6, operands := [], iv := 6 } (.op (exStore 7 3 1) .nil) .nil) .nil, []⟩,
    ⟨by decide, by decide, by decide, by decide⟩, ⟨?_, woSem_trips⟩, by decide +kernel,
    by decide +kernel⟩
  intro o ho
  simp only [Code.ops, List.cons_append, List.nil_append, List.mem_cons, List.not_mem_nil, or_false]
    at ho
  rcases ho with rfl | rfl | rfl | rfl | rfl
  · exact honest_alloc _ _
  · exact honest_const _ _
  · exact honest_const _ _
  · exact honest_store _ _ _
  · exact honest_store _ _ _

end Verif.Props
