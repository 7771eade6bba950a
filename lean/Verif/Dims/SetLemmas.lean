import Verif.Dims.ReshapeLemmas

/-!
# The sets of the analysis contain equal dimensions
-/

namespace Verif.Dims

/-- An order of traversal: the same sets with the same members. -/
def IsOrder (ord : List (List Dim) → List (List Dim)) : Prop :=
  ∀ m, ∃ m' : List (List Dim), m'.Perm m ∧ List.Forall₂ List.Perm (ord m) m'

theorem order_mem {ord : List (List Dim) → List (List Dim)} (h : IsOrder ord) (m : List (List Dim)) (S : List Dim)
    (hS : S ∈ ord m) : ∃ T ∈ m, S.Perm T := by
  obtain ⟨m', h1, h2⟩ := h m
  obtain ⟨i, hi⟩ := List.getElem?_of_mem hS
  have hl := h2.length_eq
  have hlt := (List.getElem?_eq_some_iff.mp hi).1
  have h3 := h2.get hlt (hl ▸ hlt)
  refine ⟨m'[i]'(hl ▸ hlt), h1.subset (List.getElem_mem _), ?_⟩
  rw [List.getElem?_eq_some_iff] at hi
  obtain ⟨_, hi⟩ := hi
  simpa [hi] using h3

theorem order_mem' {ord : List (List Dim) → List (List Dim)} (h : IsOrder ord) (m : List (List Dim)) (T : List Dim)
    (hT : T ∈ m) : ∃ S ∈ ord m, S.Perm T := by
  obtain ⟨m', h1, h2⟩ := h m
  obtain ⟨i, hi⟩ := List.getElem?_of_mem (h1.symm.subset hT)
  have hl := h2.length_eq
  have hlt := (List.getElem?_eq_some_iff.mp hi).1
  have h3 := h2.get (hl ▸ hlt) hlt
  refine ⟨(ord m)[i]'(hl ▸ hlt), List.getElem_mem _, ?_⟩
  rw [List.getElem?_eq_some_iff] at hi
  obtain ⟨_, hi⟩ := hi
  simpa [hi] using h3

theorem mem_ins (S : List Dim) (d e : Dim) : e ∈ ins S d ↔ e ∈ S ∨ e = d := by
  unfold ins
  split
  · rename_i h
    constructor
    · exact Or.inl
    · rintro (h1 | h1)
      · exact h1
      · rw [h1]; exact h
  · simp

theorem mem_union (S T : List Dim) (e : Dim) : e ∈ union S T ↔ e ∈ S ∨ e ∈ T := by
  unfold union
  induction T generalizing S with
  | nil => simp
  | cons d T ih => rw [List.foldl_cons, ih, mem_ins]; simp [or_assoc]

theorem overlapping_iff (S T : List Dim) : overlapping S T = true ↔ ∃ d, d ∈ S ∧ d ∈ T := by
  simp [overlapping]

/-- Predicates on sets that are kept by the merging of overlapping sets are kept by all of `mergeSets`. -/
theorem absorb_pres {P : List Dim → Prop} (hP : ∀ S T d, P S → P T → d ∈ S → d ∈ T → P (union S T)) :
    ∀ (ts : List (List Dim)) (S : List Dim), P S → (∀ T ∈ ts, P T) →
      P (absorb S ts).1 ∧ ∀ T ∈ (absorb S ts).2, P T := by
  intro ts
  induction ts with
  | nil => intro S h1 _; exact ⟨h1, by simp [absorb]⟩
  | cons T ts ih =>
    intro S h1 h2
    unfold absorb
    split
    · rename_i ho
      obtain ⟨d, hd1, hd2⟩ := (overlapping_iff S T).mp ho
      exact ih _ (hP S T d h1 (h2 T (by simp)) hd1 hd2) (fun T' h => h2 T' (by simp [h]))
    · have h3 := ih S h1 (fun T' h => h2 T' (by simp [h]))
      refine ⟨h3.1, ?_⟩
      intro T' hT'
      simp only [List.mem_cons] at hT'
      rcases hT' with rfl | hT'
      · exact h2 _ (by simp)
      · exact h3.2 _ hT'

theorem mergePass_pres {P : List Dim → Prop} (hP : ∀ S T d, P S → P T → d ∈ S → d ∈ T → P (union S T)) :
    ∀ (n : ℕ) (m : List (List Dim)), (∀ S ∈ m, P S) → ∀ S ∈ mergePass n m, P S := by
  intro n
  induction n with
  | zero => intro m h; exact h
  | succ n ih =>
    intro m h
    cases m with
    | nil => simp [mergePass]
    | cons S ts =>
      have h1 := absorb_pres hP ts S (h S (by simp)) (fun T hT => h T (by simp [hT]))
      intro T hT
      simp only [mergePass, List.mem_cons] at hT
      rcases hT with rfl | hT
      · exact h1.1
      · exact ih _ h1.2 T hT

theorem mergeLoop_pres {P : List Dim → Prop} (hP : ∀ S T d, P S → P T → d ∈ S → d ∈ T → P (union S T)) :
    ∀ (n : ℕ) (m : List (List Dim)), (∀ S ∈ m, P S) → ∀ S ∈ mergeLoop n m, P S := by
  intro n
  induction n with
  | zero => intro m h; exact h
  | succ n ih =>
    intro m h
    have h1 := mergePass_pres hP m.length m h
    unfold mergeLoop
    dsimp only
    split
    · exact ih _ h1
    · exact h1

theorem mergeSets_pres {P : List Dim → Prop} (hP : ∀ S T d, P S → P T → d ∈ S → d ∈ T → P (union S T))
    (m : List (List Dim)) (h : ∀ S ∈ m, P S) : ∀ S ∈ mergeSets m, P S := mergeLoop_pres hP _ m h

/-- The invariant of a set. -/
def GoodSet (g : Graph) (r : Run) (S : List Dim) : Prop :=
  (∀ d ∈ S, InSet g d) ∧ ∀ d ∈ S, ∀ e ∈ S, size g r d = size g r e

/-- The invariant of the sets. -/
def Good (g : Graph) (r : Run) (m : List (List Dim)) : Prop := ∀ S ∈ m, GoodSet g r S

theorem Good.sound {g : Graph} {r : Run} {m : List (List Dim)} (h : Good g r m) : Sound g r m :=
  fun S hS => (h S hS).2

theorem good_union (g : Graph) (r : Run) : ∀ S T d, GoodSet g r S → GoodSet g r T → d ∈ S → d ∈ T →
    GoodSet g r (union S T) := by
  intro S T d h1 h2 h3 h4
  refine ⟨?_, ?_⟩
  · intro e he
    rw [mem_union] at he
    exact he.elim (h1.1 e) (h2.1 e)
  · intro a ha b hb
    rw [mem_union] at ha hb
    have key : ∀ c, c ∈ S ∨ c ∈ T → size g r c = size g r d := by
      rintro c (hc | hc)
      · exact h1.2 c hc d h3
      · exact h2.2 c hc d h4
    rw [key a ha, key b hb]

theorem good_merge {g : Graph} {r : Run} {m : List (List Dim)} (h : Good g r m) : Good g r (mergeSets m) :=
  mergeSets_pres (good_union g r) m h

theorem good_order {g : Graph} {r : Run} {ord : List (List Dim) → List (List Dim)} (ho : IsOrder ord)
    {m : List (List Dim)} (h : Good g r m) : Good g r (ord m) := by
  intro S hS
  obtain ⟨T, hT, hp⟩ := order_mem ho m S hS
  have h1 := h T hT
  exact ⟨fun d hd => h1.1 d (hp.subset hd), fun d hd e he => h1.2 d (hp.subset hd) e (hp.subset he)⟩

theorem inSet_dyn {g : Graph} {d : Dim} (h : (g.ty d.1)[d.2]? = some none) : InSet g d := by
  cases hd : defOp g d.1 with
  | none => exact Or.inl hd
  | some o => exact Or.inr ⟨o, hd, Or.inr (Or.inr h)⟩

theorem mem_dynOf {g : Graph} {v : Val} {d : Dim} (h : d ∈ dynOf g v) : d.1 = v ∧ (g.ty d.1)[d.2]? = some none := by
  unfold dynOf at h
  simp only [List.mem_map] at h
  obtain ⟨i, h1, rfl⟩ := h
  exact ⟨rfl, (mem_dynDims _ _).mp h1⟩

theorem boundary_dyn {g : Graph} {d : Dim} {n : Option String} (h : (d, n) ∈ boundaryDims g) :
    (g.ty d.1)[d.2]? = some none := by
  unfold boundaryDims argDims at h
  simp only [List.mem_append, List.mem_flatMap, List.mem_map, Prod.mk.injEq] at h
  rcases h with ⟨p, _, e, he, rfl, _⟩ | h
  · exact (mem_dynOf he).2
  · split at h
    · simp only [List.mem_flatMap, List.mem_map, Prod.mk.injEq] at h
      obtain ⟨p, _, e, he, rfl, _⟩ := h
      exact (mem_dynOf he).2
    · simp at h

/-- The sets at the start are right. -/
theorem good_init {g : Graph} {r : Run} (hx : Executes g r) : Good g r (initSets g) := by
  have single : ∀ d : Dim, (g.ty d.1)[d.2]? = some none → GoodSet g r [d] := by
    intro d hd
    refine ⟨?_, ?_⟩
    · intro e he; simp at he; subst he; exact inSet_dyn hd
    · intro a ha b hb; simp at ha hb; rw [ha, hb]
  intro S hS
  unfold initSets at hS
  simp only [List.mem_append, List.mem_flatMap, List.mem_map, List.mem_filter] at hS
  rcases hS with (⟨o, _, d, ⟨v, hv, hd⟩, rfl⟩ | ⟨p, ⟨hp, _⟩, rfl⟩) | hS
  · exact single d (mem_dynOf hd).2
  · exact single p.1 (boundary_dyn (n := p.2) hp)
  · unfold namedSets at hS
    simp only [List.mem_map, List.mem_dedup] at hS
    obtain ⟨n, _, rfl⟩ := hS
    have hm : ∀ d ∈ union [] (((boundaryDims g).filter fun p => decide (p.2 = some n)).map (·.1)),
        (d, some n) ∈ boundaryDims g := by
      intro d hd
      rw [mem_union] at hd
      simp only [List.not_mem_nil, List.mem_map, List.mem_filter, decide_eq_true_eq, false_or] at hd
      obtain ⟨p, ⟨h1, h2⟩, rfl⟩ := hd
      rw [← h2]; exact h1
    refine ⟨fun d hd => inSet_dyn (boundary_dyn (hm d hd)), ?_⟩
    intro d hd e he
    rw [size_dyn g r d (boundary_dyn (hm d hd)), size_dyn g r e (boundary_dyn (hm e he)), hx.names d e n (hm d hd) (hm e he)]

section
variable {g : Graph} {r : Run} (hw : WellFormed g) (hx : Executes g r) (hp : Plain g r)
include hw hx hp

theorem good_updateSet (m : List (List Dim)) (hm : Good g r m) (S : List Dim) (hS : GoodSet g r S) :
    GoodSet g r (updateSet g m S) := by
  have key : ∀ e ∈ updateSet g m S, InSet g e ∧ ∃ d ∈ S, size g r e = size g r d := by
    intro e he
    unfold updateSet at he
    rw [mem_union, List.mem_flatMap] at he
    rcases he with he | ⟨d, hd, he⟩
    · exact ⟨hS.1 e he, e, he, rfl⟩
    · have := visit_size hw hx hp m hm.sound d (hS.1 d hd) e he
      exact ⟨this.2, d, hd, this.1⟩
  refine ⟨fun d hd => (key d hd).1, ?_⟩
  intro a ha b hb
  obtain ⟨d, hd, h1⟩ := (key a ha).2
  obtain ⟨e, he, h2⟩ := (key b hb).2
  rw [h1, h2, hS.2 d hd e he]

theorem good_updateAux : ∀ (todo done : List (List Dim)), Good g r (done ++ todo) → Good g r (updateAux g done todo) := by
  intro todo
  induction todo with
  | nil => intro done h; simpa [updateAux] using h
  | cons S todo ih =>
    intro done h
    unfold updateAux
    apply ih
    intro T hT
    simp only [List.mem_append, List.mem_cons, List.not_mem_nil, or_false] at hT
    rcases hT with (hT | rfl) | hT
    · exact h T (by simp [hT])
    · exact good_updateSet hw hx hp _ h S (h S (by simp))
    · exact h T (by simp [hT])

theorem good_eqLoop (ord : List (List Dim) → List (List Dim)) (ho : IsOrder ord) : ∀ (n : ℕ) (m m' : List (List Dim)),
    Good g r m → eqLoop g ord n m = some m' → Good g r m' := by
  intro n
  induction n with
  | zero => intro m m' _ h; simp [eqLoop] at h
  | succ n ih =>
    intro m m' hm h
    have h1 : Good g r (updateAux g [] (ord m)) := good_updateAux hw hx hp _ _ (by simpa using good_order ho hm)
    unfold eqLoop at h
    dsimp only at h
    split at h
    · exact ih _ _ (good_merge h1) h
    · simp only [Option.some.injEq] at h
      rw [← h]; exact h1

end

end Verif.Dims
