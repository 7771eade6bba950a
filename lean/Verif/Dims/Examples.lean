import Verif.Dims.OffLemmas

/-!
# Checkers for concrete functions and executions
-/

namespace Verif.Dims

/-- A function from lists: types, values of integers, operations, arguments, names of the dimensions of the arguments, and what the
shape helpers find. -/
def mkG (tys : List Ty) (ints : List Val) (ops : List Op) (args : List Val) (names : List (ℕ × ℕ × String))
    (helper : List (Dim × Dim)) : Graph :=
  { ops := ops, ty := fun v => (tys[v]?).getD [], i64 := fun v => decide (v ∈ ints), sameQ := fun d e => decide ((d, e) ∈ helper),
    target := fun _ => true, args := args, returned := [],
    argName := fun i k => (names.find? fun p => decide (p.1 = i ∧ p.2.1 = k)).map (·.2.2), resName := fun _ _ => none,
    forOutputs := false }

/-- An execution from lists. -/
def mkR (shapes : List (List ℕ)) (data : List (List ℤ)) : Run :=
  { shape := fun v => (shapes[v]?).getD [], data := fun v => (data[v]?).getD [] }

/-- Check of one operation for `WellFormed`. -/
def opWf (g : Graph) (o : Op) : Bool :=
  o.results.all (fun v => decide (defOp g v = some o)) &&
    match o.kind with
    | .dim a => o.results.all (fun y => decide (g.ty y = [some 1])) &&
        match o.opd 0 with
        | some x => decide ((g.ty x)[a]? = some none)
        | none => true
    | .cast =>
        match o.opd 0 with
        | some x => o.results.all fun y => decide (g.ty y = g.ty x)
        | none => true
    | .add => o.results.all fun y => (List.range (g.ty (o.vals.headD 0)).length).all fun k =>
        !(decide (o.vals ≠ []) && o.vals.all fun x => decide ((g.ty x).reverse[k]? = (g.ty (o.vals.headD 0)).reverse[k]?)) ||
          decide ((g.ty (o.vals.headD 0)).reverse[k]? = some none) ||
          decide ((g.ty y).reverse[k]? = (g.ty (o.vals.headD 0)).reverse[k]?)
    | .nary => o.results.all fun y => (List.range (g.ty (o.vals.headD 0)).length).all fun k =>
        !(decide (o.vals ≠ []) && o.vals.all fun x => decide ((g.ty x).reverse[k]? = (g.ty (o.vals.headD 0)).reverse[k]?)) ||
          decide ((g.ty (o.vals.headD 0)).reverse[k]? = some none) ||
          decide ((g.ty y).reverse[k]? = (g.ty (o.vals.headD 0)).reverse[k]?)
    | _ => true

/-- Check of `WellFormed`. -/
def wf (g : Graph) : Bool :=
  g.ops.all (fun o => opWf g o && (decide (o.kind ≠ .add ∧ o.kind ≠ .nary) || decide (o.vals ≠ []))) &&
    g.args.all fun v => decide (defOp g v = none)

theorem wf_spec (g : Graph) (h : wf g = true) : WellFormed g := by
  unfold wf at h
  simp only [Bool.and_eq_true, List.all_eq_true, decide_eq_true_eq, Bool.or_eq_true] at h
  obtain ⟨h1, h2⟩ := h
  have hb : ∀ o ∈ g.ops, (o.kind = .add ∨ o.kind = .nary) → ∀ y ∈ o.results, ∀ k n : ℕ,
      (∀ x ∈ o.vals, (g.ty x).reverse[k]? = some (some n)) → (g.ty y).reverse[k]? = some (some n) := by
    intro o ho hk y hy k n hn
    obtain ⟨h3, h4⟩ := h1 o ho
    have hne : o.vals ≠ [] := by rcases h4 with h4 | h4 <;> rcases hk with hk | hk <;> simp_all
    obtain ⟨x0, xs, hxs⟩ := List.exists_cons_of_ne_nil hne
    have hx0 : o.vals.headD 0 = x0 := by rw [hxs]; rfl
    have hk0 := hn x0 (by rw [hxs]; simp)
    have hlt : k < (g.ty x0).length := by
      have := (List.getElem?_eq_some_iff.mp hk0).1
      simpa using this
    unfold opWf at h3
    rcases hk with hk | hk
    all_goals
      simp only [hk, Bool.and_eq_true, List.all_eq_true, List.mem_range] at h3
      have h5 := h3.2 y hy k (by rw [hx0]; exact hlt)
      rw [hx0, hk0] at h5
      simp only [Bool.or_eq_true, Bool.not_eq_true', Bool.and_eq_false_iff, decide_eq_false_iff_not, decide_eq_true_eq] at h5
      rcases h5 with ((h5 | h5) | h5) | h5
      · exact absurd hne (by simpa using h5)
      · rw [List.all_eq_false] at h5
        obtain ⟨x, hx, h6⟩ := h5
        exact absurd (hn x hx) (by simpa using h6)
      · simp at h5
      · exact h5
  refine ⟨?_, h2, ?_, ?_, hb⟩
  · intro o ho v hv
    have := (h1 o ho).1
    unfold opWf at this
    simp only [Bool.and_eq_true, List.all_eq_true, decide_eq_true_eq] at this
    exact this.1 v hv
  · intro o ho a hk
    have := (h1 o ho).1
    unfold opWf at this
    simp only [hk, Bool.and_eq_true, List.all_eq_true, decide_eq_true_eq] at this
    refine ⟨this.2.1, ?_⟩
    intro x hx
    have h5 := this.2.2
    rw [hx] at h5
    simpa using h5
  · intro o ho hk x hx y hy
    have := (h1 o ho).1
    unfold opWf at this
    simp only [hk, Bool.and_eq_true, List.all_eq_true, decide_eq_true_eq, hx] at this
    exact this.2 y hy

/-- Check of `Broadcasts`. -/
def bc (ss : List (List ℕ)) (out : List ℕ) : Bool :=
  ss.all (fun s => decide (s.length ≤ out.length)) &&
    (List.range out.length).all fun k =>
      ss.all (fun s => decide (fromEnd s k = none) || decide (fromEnd s k = some 1) || decide (fromEnd s k = fromEnd out k)) &&
        ss.any fun s => decide (fromEnd s k = fromEnd out k)

theorem bc_spec (ss : List (List ℕ)) (out : List ℕ) (h : bc ss out = true) : Broadcasts ss out := by
  unfold bc at h
  simp only [Bool.and_eq_true, List.all_eq_true, decide_eq_true_eq, Bool.or_eq_true, List.mem_range, List.any_eq_true] at h
  refine ⟨h.1, ?_⟩
  intro k n hk
  have hlt : k < out.length := by
    have := (List.getElem?_eq_some_iff.mp hk).1
    simpa using this
  have h2 := h.2 k hlt
  refine ⟨?_, ?_⟩
  · intro s hs x hx
    rcases h2.1 s hs with (h3 | h3) | h3
    · rw [hx] at h3; simp at h3
    · rw [hx] at h3; simp at h3; exact Or.inl h3
    · rw [hx, hk] at h3; simp at h3; exact Or.inr h3
  · obtain ⟨s, hs, h3⟩ := h2.2
    exact ⟨s, hs, by rw [h3, hk]⟩

/-- Check of `ConcatShape`. -/
def cc (r : Run) (xs : List Val) (y : Val) (k : ℕ) : Bool :=
  decide (k < (r.shape y).length) &&
    xs.all (fun x => decide ((r.shape x).length = (r.shape y).length) &&
      (List.range (r.shape y).length).all fun j => decide (j = k) || decide ((r.shape x)[j]? = (r.shape y)[j]?)) &&
    decide ((r.shape y)[k]? = some ((xs.map fun x => ((r.shape x)[k]?).getD 0).sum)) &&
    (decide ((r.shape y).length ≠ 1) || decide (r.data y = (xs.map r.data).flatten))

theorem cc_spec (r : Run) (xs : List Val) (y : Val) (k : ℕ) (h : cc r xs y k = true) : ConcatShape r xs y k := by
  unfold cc at h
  simp only [Bool.and_eq_true, List.all_eq_true, decide_eq_true_eq, Bool.or_eq_true, List.mem_range] at h
  obtain ⟨⟨⟨h1, h2⟩, h3⟩, h4⟩ := h
  refine ⟨k, h1, Or.inl rfl, ?_, h3, ?_⟩
  · intro x hx
    refine ⟨(h2 x hx).1, ?_⟩
    intro j hj
    by_cases hl : j < (r.shape y).length
    · rcases (h2 x hx).2 j hl with h5 | h5
      · exact absurd h5 hj
      · exact h5
    · rw [List.getElem?_eq_none_iff.mpr (by rw [(h2 x hx).1]; omega), List.getElem?_eq_none_iff.mpr (by omega)]
  · intro h5
    rcases h4 with h4 | h4
    · exact absurd h5 h4
    · exact h4

/-- Check of the parts of `Executes` other than the operations. -/
def fitsAll (tys : List Ty) (shapes : List (List ℕ)) : Bool :=
  decide (tys.length = shapes.length) &&
    (tys.zip shapes).all fun p => decide (p.1.length = p.2.length) && (p.1.zip p.2).all fun q => decide (q.1 = none ∨ q.1 = some q.2)

theorem conforms_check : ∀ (t : Ty) (s : List ℕ), t.length = s.length → (∀ q ∈ t.zip s, q.1 = none ∨ q.1 = some q.2) →
    Conforms t s := by
  intro t
  induction t with
  | nil => intro s h _; cases s with
    | nil => exact List.Forall₂.nil
    | cons => simp at h
  | cons a t ih =>
    intro s h h1
    cases s with
    | nil => simp at h
    | cons b s => exact List.Forall₂.cons (h1 (a, b) (by simp)) (ih s (by simpa using h) (fun q hq => h1 q (by simp [hq])))

theorem fits_spec : ∀ (tys : List Ty) (shapes : List (List ℕ)), fitsAll tys shapes = true →
    ∀ v : ℕ, Conforms ((tys[v]?).getD []) ((shapes[v]?).getD []) := by
  intro tys shapes h v
  unfold fitsAll at h
  simp only [Bool.and_eq_true, List.all_eq_true, decide_eq_true_eq] at h
  by_cases hv : v < tys.length
  · have hv' : v < shapes.length := by omega
    rw [List.getElem?_eq_getElem hv, List.getElem?_eq_getElem hv']
    have hm : (tys[v], shapes[v]) ∈ tys.zip shapes := by
      rw [List.mem_iff_getElem]
      exact ⟨v, by simp [hv, hv'], by simp⟩
    have h2 := h.2 _ hm
    exact conforms_check _ _ h2.1 h2.2
  · rw [List.getElem?_eq_none_iff.mpr (by omega), List.getElem?_eq_none_iff.mpr (by omega)]
    exact List.Forall₂.nil

/-- Check of `Executes` without the operations. -/
def ex (tys : List Ty) (ints : List Val) (ops : List Op) (args : List Val) (names : List (ℕ × ℕ × String))
    (helper : List (Dim × Dim)) (shapes : List (List ℕ)) (data : List (List ℤ)) : Bool :=
  let g := mkG tys ints ops args names helper
  let r := mkR shapes data
  fitsAll tys shapes && ints.all (fun v => decide ((r.data v).length = (r.shape v).prod)) &&
    (boundaryDims g).all (fun p => (boundaryDims g).all fun q =>
      decide (p.2 = none) || decide (p.2 ≠ q.2) || decide ((r.shape p.1.1)[p.1.2]? = (r.shape q.1.1)[q.1.2]?)) &&
    helper.all fun p => decide ((g.ty p.2.1)[p.2.2]? = some none) &&
      decide ((r.shape p.1.1)[p.1.2]? = (r.shape p.2.1)[p.2.2]?)

theorem ex_spec (tys : List Ty) (ints : List Val) (ops : List Op) (args : List Val) (names : List (ℕ × ℕ × String))
    (helper : List (Dim × Dim)) (shapes : List (List ℕ)) (data : List (List ℤ))
    (h : ex tys ints ops args names helper shapes data = true) (ho : ∀ o ∈ ops, OpRuns (mkR shapes data) o) :
    Executes (mkG tys ints ops args names helper) (mkR shapes data) := by
  unfold ex at h
  dsimp only at h
  simp only [Bool.and_eq_true, List.all_eq_true, decide_eq_true_eq, Bool.or_eq_true] at h
  obtain ⟨⟨⟨h1, h2⟩, h3⟩, h4⟩ := h
  refine ⟨fits_spec tys shapes h1, ?_, ho, ?_, ?_⟩
  · intro v hv
    exact h2 v (by simpa [mkG] using hv)
  · intro d e n hd he
    rcases h3 _ hd _ he with (h5 | h5) | h5
    · simp at h5
    · simp at h5
    · exact h5
  · intro d e hq
    exact h4 (d, e) (by simpa [mkG] using hq)

end Verif.Dims
