import Verif.Builder.ImportTop

/-!
The import of valid graphs without calls succeeds.
-/

namespace Verif.Builder

variable {O L : Type}

/-- The names in scope are those of the symbol table. -/
def Scoped (scope : List String) (sc : List Scope) : Prop := sc ≠ [] ∧ ∀ x, x ≠ "" → (getByName sc x = none ↔ x ∉ scope)

theorem Scoped.bind {scope : List String} {sc : List Scope} (h : Scoped scope sc) (names : List String) (l : List (String × ℕ))
    (hl : l.map (·.1) = names.filter (· ≠ "")) (hnew : ∀ x ∈ names, x ≠ "" → x ∉ scope) (hnd : (names.filter (· ≠ "")).Nodup) :
    ∃ sc', addMappings sc l = some sc' ∧ Scoped (scope ++ names) sc' := by
  have hmem : ∀ p ∈ l, p.1 ∈ names ∧ p.1 ≠ "" := by
    intro p hp
    have : p.1 ∈ names.filter (· ≠ "") := hl ▸ List.mem_map_of_mem hp
    rw [List.mem_filter] at this
    exact ⟨this.1, by simpa using this.2⟩
  have hnone : ∀ p ∈ l, getByName sc p.1 = none := fun p hp => (h.2 p.1 (hmem p hp).2).2 (hnew _ (hmem p hp).1 (hmem p hp).2)
  obtain ⟨sc', e, el⟩ := addMappings_ok l sc h.1 (by rw [hl]; exact hnd) hnone
  obtain ⟨g1, g2, g3⟩ := getByName_adds l sc sc' e
  refine ⟨sc', e, ?_, ?_⟩
  · intro e'
    rw [e'] at el
    exact h.1 (List.length_eq_zero_iff.1 el.symm)
  · intro x hx
    by_cases hxn : x ∈ names
    · have : x ∈ l.map (·.1) := by
        rw [hl, List.mem_filter]
        exact ⟨hxn, by simpa using hx⟩
      obtain ⟨p, hp, rfl⟩ := List.mem_map.1 this
      rw [g2 (by rw [hl]; exact hnd) p hp (hnone p hp)]
      simp [hxn]
    · rw [g1 x (by rw [hl, List.mem_filter]; exact fun h => hxn h.1), h.2 x hx]
      simp [hxn]

theorem zip_names (names : List String) (ids : List ℕ) (h : names.length ≤ ids.length) :
    (namedResults names ids).map (·.1) = names.filter (· ≠ "") := by
  unfold namedResults
  rw [names_filter, List.map_fst_zip h]

mutual
theorem importNode_ok (ar : Arity O) (call : CallImport O L) (scope : List String) (sc : List Scope) (n : ℕ) (h : Scoped scope sc) :
    ∀ nd : ONode O L, NodeOk (fun _ => none) scope nd → ∃ r, importNode ar call sc n nd = some r ∧ Scoped (scope ++ nd.outs) r.2.1
  | .mk (.prim o) ins outs graphs, hok => by
    rw [NodeOk] at hok
    obtain ⟨_, k2, k3, _, k5⟩ := hok
    simp only [importNode]
    obtain ⟨q, hq⟩ := importGraphs_ok ar call scope sc
      ((getNodeInputs (O := O) (L := L) sc ins n).2.2 + missing (ar.operands o) (getNodeInputs (O := O) (L := L) sc ins n).1.length +
        (List.range' ((getNodeInputs (O := O) (L := L) sc ins n).2.2 + missing (ar.operands o) (getNodeInputs (O := O) (L := L) sc ins n).1.length)
          (numResults (ar.results o) outs.length)).length) h graphs k5
    rw [hq, Option.bind_some]
    obtain ⟨sc', e1, e2⟩ := h.bind outs _ (zip_names outs
      (List.range' ((getNodeInputs (O := O) (L := L) sc ins n).2.2 + missing (ar.operands o) (getNodeInputs (O := O) (L := L) sc ins n).1.length)
          (numResults (ar.results o) outs.length)) (by simp [numResults])) k2 k3
    rw [e1]
    exact ⟨_, rfl, e2⟩
  | .mk (.call f) ins outs gs, hok => by
    rw [NodeOk] at hok
    obtain ⟨fn, hfn, _⟩ := hok.2.2.2.1
    simp at hfn
theorem importNodes_ok (ar : Arity O) (call : CallImport O L) (scope : List String) (sc : List Scope) (n : ℕ) (h : Scoped scope sc) :
    ∀ nds : List (ONode O L), NodesOk (fun _ => none) scope nds →
      ∃ r, importNodes ar call sc n nds = some r ∧ Scoped (scope ++ nds.flatMap ONode.outs) r.2.1
  | [], _ => ⟨([], sc, n), rfl, by simpa using h⟩
  | nd :: nds, hok => by
    rw [NodesOk] at hok
    obtain ⟨p, e1, e2⟩ := importNode_ok ar call scope sc n h nd hok.1
    obtain ⟨q, f1, f2⟩ := importNodes_ok ar call _ p.2.1 p.2.2 e2 nds hok.2
    refine ⟨_, by rw [importNodes, e1, Option.bind_some, f1]; rfl, ?_⟩
    rw [List.flatMap_cons, ← List.append_assoc]
    exact f2
theorem importGraph_ok' (ar : Arity O) (call : CallImport O L) (scope : List String) (sc : List Scope) (n : ℕ)
    (h : ∀ x, x ≠ "" → (getByName sc x = none ↔ x ∉ scope)) :
    ∀ g : OGraph O L, GraphOk (fun _ => none) scope g → ∃ r, importGraph ar call sc n g = some r
  | .mk inits inputs nodes outputs, hok => by
    rw [GraphOk] at hok
    simp only [importGraph]
    revert hok
    generalize (inputs.filter fun x => !(inits.any fun p => p.1 == x)) = free
    rintro ⟨k1, k2, k3, k4, k5⟩
    rw [List.nodup_append] at k2
    have filt : ∀ l : List String, (∀ x ∈ l, x ≠ "") → l.filter (· ≠ "") = l := fun l hl =>
      List.filter_eq_self.2 fun x hx => by simpa using hl x hx
    have hnames : ∀ x ∈ inits.map (·.1), x ≠ "" := fun x hx e => k1 (List.mem_append_left _ (e ▸ hx))
    have hfree : ∀ x ∈ free, x ≠ "" := fun x hx e => k1 (List.mem_append_right _ (e ▸ hx))
    have s0 : Scoped scope (sc ++ [[]]) := ⟨by simp, fun x hx => by rw [getByName_push]; exact h x hx⟩
    obtain ⟨s1, e1, f1⟩ := s0.bind (inits.map (·.1)) ((inits.zipIdx n).map fun p => (p.1.1, p.2))
      (by
        rw [filt _ hnames, List.map_map, List.zipIdx_eq_zip_range']
        rw [show ((fun x : String × ℕ => x.1) ∘ fun p : (String × L) × ℕ => (p.1.1, p.2)) = (fun p : String × L => p.1) ∘ Prod.fst from rfl,
          ← List.map_map, List.map_fst_zip (by simp)])
      (fun x hx _ => k3 x (List.mem_append_left _ hx)) (by rw [filt _ hnames]; exact k2.1)
    obtain ⟨s2, e2, f2⟩ := f1.bind free (free.zip (List.range' (n + inits.length) free.length)) (by rw [filt _ hfree, List.map_fst_zip (by simp)])
      (fun x hx _ hm => by
        rcases List.mem_append.1 hm with h | h
        · exact k3 x (List.mem_append_right _ hx) h
        · exact k2.2.2 x h x hx rfl) (by rw [filt _ hfree]; exact k2.2.1)
    rw [List.append_assoc] at f2
    obtain ⟨q, e3, f3⟩ := importNodes_ok ar call _ s2 (n + inits.length + free.length) f2 nodes k4
    rw [e1, Option.bind_some, e2, Option.bind_some, e3, Option.bind_some]
    have : ∀ outputs : List String, (∀ x ∈ outputs, x ≠ "" ∧ x ∈ scope ++ (inits.map (·.1) ++ free) ++ nodes.flatMap ONode.outs) →
        ∃ rets, outputs.mapM (getByName q.2.1) = some rets := by
      intro outputs
      induction outputs with
      | nil => intro _; exact ⟨[], rfl⟩
      | cons x outputs ih =>
        intro hk
        obtain ⟨rs, hrs⟩ := ih fun y hy => hk y (by simp [hy])
        obtain ⟨hx1, hx2⟩ := hk x (by simp)
        cases hg : getByName q.2.1 x with
        | none => exact absurd hx2 ((f3.2 x hx1).1 hg)
        | some i => exact ⟨i :: rs, by rw [List.mapM_cons, hg, hrs]; rfl⟩
    obtain ⟨rets, hr⟩ := this outputs k5
    rw [hr]
    exact ⟨_, rfl⟩
theorem importGraphs_ok (ar : Arity O) (call : CallImport O L) (scope : List String) (sc : List Scope) (n : ℕ) (h : Scoped scope sc) :
    ∀ gs : List (OGraph O L), GraphsOk (fun _ => none) scope gs → ∃ r, importGraphs ar call sc n gs = some r
  | [], _ => ⟨([], n), rfl⟩
  | g :: gs, hok => by
    rw [GraphsOk] at hok
    obtain ⟨p, e1⟩ := importGraph_ok' ar call scope sc n h.2 g hok.1
    obtain ⟨q, e2⟩ := importGraphs_ok ar call scope sc p.2 h gs hok.2
    exact ⟨_, by rw [importGraphs, e1, Option.bind_some, e2]; rfl⟩
end

end Verif.Builder
