import Verif.Names.Lemmas

/-!
# C114: operations have names of their own

Reports, profiles and placement files refer to operations by name.
-/

namespace Verif.Props

open Verif.Names

/-- Operation `i` has a name that no earlier operation has. -/
def OwnName (p : List Node) (i : ℕ) : Prop :=
  ∃ n x, p[i]? = some n ∧ n.attr = some x ∧ x ≠ [] ∧ ∀ j < i, ∀ m, p[j]? = some m → m.named → m.attr ≠ some x

/-- The pass that sets names ends, whatever the order of its set. Afterwards every operation that should have a name has
one that is not empty, no two have the same, an operation with a name of its own has kept it, and nothing but names of
operations that should have one has changed. -/
theorem C114_names (p : List Node) (order : List ℕ) (ho : Order (collect p 0 ([], [])).2 order) :
    ∃ (bound : ℕ) (q : List Node), (∀ fuel ≥ bound, setNames fuel p order = some q) ∧ q.length = p.length ∧
      (∀ (i : ℕ) (n : Node), q[i]? = some n → n.named → ∃ x, n.attr = some x ∧ x ≠ []) ∧
      (∀ (i j : ℕ) (n m : Node), q[i]? = some n → q[j]? = some m → n.named → m.named → i ≠ j → n.attr ≠ m.attr) ∧
      (∀ i, OwnName p i → q[i]? = p[i]?) ∧
      (∀ (i : ℕ) (n : Node), p[i]? = some n → ∃ x, q[i]? = some { n with attr := x } ∧ (n.named = false → x = n.attr)) := by
  have hw := walked p
  set names := (collect p 0 ([], [])).1 with hnames
  set need := (collect p 0 ([], [])).2 with hneed
  have hlt : ∀ i ∈ order, i < p.length := by
    intro i hi
    obtain ⟨m, hm, _⟩ := (hw.need i).1 (ho.1.subset hi)
    exact (List.getElem?_eq_some_iff.1 hm).1
  have hnd : order.Nodup := ho.1.nodup_iff.2 hw.nodup
  have hmem : ∀ i, i ∈ order ↔ i ∈ need := fun i => ho.1.mem_iff
  have hex := fun fuel (hf : names.length < fuel) => assign_spec (need := need) hf order 0 p hnd hlt
  obtain ⟨q, hq, hlen, hout, b, k, hin, hk, hd⟩ := hex (names.length + 1) (by omega)
  have hfuel : ∀ fuel ≥ names.length + 1, setNames fuel p order = some q := by
    intro fuel hf
    have hmono : ∀ (f g : ℕ), f ≤ g → ∀ op id r, search names op f id = some r → search names op g id = some r := by
      intro f
      induction f with
      | zero => intro g _ op id r h; simp [search] at h
      | succ f ih =>
        intro g hg op id r h
        obtain ⟨g, rfl⟩ : ∃ g', g = g' + 1 := ⟨g - 1, by omega⟩
        rw [search] at h ⊢
        split_ifs at h ⊢ with hc
        · exact ih g (by omega) op _ r h
        · exact h
    have hgen : ∀ p' n id, generate fuel p' names need n id = generate (names.length + 1) p' names need n id := by
      intro p' n id
      rw [generate, generate]
      split_ifs with hc
      · obtain ⟨r, hr⟩ := search_ends names n.opName (id + 1) (Nat.lt_succ_self names.length)
        rw [hr]
        exact hmono _ _ hf _ _ _ hr
      · rfl
    have hass : ∀ is id p', assign fuel names need is id p' = assign (names.length + 1) names need is id p' := by
      intro is
      induction is with
      | nil => intro id p'; rfl
      | cons i is ih =>
        intro id p'
        rw [assign, assign]
        rcases p'[i]? with _ | n
        · rfl
        · simp only [hgen]
          rcases generate (names.length + 1) p' names need n id with _ | ⟨s, id'⟩
          · rfl
          · exact ih _ _
    rw [setNames, ← hnames, ← hneed, hass]
    exact hq
  -- the name of an operation afterwards
  have hname : ∀ i n, q[i]? = some n → n.named →
      (i ∈ order ∧ n.attr = some (candidate (b i) (k i)) ∧ candidate (b i) (k i) ∉ names) ∨
      (i ∉ order ∧ p[i]? = some n ∧ ∃ x, n.attr = some x ∧ x ≠ [] ∧ x ∈ names ∧
        ∀ j < i, ∀ m, p[j]? = some m → m.named → m.attr ≠ some x) := by
    intro i n hn hnn
    by_cases hi : i ∈ order
    · refine Or.inl ⟨hi, ?_, (hk i hi).1⟩
      rw [hin i hi] at hn
      obtain ⟨m, _, rfl⟩ := Option.map_eq_some_iff.1 hn
      rfl
    · rw [hout i hi] at hn
      have h1 := mt (hmem i).2 hi
      rw [hw.need] at h1
      push Not at h1
      obtain ⟨x, hx, h2, h3⟩ := h1 n hn hnn
      exact Or.inr ⟨hi, hn, x, hx, h2, (hw.names x).2 ⟨h2, n, List.mem_of_getElem? hn, hnn, hx⟩, h3⟩
  refine ⟨names.length + 1, q, hfuel, hlen, ?_, ?_, ?_, ?_⟩
  · intro i n hn hnn
    rcases hname i n hn hnn with ⟨_, h, _⟩ | ⟨_, _, x, h, h2, _⟩
    · exact ⟨_, h, candidate_ne_nil _ _⟩
    · exact ⟨x, h, h2⟩
  · intro i j n m hn hm hnn hmn hij heq
    rcases hname i n hn hnn with ⟨hi, h, h2⟩ | ⟨hi, hpi, x, h, h2, hxn, h3⟩ <;>
      rcases hname j m hm hmn with ⟨hj, h', h2'⟩ | ⟨hj, hpj, x', h', h2', hxn', h3'⟩
    · rw [h, h'] at heq
      exact hd i hi j hj hij (candidate_id (by simpa using heq))
    · rw [h, h'] at heq
      obtain rfl : candidate (b i) (k i) = x' := by simpa using heq
      exact h2 hxn'
    · rw [h, h'] at heq
      obtain rfl : x = candidate (b j) (k j) := by simpa using heq
      exact h2' hxn
    · rcases Nat.lt_or_gt_of_ne hij with hlt | hlt
      · exact h3' i hlt n hpi hnn (heq.trans h')
      · exact h3 j hlt m hpj hmn (heq.symm.trans h)
  · rintro i ⟨n, x, hn, hx, hx0, hfirst⟩
    apply hout
    rw [hmem, hw.need]
    rintro ⟨n', hn', hnn, h⟩
    rw [hn] at hn'
    cases hn'
    rcases h x hx with h | ⟨j, hj, m, hm, hmn, hma⟩
    · exact hx0 h
    · exact hfirst j hj m hm hmn hma
  · intro i n hn
    by_cases hi : i ∈ order
    · refine ⟨some (candidate (b i) (k i)), by rw [hin i hi, hn]; rfl, ?_⟩
      intro hnn
      obtain ⟨m, hm, hmn, _⟩ := (hw.need i).1 ((hmem i).1 hi)
      rw [hn] at hm
      cases hm
      simp [hnn] at hmn
    · exact ⟨n.attr, by rw [hout i hi, hn], fun _ => rfl⟩

/-- Removing common subexpressions keeps the names of the operations that stay. Assumed of MLIR's pass: every operation
it leaves was there before, with the same attributes. -/
theorem C114_cse {R : Type} (cse : List (COp R) → Option (List (COp R)))
    (hcse : ∀ l l', cse l = some l' → ∀ o ∈ l', ∃ o' ∈ l, o'.addr = o.addr ∧ o'.named = o.named ∧ o'.attr = o.attr)
    (l l' : List (COp R)) (haddr : (l.map COp.addr).Nodup) (h : cseNames cse l = some l') :
    ∀ o ∈ l', ∃ o' ∈ l, o'.addr = o.addr ∧ o'.named = o.named ∧ o'.attr = o.attr := by
  obtain ⟨r, hr, rfl⟩ := Option.map_eq_some_iff.1 h
  intro o ho
  simp only [restore, List.mem_map] at ho
  obtain ⟨o1, ho1, rfl⟩ := ho
  obtain ⟨o2, ho2, ha, hn, hat⟩ := hcse _ _ hr o1 ho1
  simp only [strip, List.mem_map] at ho2
  obtain ⟨o3, ho3, rfl⟩ := ho2
  refine ⟨o3, ho3, ?_⟩
  by_cases h3 : o3.named
  · rw [if_pos h3] at ha hn hat
    simp only at ha hn hat
    have h1 : o1.named = true := hn ▸ h3
    have hf : (l.find? fun o => o.named && o.addr == o1.addr) = some o3 := by
      rcases hfe : l.find? (fun o => o.named && o.addr == o1.addr) with _ | o4
      · have := List.find?_eq_none.1 hfe o3 ho3
        simp [h3, ha] at this
      · have h4 := List.find?_some hfe
        simp only [Bool.and_eq_true, beq_iff_eq] at h4
        rw [hfe, List.inj_on_of_nodup_map haddr (List.mem_of_find?_eq_some hfe) ho3 (by rw [h4.2, ha])]
    rw [if_pos h1, saved, hf]
    rcases h3a : o3.attr with _ | a
    · simp only [Option.bind_some, h3a]
      exact ⟨ha, hn, by rw [hat]⟩
    · simp only [Option.bind_some, h3a]
      exact ⟨ha, hn, trivial⟩
  · rw [if_neg h3] at ha hn hat
    have h1 : ¬ o1.named = true := hn ▸ h3
    rw [if_neg h1]
    exact ⟨ha, hn, hat⟩

/-! ### A program on which something happens -/

/-- Two operations with the same name, one without, and one that already has the name that the second would get. -/
def sampleNodes : List Node :=
  [⟨true, false, ['A'], some ['x'], .other, none⟩, ⟨true, false, ['B'], some ['x'], .other, none⟩,
    ⟨true, false, ['C'], none, .other, some 0⟩, ⟨true, false, ['D'], some ['x', '_', '0'], .other, none⟩,
    ⟨false, true, ['E'], none, .other, none⟩]

example : Order (collect sampleNodes 0 ([], [])).2 [1, 2] ∧ ((setNames 9 sampleNodes [1, 2]).map fun q => q.map Node.attr) =
    some [some ['x'], some ['B', '_', '1'], some ['x', '_', 'C', '_', '2'], some ['x', '_', '0'], none] :=
  ⟨⟨by decide +kernel, by decide +kernel⟩, by decide +kernel⟩

example : cseNames (fun l => some (l.take 1)) [(⟨1, true, some ['x'], 0⟩ : COp ℕ), ⟨2, true, some ['y'], 0⟩] =
    some [⟨1, true, some ['x'], 0⟩] := by rfl

/-! ### Where the property fails -/

/-- Thirty-three operations without names. -/
def manyNodes : List Node := List.replicate 33 ⟨true, false, ['A'], none, .other, none⟩

/-- The names depend on the addresses of the operations in the compiler's memory: two compilations of the same model
may name operations differently. -/
theorem C114_same_names_false : ∃ p o1 o2 q1 q2, Order (collect p 0 ([], [])).2 o1 ∧ Order (collect p 0 ([], [])).2 o2 ∧
    setNames (p.length + 1) p o1 = some q1 ∧ setNames (p.length + 1) p o2 = some q2 ∧ q1 ≠ q2 := by
  have h : (setNames 34 manyNodes (List.range 33)).isSome ∧ (setNames 34 manyNodes (List.range 33).reverse).isSome ∧
      setNames 34 manyNodes (List.range 33) ≠ setNames 34 manyNodes (List.range 33).reverse ∧
      (collect manyNodes 0 ([], [])).2 = List.range 33 := by decide +kernel
  obtain ⟨h1, h2, h3, h4⟩ := h
  obtain ⟨q1, hq1⟩ := Option.isSome_iff_exists.1 h1
  obtain ⟨q2, hq2⟩ := Option.isSome_iff_exists.1 h2
  refine ⟨manyNodes, _, _, q1, q2, ?_, ?_, hq1, hq2, ?_⟩
  · rw [h4]; exact ⟨List.Perm.refl _, fun _ => rfl⟩
  · rw [h4]; exact ⟨List.reverse_perm _, fun h => absurd h (by simp)⟩
  · rintro rfl; exact h3 (hq1.trans hq2.symm)

/-- With at most 32 operations to name, the names depend only on the model. -/
theorem C114_same_names_partial (p : List Node) (h : (collect p 0 ([], [])).2.length ≤ 32) (o1 o2 : List ℕ)
    (h1 : Order (collect p 0 ([], [])).2 o1) (h2 : Order (collect p 0 ([], [])).2 o2) (fuel : ℕ) :
    setNames fuel p o1 = setNames fuel p o2 := by
  rw [h1.2 h, h2.2 h]

end Verif.Props
