import Verif.Dims.RemoveSpec
import Verif.Dims.OffLemmas

namespace Verif.Dims

theorem better_fold (g : Graph) : ∀ (cs : List Val) (f0 : Option Val) (f : Val), cs.foldl (better g) f0 = some f →
    (f ∈ cs ∨ f0 = some f) ∧ (∀ c ∈ cs, pos g f ≤ pos g c) ∧ ∀ f1, f0 = some f1 → pos g f ≤ pos g f1
  | [], f0, f, h => by simp only [List.foldl_nil] at h; subst h; simp
  | c :: cs, f0, f, h => by
    rw [List.foldl_cons] at h
    obtain ⟨h1, h2, h3⟩ := better_fold g cs _ f h
    cases f0 with
    | none =>
      simp only [better] at h1 h3
      refine ⟨?_, ?_, by simp⟩
      · rcases h1 with h1 | h1
        · exact .inl (by simp [h1])
        · simp only [Option.some.injEq] at h1; exact .inl (by simp [h1])
      · intro x hx
        rcases List.mem_cons.1 hx with rfl | hx
        · exact h3 _ rfl
        · exact h2 x hx
    | some f1 =>
      simp only [better] at h1 h3
      by_cases hlt : pos g c < pos g f1
      · simp only [hlt, if_true] at h1 h3
        have h4 := h3 c rfl
        refine ⟨?_, ?_, ?_⟩
        · rcases h1 with h1 | h1
          · exact .inl (by simp [h1])
          · simp only [Option.some.injEq] at h1; exact .inl (by simp [h1])
        · intro x hx
          rcases List.mem_cons.1 hx with rfl | hx
          · exact h4
          · exact h2 x hx
        · rintro _ ⟨⟩; omega
      · simp only [hlt, if_false] at h1 h3
        have h4 := h3 f1 rfl
        refine ⟨?_, ?_, ?_⟩
        · rcases h1 with h1 | h1
          · exact .inl (by simp [h1])
          · exact .inr h1
        · intro x hx
          rcases List.mem_cons.1 hx with rfl | hx
          · omega
          · exact h2 x hx
        · rintro _ ⟨⟩; exact h4

theorem better_some (g : Graph) : ∀ (cs : List Val) (f : Val), ∃ f', cs.foldl (better g) (some f) = some f'
  | [], f => ⟨f, rfl⟩
  | c :: cs, f => by
    rw [List.foldl_cons]
    simp only [better]
    split_ifs
    · exact better_some g cs c
    · exact better_some g cs f

theorem firstDim_some {g : Graph} {cs : List Val} {f : Val} (h : firstDim g cs = some f) :
    f ∈ cs ∧ ∀ c ∈ cs, pos g f ≤ pos g c := by
  obtain ⟨h1, h2, _⟩ := better_fold g cs none f h
  exact ⟨h1.resolve_right (by simp), h2⟩

theorem firstDim_none {g : Graph} {cs : List Val} (h : firstDim g cs = none) : cs = [] := by
  cases cs with
  | nil => rfl
  | cons c cs =>
    unfold firstDim at h
    rw [List.foldl_cons] at h
    obtain ⟨f, hf⟩ := better_some g cs c
    simp only [better] at h
    rw [hf] at h; cases h

/-- What stands for a dimension is a Dim operation whose value is the dimension. -/
theorem candidate_value {g : Graph} {r : Run} (hw : WellFormed g) (hx : Executes g r) {pick : Val → ℕ → Option Val}
    (hp : IsPick g pick) {d : Dim} {c : Val} (h : candidate g pick d = some c) :
    ∃ u, r.shape c = [1] ∧ r.data c = [u] ∧ size g r d = some u := by
  unfold candidate at h
  rcases hd : defOp g d.1 with _ | o
  · simp [hd] at h
  simp only [hd] at h
  obtain ⟨ho, hv⟩ := defOp_mem hd
  have viaPick : pick d.1 d.2 = some c → ∃ u, r.shape c = [1] ∧ r.data c = [u] ∧ size g r d = some u := by
    intro h
    obtain ⟨o', ho', hk, hopd, hres⟩ := hp.1 _ _ _ h
    have hr := hx.runs o' ho'
    unfold OpRuns at hr
    rw [hk] at hr
    obtain ⟨x, y, n, e1, e2, e3, e4, e5⟩ := hr
    rw [hopd] at e1; rw [hres] at e2
    simp only [List.cons.injEq, Option.some.injEq, and_true] at e1 e2
    subst e1 e2
    have hty := (hw.dimTy o' ho' d.2 hk).2 d.1 (by simp [Op.opd, hopd])
    refine ⟨n, e4, e5, ?_⟩
    unfold size
    rw [if_neg, e3]
    · rfl
    · intro e
      rw [e] at hty
      rcases hd2 : d.2 with _ | k
      · simp [hd2] at hty
      · simp [hd2] at hty
  cases hk : o.kind with
  | dim a =>
    simp only [hk, Option.some.injEq] at h
    subst h
    have hr := hx.runs o ho
    unfold OpRuns at hr
    rw [hk] at hr
    obtain ⟨x, y, n, e1, e2, e3, e4, e5⟩ := hr
    rw [e2] at hv
    simp only [List.mem_singleton] at hv
    subst hv
    refine ⟨n, e4, e5, ?_⟩
    unfold size
    rw [if_pos ((hw.dimTy o ho a hk).1 d.1 (by simp [e2])), e5]
    rfl
  | _ => simp only [hk] at h; exact viaPick h

theorem candidate_isDim {g : Graph} {pick : Val → ℕ → Option Val} (hp : IsPick g pick) {d : Dim} {c : Val}
    (h : candidate g pick d = some c) : IsDim g c := by
  unfold candidate at h
  rcases hd : defOp g d.1 with _ | o
  · simp [hd] at h
  simp only [hd] at h
  obtain ⟨ho, hv⟩ := defOp_mem hd
  have viaPick : pick d.1 d.2 = some c → IsDim g c := by
    intro h
    obtain ⟨o', ho', hk, _, hres⟩ := hp.1 _ _ _ h
    exact ⟨o', ho', ⟨_, hk⟩, by simp [hres]⟩
  cases hk : o.kind with
  | dim a =>
    simp only [hk, Option.some.injEq] at h
    subst h
    exact ⟨o, ho, ⟨_, hk⟩, hv⟩
  | _ => simp only [hk] at h; exact viaPick h

/-! ### Renaming -/

theorem rename_id (g : Graph) : rename id g = g := by
  have : Op.rename id = id := by
    funext o
    simp [Op.rename]
  simp [rename, this]

theorem rename_rename (f h : Val → Val) (g : Graph) : rename h (rename f g) = rename (h ∘ f) g := by
  simp only [rename, List.map_map]
  congr 1
  apply List.map_congr_left
  intro o _
  simp [Op.rename, Function.comp_def]

/-- What is kept of a renaming. -/
def Fine (g : Graph) (ρ : Val → Val) : Prop :=
  ∀ x, ρ x = x ∨ (IsDim g x ∧ IsDim g (ρ x) ∧ pos g (ρ x) ≤ pos g x ∧ AlwaysEqual g (ρ x) x)

theorem fine_step {g : Graph} {ρ : Val → Val} (h : Fine g ρ) {v f : Val} (hv : IsDim g v) (hf : IsDim g f)
    (hp : pos g f ≤ pos g v) (he : AlwaysEqual g f v) : Fine g (subst v f ∘ ρ) := by
  intro x
  simp only [Function.comp, subst]
  by_cases e : ρ x = v
  · simp only [e, if_true]
    right
    rcases h x with h | ⟨h1, h2, h3, h4⟩
    · rw [h] at e; subst e; exact ⟨hv, hf, hp, he⟩
    · rw [e] at h3 h4
      refine ⟨h1, hf, by omega, fun r hx hpl => ?_⟩
      exact ⟨(he r hx hpl).1.trans (h4 r hx hpl).1, (he r hx hpl).2.trans (h4 r hx hpl).2⟩
  · simp only [e, if_false]
    exact h x

/-- The replacements for one set. -/
theorem mergeSet_rename {g : Graph} {f : Val} (hf : IsDim g f) : ∀ (cs : List Val) (ρ : Val → Val), Fine g ρ →
    (∀ c ∈ cs, IsDim g c ∧ pos g f ≤ pos g c ∧ AlwaysEqual g f c) →
    ∃ ρ', mergeSet f cs (rename ρ g) = rename ρ' g ∧ Fine g ρ' ∧ (∀ c ∈ cs, c ≠ f → ∀ x, ρ' x ≠ c) ∧
      ∀ x, ρ' x = f ∨ ρ' x = ρ x
  | [], ρ, h, _ => ⟨ρ, rfl, h, by simp, fun _ => .inr rfl⟩
  | c :: cs, ρ, h, hc => by
    unfold mergeSet
    rw [List.foldl_cons]
    by_cases e : c = f
    · simp only [e, ne_eq, not_true_eq_false, if_false]
      obtain ⟨ρ', h1, h2, h3, h4⟩ := mergeSet_rename hf cs ρ h (fun c hc' => hc c (by simp [hc']))
      refine ⟨ρ', h1, h2, ?_, h4⟩
      intro c' hc' hne
      rcases List.mem_cons.1 hc' with rfl | hc'
      · exact absurd rfl hne
      · exact h3 c' hc' hne
    · simp only [ne_eq, e, not_false_eq_true, if_true]
      rw [rename_rename]
      obtain ⟨i1, i2, i3⟩ := hc c (by simp)
      obtain ⟨ρ', h1, h2, h3, h4⟩ := mergeSet_rename hf cs _ (fine_step h i1 hf i2 i3) (fun c hc' => hc c (by simp [hc']))
      refine ⟨ρ', h1, h2, ?_, ?_⟩
      · intro c' hc' hne x
        rcases List.mem_cons.1 hc' with rfl | hc'
        · rcases h4 x with h4 | h4
          · rw [h4]; exact fun e => hne e.symm
          · rw [h4]
            simp only [Function.comp, subst]
            split_ifs with e2
            · exact fun e => hne e.symm
            · exact e2
        · exact h3 c' hc' hne x
      · intro x
        rcases h4 x with h4 | h4
        · exact .inl h4
        · rw [h4]
          simp only [Function.comp, subst]
          split_ifs
          · exact .inl rfl
          · exact .inr rfl

/-- All sets. -/
theorem sets_rename {g : Graph} (hw : WellFormed g) {pick : Val → ℕ → Option Val} (hp : IsPick g pick) :
    ∀ (m : List (List Dim)) (ρ : Val → Val), Fine g ρ → (∀ r, Executes g r → Plain g r → Sound g r m) →
    ∃ ρ', m.foldl (removeInSet g pick) (rename ρ g) = rename ρ' g ∧ Fine g ρ' ∧
      (∀ x, ρ' x = ρ x ∨ ∃ S ∈ m, firstDim g (S.filterMap (candidate g pick)) = some (ρ' x)) ∧
      (Disjoint g pick m → ∀ S ∈ m, ∀ c ∈ S.filterMap (candidate g pick),
        firstDim g (S.filterMap (candidate g pick)) ≠ some c → ∀ x, ρ' x ≠ c)
  | [], ρ, h, _ => ⟨ρ, rfl, h, fun _ => .inl rfl, by simp⟩
  | S :: m, ρ, h, hs => by
    rw [List.foldl_cons]
    have step : ∃ ρ1, removeInSet g pick (rename ρ g) S = rename ρ1 g ∧ Fine g ρ1 ∧
        (∀ x, ρ1 x = ρ x ∨ firstDim g (S.filterMap (candidate g pick)) = some (ρ1 x)) ∧
        ∀ c ∈ S.filterMap (candidate g pick), firstDim g (S.filterMap (candidate g pick)) ≠ some c → ∀ x, ρ1 x ≠ c := by
      unfold removeInSet
      cases hf : firstDim g (S.filterMap (candidate g pick)) with
      | none =>
        have := firstDim_none hf
        exact ⟨ρ, rfl, h, fun _ => .inl rfl, by simp [this]⟩
      | some f =>
        obtain ⟨hfm, hle⟩ := firstDim_some hf
        obtain ⟨df, hdf, hcf⟩ := List.mem_filterMap.1 hfm
        obtain ⟨ρ1, h1, h2, h3, h4⟩ := mergeSet_rename (candidate_isDim hp hcf) (S.filterMap (candidate g pick)) ρ h (by
          intro c hc
          obtain ⟨dc, hdc, hcc⟩ := List.mem_filterMap.1 hc
          refine ⟨candidate_isDim hp hcc, hle c hc, fun r hx hpl => ?_⟩
          obtain ⟨u, a1, a2, a3⟩ := candidate_value hw hx hp hcf
          obtain ⟨u', b1, b2, b3⟩ := candidate_value hw hx hp hcc
          have := hs r hx hpl S (by simp) df hdf dc hdc
          rw [a3, b3, Option.some.injEq] at this
          subst this
          exact ⟨a1.trans b1.symm, a2.trans b2.symm⟩)
        refine ⟨ρ1, h1, h2, ?_, ?_⟩
        · intro x
          rcases h4 x with h4 | h4
          · exact .inr (by rw [h4])
          · exact .inl h4
        · intro c hc hne x
          exact h3 c hc (fun e => hne (by rw [e])) x
    obtain ⟨ρ1, h1, h2, h3, h4⟩ := step
    rw [h1]
    obtain ⟨ρ', i1, i2, i3, i4⟩ := sets_rename hw hp m ρ1 h2 (fun r hx hpl T hT => hs r hx hpl T (by simp [hT]))
    refine ⟨ρ', i1, i2, ?_, ?_⟩
    · intro x
      rcases i3 x with i | ⟨T, hT, i⟩
      · rcases h3 x with h | h
        · exact .inl (i.trans h)
        · exact .inr ⟨S, by simp, by rw [i]; exact h⟩
      · exact .inr ⟨T, by simp [hT], i⟩
    · intro hd T hT c hc hne x
      obtain ⟨hd1, hd2⟩ := List.pairwise_cons.1 hd
      rcases List.mem_cons.1 hT with rfl | hT
      · rcases i3 x with i | ⟨T2, hT2, i⟩
        · rw [i]; exact h4 c hc hne x
        · intro e
          rw [e] at i
          exact hd1 T2 hT2 c hc (firstDim_some i).1
      · exact i4 hd2 T hT c hc hne x

/-! ### Removal -/

theorem erase_ops (g : Graph) : ∀ es : List Val, (es.foldl eraseDim g).ops.Sublist g.ops ∧
    (es.foldl eraseDim g).returned = g.returned ∧ (es.foldl eraseDim g).ty = g.ty ∧ (es.foldl eraseDim g).args = g.args ∧
    ∀ o ∈ g.ops, o ∉ (es.foldl eraseDim g).ops → ∃ y ∈ o.results, y ∈ es ∧ used (es.foldl eraseDim g) y = false := by
  intro es
  induction es generalizing g with
  | nil => exact ⟨List.Sublist.refl _, rfl, rfl, rfl, fun o h h' => absurd h h'⟩
  | cons v es ih =>
    rw [List.foldl_cons]
    obtain ⟨h1, h2, h3, h4, h5⟩ := ih (eraseDim g v)
    have hsub : (eraseDim g v).ops.Sublist g.ops := by
      unfold eraseDim
      split_ifs
      · exact List.Sublist.refl _
      · exact List.filter_sublist
    have hret : (eraseDim g v).returned = g.returned ∧ (eraseDim g v).ty = g.ty ∧ (eraseDim g v).args = g.args := by
      unfold eraseDim
      split_ifs <;> simp
    refine ⟨h1.trans hsub, h2.trans hret.1, h3.trans hret.2.1, h4.trans hret.2.2, ?_⟩
    intro o ho hno
    by_cases hm : o ∈ (eraseDim g v).ops
    · obtain ⟨y, a, b, c⟩ := h5 o hm hno
      exact ⟨y, a, by simp [b], c⟩
    · have hu : used g v = false ∧ v ∈ o.results := by
        unfold eraseDim at hm
        by_cases hu : used g v
        · simp [hu, ho] at hm
        · simp only [hu, Bool.false_eq_true, if_false, List.mem_filter, ho, true_and, decide_eq_true_eq, not_not] at hm
          exact ⟨by simpa using hu, hm⟩
      refine ⟨v, hu.2, by simp, ?_⟩
      have hu1 := hu.1
      unfold used at hu1 ⊢
      simp only [Bool.or_eq_false_iff, List.any_eq_false, decide_eq_true_eq, decide_eq_false_iff_not] at hu1 ⊢
      exact ⟨fun o' ho' => hu1.1 o' ((h1.trans hsub).subset ho'), by rw [h2, hret.1]; exact hu1.2⟩

theorem pos_eq {g : Graph} (h : Ssa g) {i : ℕ} {o : Op} (hi : g.ops[i]? = some o) {x : Val} (hx : x ∈ o.results) :
    pos g x = i := by
  obtain ⟨hlt, rfl⟩ := List.getElem?_eq_some_iff.1 hi
  unfold pos
  rw [List.findIdx_eq hlt]
  refine ⟨by simpa using hx, fun j hj => ?_⟩
  simp only [decide_eq_false_iff_not]
  intro hx2
  exact List.pairwise_iff_getElem.1 h.once j i (by omega) hlt hj x hx2 hx

/-- Renamed programs are in order. -/
theorem rename_ordered {g : Graph} (hs : Ssa g) (ho : Ordered g) {ρ : Val → Val} (hf : Fine g ρ) :
    (rename ρ g).ops.Pairwise (fun o p => ∀ x ∈ p.results, some x ∉ o.operands) ∧
      ∀ o ∈ (rename ρ g).ops, ∀ x ∈ o.results, some x ∉ o.operands := by
  have key : ∀ i j (hi : i < g.ops.length) (hj : j < g.ops.length), i ≤ j → ∀ x ∈ (g.ops[j]).results,
      some x ∉ (Op.rename ρ g.ops[i]).operands := by
    intro i j hi hj hij x hx hm
    simp only [Op.rename, List.mem_map] at hm
    obtain ⟨z, hz, e⟩ := hm
    rw [Option.map_eq_some_iff] at e
    obtain ⟨z, rfl, e⟩ := e
    have hno : ∀ k (hk : k < g.ops.length), i ≤ k → z ∉ (g.ops[k]).results := by
      intro k hk hik hz2
      rcases Nat.lt_or_eq_of_le hik with h | h
      · exact List.pairwise_iff_getElem.1 ho.later i k hi hk h z hz2 hz
      · subst h; exact ho.self _ (List.getElem_mem hi) z hz2 hz
    rcases hf z with h | ⟨h1, h2, h3, _⟩
    · rw [h] at e; subst e; exact hno j hj hij hx
    · obtain ⟨q, hq, _, hzq⟩ := h1
      obtain ⟨k, hk, rfl⟩ := List.getElem_of_mem hq
      have hk2 : k < i := by
        by_contra hc
        exact hno k hk (by omega) hzq
      rw [e, pos_eq hs (List.getElem?_eq_getElem hj) hx, pos_eq hs (List.getElem?_eq_getElem hk) hzq] at h3
      omega
  constructor
  · rw [List.pairwise_iff_getElem]
    intro i j hi hj hij x hx
    simp only [rename, List.length_map] at hi hj
    simp only [rename, List.getElem_map] at hx ⊢
    exact key i j hi hj (by omega) x hx
  · intro o ho2 x hx
    simp only [rename, List.mem_map] at ho2
    obtain ⟨q, hq, rfl⟩ := ho2
    obtain ⟨k, hk, rfl⟩ := List.getElem_of_mem hq
    exact key k k hk hk (by omega) x hx

theorem ordered_of_removes {g g' : Graph} {ρ : Val → Val} (hs : Ssa g) (ho : Ordered g) (h : Removes g g' ρ) : Ordered g' := by
  obtain ⟨h1, h2⟩ := rename_ordered hs ho h.operands
  have defined : ∀ x, (x ∈ g.args ∨ ∃ p ∈ g.ops, x ∈ p.results) → used g' (ρ x) = true →
      ρ x ∈ g'.args ∨ ∃ p ∈ g'.ops, ρ x ∈ p.results := by
    intro x hx hu
    have hd : ρ x ∈ g.args ∨ ∃ p ∈ g.ops, ρ x ∈ p.results := by
      rcases h.operands x with e | ⟨_, ⟨p, hp, _, e⟩, _⟩
      · rwa [e]
      · exact .inr ⟨p, hp, e⟩
    rw [h.same.2]
    rcases hd with hd | ⟨p, hp, hpx⟩
    · exact .inl hd
    right
    by_cases hm : p.rename ρ ∈ g'.ops
    · exact ⟨_, hm, hpx⟩
    · exfalso
      obtain ⟨y, hy, ⟨q, hq, ⟨a, hk⟩, hyq⟩, hu2⟩ := h.removed p hp hm
      obtain ⟨i, hi, rfl⟩ := List.getElem_of_mem hp
      obtain ⟨j, hj, rfl⟩ := List.getElem_of_mem hq
      have e := (pos_eq hs (List.getElem?_eq_getElem hi) hy).symm.trans (pos_eq hs (List.getElem?_eq_getElem hj) hyq)
      subst e
      obtain ⟨w, hw⟩ := hs.single _ hq a hk
      rw [hw] at hy hpx
      simp only [List.mem_singleton] at hy hpx
      rw [hpx, ← hy, hu2] at hu
      cases hu
  refine ⟨?_, h1.sublist h.ops, fun o ho => h2 o (h.ops.subset ho), ?_⟩
  · intro o ho2 x hx
    have hm := h.ops.subset ho2
    obtain ⟨q, hq, rfl⟩ := List.mem_map.1 hm
    have hx2 := hx
    simp only [Op.rename, List.mem_map] at hx
    obtain ⟨z, hz, e⟩ := hx
    rw [Option.map_eq_some_iff] at e
    obtain ⟨z, rfl, rfl⟩ := e
    refine defined z (ho.defined q hq z hz) ?_
    unfold used
    rw [Bool.or_eq_true, List.any_eq_true]
    exact .inl ⟨_, ho2, by simpa using hx2⟩
  · intro x hx
    have hx2 := hx
    rw [h.returned, List.mem_map] at hx
    obtain ⟨z, hz, rfl⟩ := hx
    refine defined z (ho.ret z hz) ?_
    unfold used
    rw [Bool.or_eq_true]
    exact .inr (by simpa using hx2)

end Verif.Dims
