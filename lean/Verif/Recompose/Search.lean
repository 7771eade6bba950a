import Verif.Recompose.GraphLemmas

/-! # The search for convolutions that depend on each other -/

namespace Verif.Recompose

variable {V : Type} {g : Graph V} {before : ℕ → Bool}

theorem pushUsers_vis : ∀ (us : List (Option ℕ)) (wl : List ℕ) (vis : List (Option ℕ)) (u : Option ℕ),
    u ∈ (pushUsers before us (wl, vis)).2 ↔ u ∈ vis ∨ u ∈ us
  | [], wl, vis, u => by simp [pushUsers]
  | v :: us, wl, vis, u => by
    rw [pushUsers]
    by_cases hv : v ∈ vis
    · rw [if_pos hv, pushUsers_vis us]
      simp only [List.mem_cons]
      constructor
      · tauto
      · rintro (h | rfl | h)
        · exact .inl h
        · exact .inl hv
        · exact .inr h
    · rw [if_neg hv, pushUsers_vis us]
      simp only [List.mem_cons]
      tauto

theorem pushUsers_wl : ∀ (us : List (Option ℕ)) (wl : List ℕ) (vis : List (Option ℕ)) (n : ℕ),
    n ∈ (pushUsers before us (wl, vis)).1 ↔ n ∈ wl ∨ (some n ∈ us ∧ some n ∉ vis ∧ before n = true)
  | [], wl, vis, n => by simp [pushUsers]
  | none :: us, wl, vis, n => by
    rw [pushUsers]
    by_cases hv : none ∈ vis
    · rw [if_pos hv, pushUsers_wl us]
      simp
    · rw [if_neg hv, pushUsers_wl us, pushOne]
      simp
  | some v :: us, wl, vis, n => by
    rw [pushUsers]
    by_cases hv : some v ∈ vis
    · rw [if_pos hv, pushUsers_wl us]
      simp only [List.mem_cons, Option.some.injEq]
      constructor
      · tauto
      · rintro (h | ⟨rfl | h, h1, h2⟩)
        · exact .inl h
        · exact absurd hv h1
        · exact .inr ⟨h, h1, h2⟩
    · rw [if_neg hv, pushUsers_wl us, pushOne]
      simp only [List.mem_cons, Option.some.injEq, not_or]
      by_cases hb : before v = true
      · rw [if_pos hb]
        by_cases hnv : n = v
        · subst hnv
          simp [hv, hb]
        · simp [hnv]
      · rw [if_neg hb]
        by_cases hnv : n = v
        · subst hnv
          simp [hb]
        · simp [hnv]

/-- Operations that the search has not met. -/
def unmet (U : List ℕ) (vis : List (Option ℕ)) : ℕ := (U.filter fun n => some n ∉ vis).length

theorem unmet_cons {U : List ℕ} {vis : List (Option ℕ)} {v : ℕ} (hv : some v ∉ vis) (hU : v ∈ U) :
    unmet U (some v :: vis) + 1 ≤ unmet U vis := by
  unfold unmet
  have : (U.filter fun n => some n ∉ some v :: vis) = (U.filter fun n => some n ∉ vis).filter fun n => n ≠ v := by
    rw [List.filter_filter]
    congr 1
    funext n
    simp [List.mem_cons, not_or]
  rw [this]
  refine Nat.succ_le_of_lt ?_
  rw [List.length_filter_lt_length_iff_exists]
  exact ⟨v, List.mem_filter.2 ⟨hU, by simpa using hv⟩, by simp⟩

theorem unmet_none {U : List ℕ} {vis : List (Option ℕ)} : unmet U (none :: vis) = unmet U vis := by
  unfold unmet
  congr 2
  funext n
  simp

theorem pushUsers_measure {U : List ℕ} : ∀ (us : List (Option ℕ)) (wl : List ℕ) (vis : List (Option ℕ)),
    (∀ n, some n ∈ us → n ∈ U) →
    (pushUsers before us (wl, vis)).1.length + unmet U (pushUsers before us (wl, vis)).2 ≤ wl.length + unmet U vis
  | [], wl, vis, _ => le_refl _
  | none :: us, wl, vis, h => by
    rw [pushUsers]
    by_cases hv : none ∈ vis
    · rw [if_pos hv]
      exact pushUsers_measure us wl vis fun n hn => h n (by simp [hn])
    · rw [if_neg hv]
      refine (pushUsers_measure us _ _ fun n hn => h n (by simp [hn])).trans ?_
      rw [unmet_none, pushOne]
  | some v :: us, wl, vis, h => by
    rw [pushUsers]
    by_cases hv : some v ∈ vis
    · rw [if_pos hv]
      exact pushUsers_measure us wl vis fun n hn => h n (by simp [hn])
    · rw [if_neg hv]
      refine (pushUsers_measure us _ _ fun n hn => h n (by simp [hn])).trans ?_
      have := unmet_cons hv (h v (by simp))
      rw [pushOne]
      by_cases hb : before v = true
      · rw [if_pos hb, List.length_cons]; omega
      · rw [if_neg hb]; omega

/-- The search ends. -/
theorem reachLoop_some {uses : ℕ → List (Option ℕ)} {cs U : List ℕ} (h : ∀ c n, some n ∈ uses c → n ∈ U) :
    ∀ (k : ℕ) (wl : List ℕ) (vis : List (Option ℕ)), wl.length + unmet U vis < k →
    ∃ b, reachLoop uses cs before k wl vis = some b
  | 0, _, _, hk => by omega
  | k + 1, [], vis, _ => ⟨false, rfl⟩
  | k + 1, c :: wl, vis, hk => by
    rw [reachLoop]
    split
    · exact ⟨true, rfl⟩
    · refine reachLoop_some h k _ _ ?_
      have := pushUsers_measure (before := before) (uses c) wl vis (h c)
      rw [List.length_cons] at hk
      omega

/-- What is found depends on the start. -/
theorem reachLoop_true {uses : ℕ → List (Option ℕ)} {cs : List ℕ} {c0 : ℕ}
    (hu : ∀ v n, some n ∈ uses v ↔ ∃ op, (n, op) ∈ g.nodes ∧ v ∈ op.args) :
    ∀ (k : ℕ) (wl : List ℕ) (vis : List (Option ℕ)), (∀ n ∈ wl, c0 = n ∨ Dep g c0 n) →
    reachLoop uses cs before k wl vis = some true → ∃ c ∈ cs, Dep g c0 c
  | 0, _, _, _, h => by cases h
  | k + 1, [], vis, _, h => by cases h
  | k + 1, c :: wl, vis, hw, h => by
    rw [reachLoop] at h
    split at h
    · rename_i ha
      obtain ⟨u, hu1, hu2⟩ := List.any_eq_true.1 ha
      rcases u with _ | n
      · simp at hu2
      · simp only [Option.any_some, decide_eq_true_eq] at hu2
        obtain ⟨op, h1, h2⟩ := (hu c n).1 hu1
        exact ⟨n, hu2, dep_trans (hw c (by simp)) h1 h2⟩
    · refine reachLoop_true hu k _ _ ?_ h
      intro n hn
      rcases (pushUsers_wl _ _ _ _).1 hn with hn | ⟨hn, -⟩
      · exact hw n (by simp [hn])
      · obtain ⟨op, h1, h2⟩ := (hu c n).1 hn
        exact .inr (dep_trans (hw c (by simp)) h1 h2)

/-- What is not found does not depend on the start: at the end everything met has been looked at. -/
theorem reachLoop_false {uses : ℕ → List (Option ℕ)} {cs : List ℕ} {c0 : ℕ} :
    ∀ (k : ℕ) (wl : List ℕ) (vis : List (Option ℕ)),
    (∀ n, n = c0 ∨ (some n ∈ vis ∧ before n = true) → n ∈ wl ∨ ∀ m, some m ∈ uses n → some m ∈ vis ∧ m ∉ cs) →
    reachLoop uses cs before k wl vis = some false →
    ∃ vis' : List (Option ℕ), ∀ n, n = c0 ∨ (some n ∈ vis' ∧ before n = true) →
      ∀ m, some m ∈ uses n → some m ∈ vis' ∧ m ∉ cs
  | 0, _, _, _, h => by cases h
  | k + 1, [], vis, hi, _ => ⟨vis, fun n hn => by
      rcases hi n hn with h | h
      · cases h
      · exact h⟩
  | k + 1, c :: wl, vis, hi, h => by
    rw [reachLoop] at h
    split at h
    · cases h
    · rename_i ha
      refine reachLoop_false k _ _ ?_ h
      intro n hn
      have hc : ∀ m, some m ∈ uses c → m ∉ cs := by
        intro m hm hmc
        exact ha (List.any_eq_true.2 ⟨some m, hm, by simpa using hmc⟩)
      by_cases hnc : n = c
      · subst hnc
        exact .inr fun m hm => ⟨(pushUsers_vis _ _ _ _).2 (.inr hm), hc m hm⟩
      · have old : (n = c0 ∨ (some n ∈ vis ∧ before n = true)) →
            n ∈ (pushUsers before (uses c) (wl, vis)).1 ∨
              ∀ m, some m ∈ uses n → some m ∈ (pushUsers before (uses c) (wl, vis)).2 ∧ m ∉ cs := by
          intro hn
          rcases hi n hn with h1 | h1
          · rcases List.mem_cons.1 h1 with h1 | h1
            · exact absurd h1 hnc
            · exact .inl ((pushUsers_wl _ _ _ _).2 (.inl h1))
          · exact .inr fun m hm => ⟨(pushUsers_vis _ _ _ _).2 (.inl (h1 m hm).1), (h1 m hm).2⟩
        rcases hn with rfl | ⟨hn, hb⟩
        · exact old (.inl rfl)
        · by_cases hv : some n ∈ vis
          · exact old (.inr ⟨hv, hb⟩)
          · rcases (pushUsers_vis _ _ _ _).1 hn with h1 | h1
            · exact absurd h1 hv
            · exact .inl ((pushUsers_wl _ _ _ _).2 (.inr ⟨h1, hv, hb⟩))

theorem foldl_max_le {l : List ℕ} : ∀ {a : ℕ}, a ≤ l.foldl max a ∧ ∀ x ∈ l, x ≤ l.foldl max a := by
  induction l with
  | nil => intro a; exact ⟨le_refl _, by intro x hx; cases hx⟩
  | cons y l ih =>
    intro a
    obtain ⟨h1, h2⟩ := ih (a := max a y)
    refine ⟨le_trans (le_max_left _ _) h1, ?_⟩
    intro x hx
    rcases List.mem_cons.1 hx with rfl | hx
    · exact le_trans (le_max_right _ _) h1
    · exact h2 x hx

theorem foldl_max_mem {l : List ℕ} : ∀ {a : ℕ}, l.foldl max a = a ∨ l.foldl max a ∈ l := by
  induction l with
  | nil => intro a; exact .inl rfl
  | cons y l ih =>
    intro a
    rw [List.foldl_cons]
    rcases ih (a := max a y) with h | h
    · rcases max_choice a y with h1 | h1
      · rw [h, h1]; exact .inl rfl
      · rw [h, h1]; exact .inr (by simp)
    · exact .inr (by simp [h])

theorem pos_le_latest {cs : List ℕ} {c : ℕ} (h : c ∈ cs) : pos g c ≤ latest g cs :=
  foldl_max_le.2 _ (List.mem_map_of_mem h)

theorem latest_mem {cs : List ℕ} (h : cs ≠ []) : ∃ c ∈ cs, pos g c = latest g cs := by
  unfold latest
  rcases foldl_max_mem (l := cs.map (pos g)) (a := 0) with h1 | h1
  · obtain ⟨c, hc⟩ := List.exists_mem_of_ne_nil _ h
    refine ⟨c, hc, ?_⟩
    have := (foldl_max_le (l := cs.map (pos g)) (a := 0)).2 _ (List.mem_map_of_mem hc)
    omega
  · obtain ⟨c, h2, h3⟩ := List.mem_map.1 h1
    exact ⟨c, h2, h3⟩

/-- The search tells exactly whether one of the convolutions depends on the given one. -/
theorem reachable_spec {args : List ℕ} {uses : ℕ → List (Option ℕ)} {cs : List ℕ} {c : ℕ}
    (ho : Ordered args g.nodes) (hu : ∀ v, (uses v).Perm (usesOf g v)) (hc : c ∈ cs)
    (hcs : ∀ c ∈ cs, c ∈ g.nodes.map Prod.fst) :
    (reachable g uses cs c = some true ∧ ∃ c' ∈ cs, Dep g c c') ∨
    (reachable g uses cs c = some false ∧ ∀ c' ∈ cs, ¬ Dep g c c') := by
  have hu' : ∀ v n, some n ∈ uses v ↔ ∃ op, (n, op) ∈ g.nodes ∧ v ∈ op.args := fun v n => by
    rw [(hu v).mem_iff, some_mem_usesOf]
  have hargs : c ∉ args := (ordered_iff.1 ho).2.1 c (hcs c hc)
  obtain ⟨b, hb⟩ : ∃ b, reachable g uses cs c = some b := by
    refine reachLoop_some (U := g.nodes.map Prod.fst) ?_ _ _ _ ?_
    · intro v n hn
      obtain ⟨op, h1, -⟩ := (hu' v n).1 hn
      exact List.mem_map_of_mem (f := Prod.fst) h1
    · have : unmet (g.nodes.map Prod.fst) [] ≤ g.nodes.length := by
        unfold unmet
        refine (List.length_filter_le _ _).trans ?_
        rw [List.length_map]
      simp only [List.length_cons, List.length_nil]
      omega
  cases b with
  | true =>
    refine .inl ⟨hb, reachLoop_true (g := g) hu' _ [c] _ ?_ hb⟩
    intro n hn
    exact .inl (List.mem_singleton.1 hn).symm
  | false =>
    refine .inr ⟨hb, ?_⟩
    obtain ⟨vis, hv⟩ := reachLoop_false (c0 := c) _ [c] _ (by
      intro n hn
      rcases hn with rfl | ⟨hn, -⟩
      · exact .inl (by simp)
      · cases hn) hb
    have key : ∀ n, Dep g c n → pos g n ≤ latest g cs → some n ∈ vis ∧ n ∉ cs := by
      intro n hd
      induction hd with
      | @base p hp hb => exact fun _ => hv c (.inl rfl) p.1 ((hu' c p.1).2 ⟨p.2, hp, hb⟩)
      | @step b p hd hp hb ih =>
        intro hle
        have hnb : b ∈ g.nodes.map Prod.fst := by
          cases hd with
          | base hp' _ => exact List.mem_map_of_mem hp'
          | step _ hp' _ => exact List.mem_map_of_mem hp'
        have hlt := (dep_pos ho (Dep.base hp hb) ((ordered_iff.1 ho).2.1 b hnb)).1
        refine hv b (.inr ⟨(ih (by omega)).1, ?_⟩) p.1 ((hu' b p.1).2 ⟨p.2, hp, hb⟩)
        simp only [decide_eq_true_eq]
        omega
    intro c' hc' hd
    exact (key c' hd (pos_le_latest hc')).2 hc'

end Verif.Recompose
