import Verif.Names.Model

/-! # Names of operations (lemmas) -/

namespace Verif.Names

/-- The number can be read back from a name. -/
theorem candidate_id {a b : Name} {i j : ℕ} (h : candidate a i = candidate b j) : i = j := by
  have key : ∀ (n : ℕ) (x : Name), (candidate x n).reverse.takeWhile (· ≠ '_') = (Nat.toDigits 10 n).reverse := by
    intro n x
    simp only [candidate, List.reverse_append, List.reverse_cons, List.append_assoc, List.singleton_append]
    rw [List.takeWhile_append_of_pos]
    · simp
    · intro c hc
      have : c ∈ Nat.toDigits 10 n := by simpa using hc
      have h2 : c ≠ '_' := fun h => Nat.underscore_not_in_toDigits (h ▸ this)
      simpa using h2
  have h2 := congrArg (fun l => (l.reverse.takeWhile (· ≠ '_')).reverse) h
  simp only [key, List.reverse_reverse] at h2
  have := congrArg (fun l => Nat.ofDigitChars 10 l 0) h2
  simpa only [Nat.ofDigitChars_ten_toDigits] using this

theorem candidate_ne_nil (a : Name) (i : ℕ) : candidate a i ≠ [] := by simp [candidate]

/-- What the search for a free name finds. -/
theorem search_spec {names : List Name} {op : Name} : ∀ {fuel id : ℕ} {s : Name} {id' : ℕ},
    search names op fuel id = some (s, id') →
    s ∉ names ∧ ∃ k, s = candidate op k ∧ id ≤ k ∧ k < id'
  | 0, _, _, _, h => by simp [search] at h
  | fuel + 1, id, s, id', h => by
    rw [search] at h
    split_ifs at h with hc
    · obtain ⟨h1, k, h2, h3, h4⟩ := search_spec h
      exact ⟨h1, k, h2, by omega, h4⟩
    · simp only [Option.some.injEq, Prod.mk.injEq] at h
      obtain ⟨rfl, rfl⟩ := h
      exact ⟨hc, id, rfl, Nat.le_refl _, by omega⟩

theorem search_none {names : List Name} {op : Name} : ∀ {fuel id : ℕ},
    search names op fuel id = none → ∀ k < fuel, candidate op (id + k) ∈ names
  | 0, _, _, k, hk => by omega
  | fuel + 1, id, h, k, hk => by
    rw [search] at h
    split_ifs at h with hc
    cases k with
    | zero => simpa using hc
    | succ k =>
      have := search_none h k (by omega)
      rwa [show id + (k + 1) = id + 1 + k by omega]

/-- The search ends after at most as many steps as there are names. -/
theorem search_ends (names : List Name) (op : Name) (id : ℕ) {fuel : ℕ} (hf : names.length < fuel) :
    ∃ r, search names op fuel id = some r := by
  rcases h : search names op fuel id with _ | r
  · exfalso
    have h1 := search_none h
    have hn : ((List.range fuel).map fun k => candidate op (id + k)).Nodup :=
      List.Nodup.map (fun a b hab => by have := candidate_id hab; omega) List.nodup_range
    have hs : ((List.range fuel).map fun k => candidate op (id + k)) ⊆ names := by
      intro x hx
      simp only [List.mem_map, List.mem_range] at hx
      obtain ⟨k, hk, rfl⟩ := hx
      exact h1 k hk
    have := (hn.subperm hs).length_le
    simp at this
    omega
  · exact ⟨r, rfl⟩

theorem generate_spec {fuel : ℕ} {p : List Node} {names : List Name} {need : List ℕ} {n : Node} {id : ℕ}
    (hf : names.length < fuel) : ∃ b k id', generate fuel p names need n id = some (candidate b k, id') ∧
      candidate b k ∉ names ∧ id ≤ k ∧ k < id' := by
  rw [generate]
  split_ifs with hc
  · obtain ⟨⟨s, id'⟩, hr⟩ := search_ends names n.opName (id + 1) hf
    obtain ⟨h1, k, rfl, h3, h4⟩ := search_spec hr
    exact ⟨_, k, id', hr, h1, by omega, h4⟩
  · exact ⟨_, id, id + 1, rfl, hc, Nat.le_refl _, by omega⟩

theorem setAttr_length (p : List Node) (i : ℕ) (s : Name) : (setAttr p i s).length = p.length := by simp [setAttr]

theorem setAttr_get (p : List Node) (i : ℕ) (s : Name) (j : ℕ) :
    (setAttr p i s)[j]? = if i = j then p[j]?.map (fun n => { n with attr := some s }) else p[j]? := by
  simp only [setAttr, List.getElem?_modify]
  split_ifs <;> simp_all

/-- What the loop over the operations does. -/
theorem assign_spec {fuel : ℕ} {names : List Name} {need : List ℕ} (hf : names.length < fuel) :
    ∀ (is : List ℕ) (id : ℕ) (p : List Node), is.Nodup → (∀ i ∈ is, i < p.length) →
    ∃ q, assign fuel names need is id p = some q ∧ q.length = p.length ∧ (∀ j, j ∉ is → q[j]? = p[j]?) ∧
      ∃ b : ℕ → Name, ∃ k : ℕ → ℕ, (∀ j ∈ is, q[j]? = p[j]?.map fun n => { n with attr := some (candidate (b j) (k j)) }) ∧
        (∀ j ∈ is, candidate (b j) (k j) ∉ names ∧ id ≤ k j) ∧ ∀ i ∈ is, ∀ j ∈ is, i ≠ j → k i ≠ k j := by
  intro is
  induction is with
  | nil =>
    intro id p _ _
    exact ⟨p, rfl, rfl, fun _ _ => rfl, fun _ => [], fun _ => 0, by simp, by simp, by simp⟩
  | cons i is ih =>
    intro id p hnd hlt
    have hi : i < p.length := hlt i (by simp)
    obtain ⟨b0, k0, id', hg, hn, hle, hlt'⟩ := generate_spec (p := p) (need := need) (n := p[i]) (id := id) hf
    obtain ⟨q, hq, hlen, hout, b, k, hin, hk, hd⟩ := ih id' (setAttr p i (candidate b0 k0)) hnd.of_cons
      (by intro j hj; rw [setAttr_length]; exact hlt j (by simp [hj]))
    have hni : i ∉ is := (List.nodup_cons.1 hnd).1
    refine ⟨q, ?_, by rw [hlen, setAttr_length], ?_, fun j => if j = i then b0 else b j,
      fun j => if j = i then k0 else k j, ?_, ?_, ?_⟩
    · rw [assign, List.getElem?_eq_getElem hi]
      simp only [hg, hq]
    · intro j hj
      simp only [List.mem_cons, not_or] at hj
      rw [hout j hj.2, setAttr_get, if_neg (Ne.symm hj.1)]
    · intro j hj
      by_cases hji : j = i
      · subst hji
        rw [hout j hni, setAttr_get, if_pos rfl]
        simp
      · have hj' : j ∈ is := by simpa [hji] using hj
        rw [hin j hj', setAttr_get, if_neg (Ne.symm hji)]
        simp [hji]
    · intro j hj
      by_cases hji : j = i
      · simp only [hji, if_true]; exact ⟨hn, hle⟩
      · have hj' : j ∈ is := by simpa [hji] using hj
        have := hk j hj'
        simp only [hji, if_false]
        exact ⟨this.1, by omega⟩
    · intro x hx y hy hxy
      by_cases hxi : x = i <;> by_cases hyi : y = i
      · omega
      · have := (hk y (by simpa [hyi] using hy)).2
        simp only [hxi, hyi, if_true, if_false]; omega
      · have := (hk x (by simpa [hxi] using hx)).2
        simp only [hxi, hyi, if_true, if_false]; omega
      · simp only [hxi, hyi, if_false]
        exact hd x (by simpa [hxi] using hx) y (by simpa [hyi] using hy) hxy

/-- The state of the walk after the operations `pre`. -/
structure Walked (pre : List Node) (s : List Name × List ℕ) : Prop where
  names : ∀ x, x ∈ s.1 ↔ x ≠ [] ∧ ∃ n ∈ pre, n.named ∧ n.attr = some x
  need : ∀ i, i ∈ s.2 ↔ ∃ n, pre[i]? = some n ∧ n.named ∧
    ∀ x, n.attr = some x → x = [] ∨ ∃ j < i, ∃ m, pre[j]? = some m ∧ m.named ∧ m.attr = some x
  nodup : s.2.Nodup

theorem need_snoc {pre : List Node} {n : Node} {i : ℕ} :
    (∃ n', (pre ++ [n])[i]? = some n' ∧ n'.named ∧
      ∀ x, n'.attr = some x → x = [] ∨ ∃ j < i, ∃ m, (pre ++ [n])[j]? = some m ∧ m.named ∧ m.attr = some x) ↔
    (∃ n', pre[i]? = some n' ∧ n'.named ∧
      ∀ x, n'.attr = some x → x = [] ∨ ∃ j < i, ∃ m, pre[j]? = some m ∧ m.named ∧ m.attr = some x) ∨
    (i = pre.length ∧ n.named ∧ ∀ x, n.attr = some x → x = [] ∨ ∃ m ∈ pre, m.named ∧ m.attr = some x) := by
  have hsub : ∀ {j}, j < pre.length → (pre ++ [n])[j]? = pre[j]? := fun h => List.getElem?_append_left h
  rcases Nat.lt_trichotomy i pre.length with hi | hi | hi
  · have : ∀ j, j < i → (pre ++ [n])[j]? = pre[j]? := fun j hj => hsub (by omega)
    constructor
    · rintro ⟨n', h1, h2, h3⟩
      refine Or.inl ⟨n', by rwa [hsub hi] at h1, h2, fun x hx => ?_⟩
      rcases h3 x hx with h | ⟨j, hj, m, hm, h⟩
      · exact Or.inl h
      · exact Or.inr ⟨j, hj, m, by rwa [this j hj] at hm, h⟩
    · rintro (⟨n', h1, h2, h3⟩ | ⟨h, _⟩)
      · refine ⟨n', by rwa [hsub hi], h2, fun x hx => ?_⟩
        rcases h3 x hx with h | ⟨j, hj, m, hm, h⟩
        · exact Or.inl h
        · exact Or.inr ⟨j, hj, m, by rwa [this j hj], h⟩
      · omega
  · subst hi
    have hnone : pre[pre.length]? = none := by simp
    have hat : (pre ++ [n])[pre.length]? = some n := by simp
    rw [hat, hnone]
    constructor
    · rintro ⟨n', h1, h2, h3⟩
      cases h1
      refine Or.inr ⟨rfl, h2, fun x hx => ?_⟩
      rcases h3 x hx with h | ⟨j, hj, m, hm, h⟩
      · exact Or.inl h
      · rw [hsub hj] at hm
        exact Or.inr ⟨m, List.mem_of_getElem? hm, h⟩
    · rintro (⟨n', h1, _⟩ | ⟨_, h2, h3⟩)
      · cases h1
      · refine ⟨n, rfl, h2, fun x hx => ?_⟩
        rcases h3 x hx with h | ⟨m, hm, h⟩
        · exact Or.inl h
        · obtain ⟨j, hj, hjm⟩ := List.mem_iff_getElem.1 hm
          exact Or.inr ⟨j, hj, m, by rw [hsub hj, List.getElem?_eq_getElem hj, hjm], h⟩
  · have h1 : (pre ++ [n])[i]? = none := by simp; omega
    have h2 : pre[i]? = none := by simp; omega
    rw [h1, h2]
    simp
    omega

theorem visit_walked {pre : List Node} {s : List Name × List ℕ} (h : Walked pre s) (n : Node) :
    Walked (pre ++ [n]) (visit pre.length n s) := by
  have hlt : ∀ i ∈ s.2, i < pre.length := by
    intro i hi
    obtain ⟨m, hm, _⟩ := (h.need i).1 hi
    exact (List.getElem?_eq_some_iff.1 hm).1
  have hnd : (s.2 ++ [pre.length]).Nodup := by
    rw [List.nodup_append]
    refine ⟨h.nodup, by simp, ?_⟩
    intro a ha b hb
    have := hlt a ha
    simp at hb
    omega
  rw [visit]
  by_cases hn : n.named
  · rw [if_pos hn]
    rcases ha : n.attr with _ | a
    · refine ⟨fun x => ?_, fun i => ?_, hnd⟩
      · simp [h.names, ha]
      · rw [need_snoc, List.mem_append, h.need]
        simp [hn, ha]
    · simp only
      by_cases h0 : a = []
      · rw [if_pos h0]
        refine ⟨fun x => ?_, fun i => ?_, hnd⟩
        · simp only [h.names, List.mem_append, List.mem_singleton]
          constructor
          · rintro ⟨h1, m, hm, h2⟩; exact ⟨h1, m, Or.inl hm, h2⟩
          · rintro ⟨h1, m, hm | rfl, h2⟩
            · exact ⟨h1, m, hm, h2⟩
            · rw [ha] at h2; simp_all
        · rw [need_snoc, List.mem_append, h.need]
          simp [hn, ha, h0]
      · rw [if_neg h0]
        by_cases hm : a ∈ s.1
        · rw [if_pos hm]
          obtain ⟨_, m, hmp, hmn, hma⟩ := (h.names a).1 hm
          refine ⟨fun x => ?_, fun i => ?_, hnd⟩
          · simp only [h.names, List.mem_append, List.mem_singleton]
            constructor
            · rintro ⟨h1, m, hm, h2⟩; exact ⟨h1, m, Or.inl hm, h2⟩
            · rintro ⟨h1, m', hm' | rfl, h2⟩
              · exact ⟨h1, m', hm', h2⟩
              · rw [ha] at h2
                obtain rfl : a = x := by simpa using h2.2
                exact ⟨h1, m, hmp, hmn, hma⟩
          · rw [need_snoc, List.mem_append, h.need]
            have : ∀ x, n.attr = some x → x = [] ∨ ∃ m ∈ pre, m.named ∧ m.attr = some x := by
              intro x hx
              rw [ha] at hx
              obtain rfl : a = x := by simpa using hx
              exact Or.inr ⟨m, hmp, hmn, hma⟩
            exact or_congr Iff.rfl ⟨fun h => ⟨by simpa using h, hn, this⟩, fun h => by simpa using h.1⟩
        · rw [if_neg hm]
          refine ⟨fun x => ?_, fun i => ?_, h.nodup⟩
          · simp only [h.names, List.mem_append, List.mem_singleton]
            constructor
            · rintro (⟨h1, m, hm, h2⟩ | rfl)
              · exact ⟨h1, m, Or.inl hm, h2⟩
              · exact ⟨h0, n, Or.inr rfl, hn, ha⟩
            · rintro ⟨h1, m', hm' | rfl, h2⟩
              · exact Or.inl ⟨h1, m', hm', h2⟩
              · rw [ha] at h2
                exact Or.inr (by simpa using h2.2.symm)
          · rw [need_snoc, h.need]
            constructor
            · exact Or.inl
            · rintro (h1 | ⟨_, _, h3⟩)
              · exact h1
              · exfalso
                rcases h3 a ha with h4 | ⟨m, h4, h5, h6⟩
                · exact h0 h4
                · exact hm ((h.names a).2 ⟨h0, m, h4, h5, h6⟩)
  · rw [if_neg hn]
    refine ⟨fun x => ?_, fun i => ?_, h.nodup⟩
    · rw [h.names]
      simp only [List.mem_append, List.mem_singleton]
      constructor
      · rintro ⟨h1, m, hm, h2⟩; exact ⟨h1, m, Or.inl hm, h2⟩
      · rintro ⟨h1, m, hm | rfl, h2⟩
        · exact ⟨h1, m, hm, h2⟩
        · exact absurd h2.1 hn
    · rw [need_snoc, h.need]
      simp [hn]

theorem collect_walked : ∀ (l pre : List Node) (s : List Name × List ℕ), Walked pre s →
    Walked (pre ++ l) (collect l pre.length s)
  | [], pre, s, h => by simpa [collect] using h
  | n :: l, pre, s, h => by
    have := collect_walked l (pre ++ [n]) _ (visit_walked h n)
    simpa [collect] using this

theorem walked (p : List Node) : Walked p (collect p 0 ([], [])) := by
  have := collect_walked p [] ([], []) ⟨by simp, by simp, by simp⟩
  simpa using this

end Verif.Names
