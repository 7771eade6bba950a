import Verif.Recompose.CombineOrder

/-! # Combining convolutions: order with Concat, and what is computed -/

namespace Verif.Recompose

open Verif.Rewrite

variable {V : Type}

theorem idxOf_take {l : List ℕ} {n k : ℕ} (h : n ∈ l) : n ∈ l.take k ↔ l.idxOf n < k := by
  induction l generalizing k with
  | nil => cases h
  | cons a l ih =>
    rcases k with _ | k
    · simp
    · rw [List.take_succ_cons]
      by_cases hn : n = a
      · subst hn
        simp
      · have hl : n ∈ l := by
          rcases List.mem_cons.1 h with h | h
          · exact absurd h hn
          · exact h
        rw [List.mem_cons, List.idxOf_cons_ne _ (Ne.symm hn)]
        have := ih (k := k) hl
        constructor
        · rintro (h | h)
          · exact absurd h hn
          · have := this.1 h
            omega
        · intro h
          exact .inr (this.2 (by omega))

theorem map_take_fst {l : List (ℕ × GOp V)} {k : ℕ} : (l.take k).map Prod.fst = (l.map Prod.fst).take k :=
  List.map_take

/-- With Concat, the operations are in order. -/
theorem Found.ordered {args : List ℕ} {uses : ℕ → List (Option ℕ)} {ty : ℕ → Option (List ℕ)} {fresh : ℕ}
    {g : Graph V} {root : ℕ} {c1 : ConvOp} (F : Found args uses ty fresh g root c1) {k : ℕ} {ks : List ℕ} {axis : ℤ}
    (hk : (k, GOp.concat axis ks) ∈ g.nodes)
    (huse : ∀ c ∈ (candidates g (uses c1.x)).map Prod.fst, uses c ≠ [] ∧ ∀ u ∈ uses c, u = some k) :
    Ordered args (rewritten g (latest g ((candidates g (uses c1.x)).map Prod.fst))
        (newNodes fresh c1 (candidates g (uses c1.x))) (k :: (candidates g (uses c1.x)).map Prod.fst)
        (concatName fresh k)).nodes := by
  set cs := candidates g (uses c1.x) with hcs
  set ns := cs.map Prod.fst with hns
  set σ := concatName fresh k with hσd
  set L := latest g ns with hL
  set new := newNodes (V := V) fresh c1 cs with hnew
  obtain ⟨hn1, hn2, hn3, -⟩ := names_new (V := V) (fresh := fresh) (c1 := c1) (cs := cs) (ty := ty)
  have hn1 : ∀ n ∈ new.map Prod.fst, fresh ≤ n := fun n hn => hn1 n (by rw [List.map_append]; exact List.mem_append_left _ hn)
  have hn2 : (new.map Prod.fst).Nodup := by
    rw [List.map_append, List.nodup_append] at hn2
    exact hn2.1
  obtain ⟨ho1, ho2, ho3⟩ := ordered_iff.1 F.wf.1
  let P : ℕ → Prop := fun n => n ∉ k :: ns
  let sub : ℕ × GOp V → ℕ × GOp V := fun p => (p.1, p.2.subst σ)
  have hkn : k ∈ g.nodes.map Prod.fst := List.mem_map_of_mem (f := Prod.fst) hk
  have hσ1 : ∀ a, a ≠ k → σ a = a := fun a ha => if_neg ha
  have hσ2 : ∀ a, fresh ≤ a → σ a = a := fun a ha => hσ1 a (by
    rintro rfl
    have := F.fresh a (.inr hkn)
    omega)
  have huser : ∀ q ∈ g.nodes, ∀ c ∈ ns, c ∈ q.2.args → q.1 = k := by
    intro q hq c hc ha
    have := (huse c hc).2 (some q.1) ((F.perm c).mem_iff.2 (some_mem_usesOf.2 ⟨q.2, hq, ha⟩))
    exact Option.some.inj this
  have hne : ns ≠ [] := List.ne_nil_of_mem (List.mem_map_of_mem F.root_mem)
  have hkL : L < pos g k := by
    obtain ⟨c, hc, hp⟩ := latest_mem (g := g) hne
    obtain ⟨u, hu⟩ := List.exists_mem_of_ne_nil _ (huse c hc).1
    have h1 := (huse c hc).2 u hu
    subst h1
    obtain ⟨op, h2, h3⟩ := some_mem_usesOf.1 ((F.perm c).mem_iff.1 hu)
    rcases argsOk_pos ho3 ho1 _ h2 c h3 with h | h
    · exact absurd h (ho2 c (F.names hc))
    · rw [hL, ← hp]
      exact h.2
  have hk1 : k ∉ (g.nodes.take (L + 1)).map Prod.fst := by
    rw [map_take_fst, idxOf_take hkn]
    unfold pos at hkL
    omega
  have hkc : k ∉ ns := by
    intro h
    obtain ⟨p, hp, he⟩ := List.mem_map.1 h
    have h1 := (F.mem.1 hp).1
    rw [he] at h1
    have : (k, GOp.conv p.2) = (k, GOp.concat axis ks) := List.inj_on_of_nodup_map ho1 h1 hk rfl
    cases this
  have hsplit : g.nodes.take (L + 1) ++ g.nodes.drop (L + 1) = g.nodes := List.take_append_drop _ _
  have ho3' := ho3
  rw [← hsplit, argsOk_append] at ho3'
  obtain ⟨ho4, ho5⟩ := ho3'
  have hnodes : (rewritten g L new (k :: ns) σ).nodes = ((g.nodes.take (L + 1)).filter fun p => P p.1).map sub ++
      (new.map sub) ++ ((g.nodes.drop (L + 1)).filter fun p => P p.1).map sub := by
    simp only [rewritten, insertAfter, List.filter_append, List.map_append]
    congr 2
    have : (new.filter fun p => p.1 ∉ k :: ns) = new := by
      rw [List.filter_eq_self]
      intro p hp
      simp only [decide_eq_true_eq]
      intro h
      have h3 := hn1 p.1 (List.mem_map_of_mem hp)
      rcases List.mem_cons.1 h with h | h
      · have := F.fresh k (.inr hkn); omega
      · have h2 := F.lt_fresh h; omega
    rw [this]
  have hsubN : (new.map sub).map Prod.fst = new.map Prod.fst := map_fst_subst
  have hmem1 : ∀ n ∈ (((g.nodes.take (L + 1)).filter fun p => P p.1).map sub).map Prod.fst,
      n ∈ (g.nodes.take (L + 1)).map Prod.fst := by
    intro n hn
    rw [map_fst_subst] at hn
    exact (List.Sublist.map _ List.filter_sublist).subset hn
  have hmem2 : ∀ n ∈ (((g.nodes.drop (L + 1)).filter fun p => P p.1).map sub).map Prod.fst,
      n ∈ (g.nodes.drop (L + 1)).map Prod.fst := by
    intro n hn
    rw [map_fst_subst] at hn
    exact (List.Sublist.map _ List.filter_sublist).subset hn
  have hin1 : ∀ n ∈ (g.nodes.take (L + 1)).map Prod.fst, n ∈ g.nodes.map Prod.fst := fun n hn =>
    (List.Sublist.map _ (List.take_sublist _ _)).subset hn
  have hin2 : ∀ n ∈ (g.nodes.drop (L + 1)).map Prod.fst, n ∈ g.nodes.map Prod.fst := fun n hn =>
    (List.Sublist.map _ (List.drop_sublist _ _)).subset hn
  have hdisj := ho1
  rw [← hsplit, List.map_append, List.nodup_append] at hdisj
  have hcarg : ∀ p ∈ cs, ∀ a ∈ (GOp.conv (V := V) p.2).args,
      σ a ∈ (((g.nodes.take (L + 1)).filter fun p => P p.1).map sub).map Prod.fst ∨ σ a ∈ args := by
    intro p hp a ha
    have h1 := (F.mem.1 hp).1
    have hpk : p.1 ≠ k := fun h => hkc (h ▸ List.mem_map_of_mem hp)
    have hans : a ∉ ns := fun h => hpk (huser _ h1 a h ha)
    rcases argsOk_pos ho3 ho1 _ h1 a ha with h | ⟨h, hlt⟩
    · have hak : a ≠ k := by
        rintro rfl
        exact ho2 a hkn h
      rw [hσ1 a hak]
      exact .inr h
    · have hlt' : (g.nodes.map Prod.fst).idxOf a < L + 1 := by
        have := pos_le_latest (g := g) (cs := ns) (List.mem_map_of_mem hp)
        unfold pos at this
        rw [← hL] at this
        simp only at hlt
        omega
      have h2 : a ∈ (g.nodes.take (L + 1)).map Prod.fst := by
        rw [map_take_fst, idxOf_take h]
        exact hlt'
      have hak : a ≠ k := by
        rintro rfl
        exact hk1 h2
      rw [hσ1 a hak]
      refine .inl ?_
      rw [map_fst_subst]
      obtain ⟨q, hq, rfl⟩ := List.mem_map.1 h2
      refine List.mem_map_of_mem (List.mem_filter.2 ⟨hq, ?_⟩)
      simp only [P, decide_eq_true_eq, List.mem_cons, not_or]
      exact ⟨hak, hans⟩
  rw [hnodes, ordered_iff]
  refine ⟨?_, ?_, ?_⟩
  · rw [List.map_append, List.map_append, List.append_assoc, List.nodup_append]
    refine ⟨?_, ?_, ?_⟩
    · rw [map_fst_subst]
      exact List.Nodup.sublist (List.Sublist.map _ List.filter_sublist) hdisj.1
    · rw [List.nodup_append]
      refine ⟨by rw [hsubN]; exact hn2, ?_, ?_⟩
      · rw [map_fst_subst]
        exact List.Nodup.sublist (List.Sublist.map _ List.filter_sublist) hdisj.2.1
      · intro a ha b hb
        rw [hsubN] at ha
        have h1 := hn1 a ha
        have h2 := F.fresh b (.inr (hin2 _ (hmem2 b hb)))
        omega
    · intro a ha b hb
      rcases List.mem_append.1 hb with hb | hb
      · rw [hsubN] at hb
        have h1 := hn1 b hb
        have h2 := F.fresh a (.inr (hin1 _ (hmem1 a ha)))
        omega
      · exact hdisj.2.2 a (hmem1 a ha) b (hmem2 b hb)
  · intro n hn
    rw [List.map_append, List.map_append, List.mem_append, List.mem_append] at hn
    rcases hn with (hn | hn) | hn
    · exact ho2 n (hin1 _ (hmem1 n hn))
    · rw [hsubN] at hn
      intro h
      have h1 := hn1 n hn
      have h2 := F.fresh n (.inl h)
      omega
    · exact ho2 n (hin2 _ (hmem2 n hn))
  · rw [argsOk_append, argsOk_append]
    refine ⟨⟨?_, ?_⟩, ?_⟩
    · refine argsOk_filter (P := P) ho4 (fun a h _ => h) ?_
      intro q hq hPq a ha
      have hqg := List.mem_of_mem_take hq
      have hqk : q.1 ≠ k := fun h => hPq (by rw [h]; simp)
      have hans : a ∉ ns := fun h => hqk (huser q hqg a h ha)
      have hak : a ≠ k := by
        rintro rfl
        rcases argsOk_pos ho4 hdisj.1 q hq a ha with h | h
        · exact ho2 a hkn h
        · exact hk1 h.1
      exact .inr ⟨by simp only [P, List.mem_cons, not_or]; exact ⟨hak, hans⟩, hσ1 a hak⟩
    · have := argsOk_new (V := V) (fresh := fresh) (c1 := c1) (cs := cs) (ty := ty) (σ := σ) (split := false)
        (k := fun a => a ∈ (((g.nodes.take (L + 1)).filter fun p => P p.1).map sub).map Prod.fst ∨ a ∈ args)
        (hcarg _ F.root_mem _ (by simp [GOp.args])) (fun p hp => hcarg p hp _ (by simp [GOp.args])) ?_ hσ2
      · simp only [Bool.false_eq_true, if_false, List.append_nil] at this
        exact this
      · intro hb p hp
        have hpb : p.2.b.isSome = true := by
          obtain ⟨a, l, hal⟩ : ∃ a l, cs = a :: l := by
            cases hcc : cs with
            | nil => rw [hcc] at hp; cases hp
            | cons a l => exact ⟨a, l, rfl⟩
          rw [hal, List.head?_cons, Option.bind_some] at hb
          have ha : a ∈ cs := by rw [hal]; simp
          rw [← hb]
          exact (F.compat hp ha).2.2
        obtain ⟨b, hb⟩ := Option.isSome_iff_exists.1 hpb
        exact hcarg p hp _ (by simp [GOp.args, hb])
    · refine argsOk_filter (P := P) ho5 ?_ ?_
      · intro a h hPa
        rcases h with h | h
        · refine .inl ?_
          rw [List.map_append, map_fst_subst]
          refine List.mem_append_left _ ?_
          obtain ⟨q, hq, rfl⟩ := List.mem_map.1 h
          exact List.mem_map_of_mem (List.mem_filter.2 ⟨hq, by simpa using hPa⟩)
        · exact .inr h
      · intro q hq hPq a ha
        have hqg := List.mem_of_mem_drop hq
        have hqk : q.1 ≠ k := fun h => hPq (by rw [h]; simp)
        have hans : a ∉ ns := fun h => hqk (huser q hqg a h ha)
        by_cases hak : a = k
        · refine .inl (.inl ?_)
          rw [List.map_append, hsubN, hσd, concatName, if_pos hak]
          exact List.mem_append_right _ hn3
        · exact .inr ⟨by simp only [P, List.mem_cons, not_or]; exact ⟨hak, hans⟩, hσ1 a hak⟩

/-- What the outcome of the pattern tells. -/
theorem combine_ok {uses : ℕ → List (Option ℕ)} {ty : ℕ → Option (List ℕ)} {fresh : ℕ} {g g' : Graph V} {root : ℕ}
    {c1 : ConvOp} {sorted : Bool} (hc : convOf g root = some c1)
    (h : combine uses ty fresh g root = .ok g' sorted) :
    matches_ g uses ty root c1 (candidates g (uses c1.x)) = true ∧
    ((sorted = false ∧ ∃ k, commonConcat g uses none ((candidates g (uses c1.x)).map Prod.fst) = some (k, 1) ∧
      g' = rewritten g (latest g ((candidates g (uses c1.x)).map Prod.fst))
        (newNodes fresh c1 (candidates g (uses c1.x))) (k :: (candidates g (uses c1.x)).map Prod.fst)
        (concatName fresh k)) ∨
     (sorted = true ∧ g' = rewritten g (latest g ((candidates g (uses c1.x)).map Prod.fst))
        (newNodes fresh c1 (candidates g (uses c1.x)) ++ splitNodes ty fresh (candidates g (uses c1.x)))
        ((candidates g (uses c1.x)).map Prod.fst) (splitName fresh ((candidates g (uses c1.x)).map Prod.fst)))) := by
  unfold combine at h
  rw [hc] at h
  dsimp only at h
  split at h
  · rename_i hm
    refine ⟨hm, ?_⟩
    split at h
    · split at h
      · rename_i k hk
        cases h
        exact .inl ⟨rfl, k, hk, rfl⟩
      · cases h
        exact .inr ⟨rfl, rfl⟩
    · cases h
  · cases h

variable [Inhabited V] {A : Alg V}

/-- The outputs of the new function are there. -/
theorem outs_known {g : Graph V} {at_ : ℕ} {new : List (ℕ × GOp V)} {gone args : List ℕ} {σ : ℕ → ℕ}
    (h : ∀ o ∈ g.outs, σ o ∈ args ∨ σ o ∈ new.map Prod.fst ∨ (σ o ∈ g.nodes.map Prod.fst ∧ σ o ∉ gone))
    (hnew : ∀ n ∈ new.map Prod.fst, n ∉ gone) :
    ∀ o ∈ (rewritten g at_ new gone σ).outs, o ∈ args ∨ o ∈ (rewritten g at_ new gone σ).nodes.map Prod.fst := by
  intro o ho
  obtain ⟨a, ha, rfl⟩ := List.mem_map.1 ho
  simp only [rewritten]
  rw [map_fst_subst]
  have key : ∀ n, n ∈ (insertAfter at_ new g.nodes).map Prod.fst → n ∉ gone →
      n ∈ ((insertAfter at_ new g.nodes).filter fun p => p.1 ∉ gone).map Prod.fst := by
    intro n hn hg
    obtain ⟨p, hp, rfl⟩ := List.mem_map.1 hn
    exact List.mem_map_of_mem (List.mem_filter.2 ⟨hp, by simpa using hg⟩)
  rcases h a ha with h1 | h1 | ⟨h1, h2⟩
  · exact .inl h1
  · refine .inr (key _ ?_ (hnew _ h1))
    simp only [insertAfter, List.map_append, List.mem_append]
    exact .inl (.inr h1)
  · refine .inr (key _ ?_ h2)
    simp only [insertAfter, List.map_append, List.mem_append]
    rw [← List.take_append_drop (at_ + 1) g.nodes, List.map_append, List.mem_append] at h1
    rcases h1 with h1 | h1
    · exact .inl (.inl h1)
    · exact .inr h1

/-- The pattern keeps what a function computes, for convolutions with one group, if a Concat that takes all of them
takes nothing else and in the order of the uses. -/
theorem combine_sound {args : List ℕ} {uses : ℕ → List (Option ℕ)} {ty : ℕ → Option (List ℕ)} {fresh : ℕ}
    {g g' : Graph V} {root : ℕ} {c1 : ConvOp} {sorted : Bool} {env : ℕ → Tensor V} {o : List (Tensor V)}
    (hc : convOf g root = some c1) (h : combine uses ty fresh g root = .ok g' sorted)
    (F : Found args uses ty fresh g root c1) (hg : c1.at_.group = 1)
    (hty : ∀ ρ, exec A env g.nodes = some ρ →
      ∀ n s, n ∈ args ∨ n ∈ g.nodes.map Prod.fst → ty n = some s → (ρ n).shape = s)
    (hcat : ∀ k l, (k, GOp.concat 1 l) ∈ g.nodes → (∀ c, some c ∈ uses c1.x → ∀ u ∈ uses c, u = some k) →
      l.map some = uses c1.x)
    (he : g.eval A env = some o) :
    (∃ l, l.Perm g'.nodes ∧ Ordered args l) ∧ (sorted = false → Ordered args g'.nodes) ∧
    ∀ l, l.Perm g'.nodes → Ordered args l → Graph.eval A env ⟨l, g'.outs⟩ = some o := by
  obtain ⟨-, h1 | h1⟩ := combine_ok hc h
  · obtain ⟨rfl, k, hk, rfl⟩ := h1
    obtain ⟨-, huse, hcon⟩ := commonConcat_some F.nodup hk
    obtain ⟨ks, hks⟩ := hcon rfl (List.ne_nil_of_mem (List.mem_map_of_mem F.root_mem))
    have hord := F.ordered hks huse
    refine ⟨⟨_, List.Perm.refl _, hord⟩, fun _ => hord, ?_⟩
    have hksn : ks = (candidates g (uses c1.x)).map Prod.fst := by
      have := hcat k ks hks (by
        intro c hcu
        rw [F.users] at hcu
        obtain ⟨p, hp, hpe⟩ := List.mem_map.1 hcu
        exact (huse c (by rw [← Option.some.inj hpe]; exact List.mem_map_of_mem hp)).2)
      rw [F.users] at this
      have h2 : ks.map some = ((candidates g (uses c1.x)).map Prod.fst).map some := by
        rw [this, List.map_map]
        rfl
      exact List.map_injective_iff.2 (Option.some_injective _) h2
    have hkf : k < fresh := F.fresh k (.inr (List.mem_map_of_mem (f := Prod.fst) hks))
    intro l hl hol
    refine eval_transport F.wf ⟨hol, ?_⟩ he ?_
    · intro a ha
      have hmem : a ∈ l.map Prod.fst ↔ a ∈ (rewritten g (latest g ((candidates g (uses c1.x)).map Prod.fst))
        (newNodes fresh c1 (candidates g (uses c1.x))) (k :: (candidates g (uses c1.x)).map Prod.fst)
        (concatName fresh k)).nodes.map Prod.fst := (hl.map Prod.fst).mem_iff
      dsimp only at ha ⊢
      rw [hmem]
      revert a
      have hnn := names_new (V := V) (fresh := fresh) (c1 := c1) (cs := candidates g (uses c1.x)) (ty := ty)
      refine fun a ha _ => outs_known ?_ ?_ a ha
      · intro b hb
        by_cases hbk : b = k
        · rw [concatName, if_pos hbk]
          exact .inr (.inl hnn.2.2.1)
        · rw [concatName, if_neg hbk]
          rcases F.wf.2 b hb with h1 | h1
          · exact .inl h1
          · refine .inr (.inr ⟨h1, ?_⟩)
            intro hbm
            rcases List.mem_cons.1 hbm with hbm | hbm
            · exact hbk hbm
            · have := (huse b hbm).2 none ((F.perm b).mem_iff.2 (none_mem_usesOf.2 hb))
              cases this
      · intro n hn hgone
        have h1 := hnn.1 n (by rw [List.map_append]; exact List.mem_append_left _ hn)
        rcases List.mem_cons.1 hgone with hgone | hgone
        · omega
        · have := F.lt_fresh hgone; omega
    · intro ρ hex hr
      obtain ⟨w, b, y, hy, hold, hnew⟩ := F.values hg hr (hty ρ hex)
      set ρ' := newVals fresh ((candidates g (uses c1.x)).map Prod.fst) ρ w b y with hρ'
      have hyk : ρ k = y := by
        have := hr _ hks
        simp only [GOp.eval] at this
        rw [hksn, hy] at this
        exact (Option.some.inj this).symm
      have hσ : ∀ a, ρ' (concatName fresh k a) = ρ' a := by
        intro a
        unfold concatName
        split
        · rename_i hak
          rw [hak, hρ', newVals_old hkf, hyk]
          unfold newVals
          rw [if_neg (by omega), if_neg (by omega), if_neg (by omega), if_pos rfl]
        · rfl
      refine ⟨ρ', ?_, ?_, ?_⟩
      · have hrr := run_rewritten (k := latest g ((candidates g (uses c1.x)).map Prod.fst))
          (gone := k :: (candidates g (uses c1.x)).map Prod.fst) hσ hold
          (fun p hp => hnew p (List.mem_append_left _ hp))
        exact fun p hp => hrr p (hl.mem_iff.1 hp)
      · exact fun a ha => newVals_old (F.fresh a (.inl ha))
      · simp only [rewritten, List.map_map]
        refine List.map_congr_left fun a ha => ?_
        rw [Function.comp_apply, hσ]
        rcases F.wf.2 a ha with h1 | h1
        · exact newVals_old (F.fresh a (.inl h1))
        · exact newVals_old (F.fresh a (.inr h1))
  · obtain ⟨rfl, rfl⟩ := h1
    refine ⟨F.sortable, (by intro h; cases h), ?_⟩
    intro l hl hol
    refine eval_transport F.wf ⟨hol, ?_⟩ he ?_
    · intro a ha
      dsimp only at ha ⊢
      rw [(hl.map Prod.fst).mem_iff]
      have hnn := names_new (V := V) (fresh := fresh) (c1 := c1) (cs := candidates g (uses c1.x)) (ty := ty)
      refine outs_known ?_ ?_ a ha
      · intro b hb
        by_cases hbn : b ∈ (candidates g (uses c1.x)).map Prod.fst
        · refine .inr (.inl ?_)
          rw [splitName, if_pos hbn, List.map_append]
          refine List.mem_append_right _ (hnn.2.2.2 _ ?_)
          have := List.idxOf_lt_length_of_mem hbn
          rwa [List.length_map] at this
        · rw [splitName, if_neg hbn]
          rcases F.wf.2 b hb with h1 | h1
          · exact .inl h1
          · exact .inr (.inr ⟨h1, hbn⟩)
      · intro n hn hgone
        have h1 := hnn.1 n hn
        have := F.lt_fresh hgone
        omega
    · intro ρ hex hr
      obtain ⟨w, b, y, hy, hold, hnew⟩ := F.values hg hr (hty ρ hex)
      set ns := (candidates g (uses c1.x)).map Prod.fst with hns
      set ρ' := newVals fresh ns ρ w b y with hρ'
      have hσ : ∀ a, ρ' (splitName fresh ns a) = ρ' a := by
        intro a
        unfold splitName
        split
        · rename_i han
          have hlt := List.idxOf_lt_length_of_mem han
          rw [hρ', newVals_old (F.lt_fresh han)]
          unfold newVals
          rw [if_neg (by omega), if_neg (by omega), if_neg (by omega), if_neg (by omega), Nat.add_sub_cancel_left,
            List.getD_eq_getElem _ _ hlt, List.getElem_idxOf]
        · rfl
      refine ⟨ρ', ?_, ?_, ?_⟩
      · have hrr := run_rewritten (k := latest g ns) (gone := ns) hσ hold hnew
        exact fun p hp => hrr p (hl.mem_iff.1 hp)
      · exact fun a ha => newVals_old (F.fresh a (.inl ha))
      · simp only [rewritten, List.map_map]
        refine List.map_congr_left fun a ha => ?_
        rw [Function.comp_apply, hσ]
        rcases F.wf.2 a ha with h1 | h1
        · exact newVals_old (F.fresh a (.inl h1))
        · exact newVals_old (F.fresh a (.inr h1))

end Verif.Recompose
