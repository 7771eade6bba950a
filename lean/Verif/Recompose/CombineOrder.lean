import Verif.Recompose.Combine
import Mathlib.Data.List.Flatten

/-! # The operations can be ordered after convolutions have been combined -/

namespace Verif.Recompose

open Verif.Rewrite

variable {V : Type}

namespace Found

variable {args : List ℕ} {uses : ℕ → List (Option ℕ)} {ty : ℕ → Option (List ℕ)} {fresh : ℕ} {g : Graph V}
  {root : ℕ} {c1 : ConvOp} (F : Found args uses ty fresh g root c1)
include F

/-- The convolutions are different. -/
theorem distinct : ((candidates g (uses c1.x)).map Prod.fst).Nodup := by
  have hu := F.users
  have hperm := F.perm c1.x
  have hsome : ∀ u ∈ usesOf g c1.x, ∃ p ∈ candidates g (uses c1.x), u = some p.1 := by
    intro u h
    have := hperm.mem_iff.2 h
    rw [hu] at this
    obtain ⟨p, hp, rfl⟩ := List.mem_map.1 this
    exact ⟨p, hp, rfl⟩
  have hnd : (usesOf g c1.x).Nodup := by
    have houts : c1.x ∉ g.outs := by
      intro h
      obtain ⟨p, -, hp⟩ := hsome none (none_mem_usesOf.2 h)
      cases hp
    unfold usesOf
    have : (g.outs.filter (· = c1.x)) = [] := by
      rw [List.filter_eq_nil_iff]
      intro a ha
      simp only [decide_eq_true_eq]
      rintro rfl
      exact houts ha
    rw [this, List.map_nil, List.append_nil, List.nodup_flatMap]
    refine ⟨?_, ?_⟩
    · intro p hp
      by_cases hx : c1.x ∈ p.2.args
      · obtain ⟨q, hq, he⟩ := hsome (some p.1) (some_mem_usesOf.2 ⟨p.2, hp, hx⟩)
        have hpq : p = (q.1, GOp.conv q.2) :=
          List.inj_on_of_nodup_map F.nodup hp (F.mem.1 hq).1 (Option.some.inj he)
        obtain ⟨h1, h2⟩ := F.only _ _ (F.mem.1 hq).1
        have hxq := F.x_eq hq
        rw [hpq]
        have : ((GOp.conv (V := V) q.2).args.filter (· = c1.x)) = [c1.x] := by
          simp only [GOp.args]
          rw [List.filter_cons_of_pos (by simpa using hxq), List.filter_cons_of_neg (by simpa using Ne.symm h1), hxq]
          congr 1
          rw [List.filter_eq_nil_iff]
          intro a ha
          rw [Option.mem_toList] at ha
          simp only [decide_eq_true_eq]
          rintro rfl
          exact h2 ha
        simp [this]
      · have : p.2.args.filter (· = c1.x) = [] := by
          rw [List.filter_eq_nil_iff]
          intro a ha
          simp only [decide_eq_true_eq]
          rintro rfl
          exact hx ha
        rw [this]
        simp
    · have := F.nodup
      rw [List.Nodup, List.pairwise_map] at this
      refine this.imp ?_
      intro p q hpq
      rw [Function.onFun, List.disjoint_left]
      intro u h1 h2
      obtain ⟨_, -, rfl⟩ := List.mem_map.1 h1
      obtain ⟨_, -, he⟩ := List.mem_map.1 h2
      exact hpq (Option.some.inj he).symm
  have h2 := hperm.nodup_iff.2 hnd
  rw [hu] at h2
  have : ((candidates g (uses c1.x)).map fun p => some p.1) =
      ((candidates g (uses c1.x)).map Prod.fst).map some := by
    rw [List.map_map]
    rfl
  rw [this] at h2
  exact List.Nodup.of_map _ h2

theorem lt_fresh {n : ℕ} (hn : n ∈ (candidates g (uses c1.x)).map Prod.fst) : n < fresh := F.fresh n (.inr (F.names hn))

/-- Operands are arguments or earlier results. -/
theorem arg_of {p : ℕ × GOp V} (hp : p ∈ g.nodes) {a : ℕ} (ha : a ∈ p.2.args) :
    a ∈ args ∨ a ∈ g.nodes.map Prod.fst := by
  obtain ⟨h1, -, h3⟩ := ordered_iff.1 F.wf.1
  rcases argsOk_pos h3 h1 p hp a ha with h | h
  · exact .inl h
  · exact .inr h.1

end Found

/-- The names of the new operations. -/
theorem names_new {fresh : ℕ} {c1 : ConvOp} {cs : List (ℕ × ConvOp)} {ty : ℕ → Option (List ℕ)} :
    (∀ n ∈ (newNodes (V := V) fresh c1 cs ++ splitNodes ty fresh cs).map Prod.fst, fresh ≤ n) ∧
    ((newNodes (V := V) fresh c1 cs ++ splitNodes ty fresh cs).map Prod.fst).Nodup ∧
    fresh + 2 ∈ (newNodes (V := V) fresh c1 cs).map Prod.fst ∧
    ∀ i < cs.length, fresh + 3 + i ∈ (splitNodes (V := V) ty fresh cs).map Prod.fst := by
  have hs : (splitNodes (V := V) ty fresh cs).map Prod.fst = (List.range cs.length).map fun i => fresh + 3 + i := by
    rw [splitNodes, List.map_map]
    rfl
  have hnd : ((List.range cs.length).map fun i => fresh + 3 + i).Nodup :=
    List.Nodup.map (fun a b h => by simpa using h) List.nodup_range
  have hm : (newNodes (V := V) fresh c1 cs).map Prod.fst = [fresh, fresh + 1, fresh + 2] ∨
      (newNodes (V := V) fresh c1 cs).map Prod.fst = [fresh, fresh + 2] := by
    unfold newNodes
    dsimp only
    split
    · exact .inl rfl
    · exact .inr rfl
  rw [List.map_append, hs]
  refine ⟨?_, ?_, ?_, ?_⟩
  · intro n hn
    rcases List.mem_append.1 hn with hn | hn
    · rcases hm with hm | hm
      · rw [hm] at hn; simp at hn; omega
      · rw [hm] at hn; simp at hn; omega
    · obtain ⟨i, -, rfl⟩ := List.mem_map.1 hn
      omega
  · rw [List.nodup_append]
    refine ⟨?_, hnd, ?_⟩
    · rcases hm with hm | hm
      · rw [hm]; simp
      · rw [hm]; simp
    · intro a ha b hb
      obtain ⟨i, -, rfl⟩ := List.mem_map.1 hb
      rcases hm with hm | hm
      · rw [hm] at ha; simp at ha; omega
      · rw [hm] at ha; simp at ha; omega
  · rcases hm with hm | hm
    · rw [hm]; simp
    · rw [hm]; simp
  · intro i hi
    exact List.mem_map.2 ⟨i, List.mem_range.2 hi, rfl⟩

theorem argsOk_of_all {l : List (ℕ × GOp V)} : ∀ {k : ℕ → Prop}, (∀ p ∈ l, ∀ a ∈ p.2.args, k a) → ArgsOk k l := by
  induction l with
  | nil => intros; trivial
  | cons p l ih =>
    intro k h
    exact ⟨h p (by simp), ih fun q hq a ha => .inr (h q (by simp [hq]) a ha)⟩

/-- The new operations have their operands, if the inputs, weights and biases are there. -/
theorem argsOk_new {fresh : ℕ} {c1 : ConvOp} {cs : List (ℕ × ConvOp)} {ty : ℕ → Option (List ℕ)} {k : ℕ → Prop}
    {σ : ℕ → ℕ} (hx : k (σ c1.x)) (hw : ∀ p ∈ cs, k (σ p.2.w))
    (hb : (cs.head?.bind fun p => p.2.b).isSome = true → ∀ p ∈ cs, k (σ (p.2.b.getD 0)))
    (hσ : ∀ a, fresh ≤ a → σ a = a) {split : Bool} :
    ArgsOk k ((newNodes (V := V) fresh c1 cs ++ (if split then splitNodes ty fresh cs else [])).map
      (fun p : ℕ × GOp V => (p.1, p.2.subst σ))) := by
  have hsp : ∀ {k : ℕ → Prop}, k (fresh + 2) → ArgsOk k ((if split then splitNodes (V := V) ty fresh cs else []).map
      fun p => (p.1, p.2.subst σ)) := by
    intro k hk
    apply argsOk_of_all
    intro p hp a ha
    obtain ⟨q, hq, rfl⟩ := List.mem_map.1 hp
    dsimp only at ha
    rw [args_subst] at ha
    split at hq
    · obtain ⟨i, -, rfl⟩ := List.mem_map.1 hq
      simp only [GOp.args, List.map_cons, List.map_nil, List.mem_singleton] at ha
      rw [ha, hσ _ (by omega)]
      exact hk
    · cases hq
  unfold newNodes
  dsimp only
  split
  · rename_i hb'
    simp only [List.cons_append, List.nil_append, List.map_cons]
    refine ⟨?_, ?_, ?_, hsp (.inl rfl)⟩
    · intro a ha
      rw [args_subst] at ha
      simp only [GOp.args, List.map_map, List.mem_map, Function.comp_apply] at ha
      obtain ⟨p, hp, rfl⟩ := ha
      exact hw p hp
    · intro a ha
      rw [args_subst] at ha
      simp only [GOp.args, List.map_map, List.mem_map, Function.comp_apply] at ha
      obtain ⟨p, hp, rfl⟩ := ha
      exact .inr (hb hb' p hp)
    · intro a ha
      rw [args_subst] at ha
      simp only [GOp.args, Option.toList_some, List.map_cons, List.map_nil, List.mem_cons, List.not_mem_nil, or_false] at ha
      rcases ha with rfl | rfl | rfl
      · exact .inr (.inr hx)
      · rw [hσ _ (by omega)]; exact .inr (.inl rfl)
      · rw [hσ _ (by omega)]; exact .inl rfl
  · simp only [List.append_nil, List.cons_append, List.nil_append, List.map_cons]
    refine ⟨?_, ?_, hsp (.inl rfl)⟩
    · intro a ha
      rw [args_subst] at ha
      simp only [GOp.args, List.map_map, List.mem_map, Function.comp_apply] at ha
      obtain ⟨p, hp, rfl⟩ := ha
      exact hw p hp
    · intro a ha
      rw [args_subst] at ha
      simp only [GOp.args, Option.toList_none, List.map_cons, List.map_nil, List.mem_cons, List.not_mem_nil, or_false] at ha
      rcases ha with rfl | rfl
      · exact .inr hx
      · rw [hσ _ (by omega)]; exact .inl rfl

theorem map_fst_subst {l : List (ℕ × GOp V)} {σ : ℕ → ℕ} :
    (l.map fun p => (p.1, p.2.subst σ)).map Prod.fst = l.map Prod.fst := by
  rw [List.map_map]
  rfl

open Classical in
/-- With Split, the operations can be sorted. -/
theorem Found.sortable {args : List ℕ} {uses : ℕ → List (Option ℕ)} {ty : ℕ → Option (List ℕ)} {fresh : ℕ}
    {g : Graph V} {root : ℕ} {c1 : ConvOp} (F : Found args uses ty fresh g root c1) {at_ : ℕ} :
    ∃ l, l.Perm (rewritten g at_ (newNodes fresh c1 (candidates g (uses c1.x)) ++
        splitNodes ty fresh (candidates g (uses c1.x))) ((candidates g (uses c1.x)).map Prod.fst)
        (splitName fresh ((candidates g (uses c1.x)).map Prod.fst))).nodes ∧ Ordered args l := by
  set cs := candidates g (uses c1.x) with hcs
  set ns := cs.map Prod.fst with hns
  set σ := splitName fresh ns with hσd
  set new := newNodes (V := V) fresh c1 cs ++ splitNodes ty fresh cs with hnew
  obtain ⟨hn1, hn2, hn3, hn4⟩ := names_new (V := V) (fresh := fresh) (c1 := c1) (cs := cs) (ty := ty)
  obtain ⟨ho1, ho2, ho3⟩ := ordered_iff.1 F.wf.1
  let D : ℕ → Prop := fun n => ∃ c ∈ ns, Dep g c n
  let P : ℕ → Prop := fun n => n ∉ ns ∧ ¬ D n
  let Q : ℕ → Prop := fun n => n ∉ ns ∧ D n
  let sub : ℕ × GOp V → ℕ × GOp V := fun p => (p.1, p.2.subst σ)
  have hσ1 : ∀ a, a ∉ ns → σ a = a := fun a ha => if_neg ha
  have hσ2 : ∀ a, fresh ≤ a → σ a = a := fun a ha => hσ1 a fun h => by have := F.lt_fresh h; omega
  have hσ3 : ∀ a ∈ ns, σ a ∈ new.map Prod.fst := by
    intro a ha
    rw [hσd, splitName, if_pos ha, hnew, List.map_append]
    refine List.mem_append_right _ (hn4 _ ?_)
    have := List.idxOf_lt_length_of_mem ha
    rwa [hns, List.length_map] at this
  refine ⟨((g.nodes.filter fun p => P p.1).map sub) ++ (new.map sub) ++ ((g.nodes.filter fun p => Q p.1).map sub),
    ?_, ?_⟩
  · have h1 : (rewritten g at_ new ns σ).nodes = ((g.nodes.take (at_ + 1)).filter fun p => p.1 ∉ ns).map sub ++
        (new.map sub) ++ ((g.nodes.drop (at_ + 1)).filter fun p => p.1 ∉ ns).map sub := by
      simp only [rewritten, insertAfter, List.filter_append, List.map_append]
      congr 2
      have : (new.filter fun p => p.1 ∉ ns) = new := by
        rw [List.filter_eq_self]
        intro p hp
        simp only [decide_eq_true_eq]
        intro h
        have h2 := F.lt_fresh h
        have h3 := hn1 p.1 (List.mem_map_of_mem hp)
        omega
      rw [this]
    have h2 : (((g.nodes.filter fun p => P p.1) ++ g.nodes.filter fun p => Q p.1)).Perm
        (((g.nodes.take (at_ + 1)).filter fun p => p.1 ∉ ns) ++ (g.nodes.drop (at_ + 1)).filter fun p => p.1 ∉ ns) := by
      rw [← List.filter_append, List.take_append_drop]
      have h3 := List.filter_append_perm (fun p : ℕ × GOp V => decide (¬ D p.1)) (g.nodes.filter fun p => p.1 ∉ ns)
      refine List.Perm.trans ?_ h3
      rw [List.filter_filter, List.filter_filter]
      refine List.Perm.append (List.Perm.of_eq ?_) (List.Perm.of_eq ?_)
      · refine List.filter_congr fun p _ => ?_
        simp only [P, Bool.decide_and, Bool.and_comm]
      · refine List.filter_congr fun p _ => ?_
        simp only [Q, Bool.decide_and, decide_not, Bool.not_not, Bool.and_comm]
    rw [h1, List.append_assoc, List.append_assoc]
    refine (List.Perm.append_left _ List.perm_append_comm).trans ?_
    refine List.Perm.trans ?_ (List.Perm.append_left _ List.perm_append_comm)
    rw [← List.append_assoc, ← List.append_assoc]
    refine List.Perm.append_right _ ?_
    rw [← List.map_append, ← List.map_append]
    exact h2.map sub
  · rw [ordered_iff]
    have hsubP : ∀ n ∈ ((g.nodes.filter fun p => P p.1).map sub).map Prod.fst, n ∈ g.nodes.map Prod.fst ∧ P n := by
      intro n hn
      rw [map_fst_subst] at hn
      obtain ⟨p, hp, rfl⟩ := List.mem_map.1 hn
      obtain ⟨h1, h2⟩ := List.mem_filter.1 hp
      exact ⟨List.mem_map_of_mem h1, by simpa using h2⟩
    have hsubQ : ∀ n ∈ ((g.nodes.filter fun p => Q p.1).map sub).map Prod.fst, n ∈ g.nodes.map Prod.fst ∧ Q n := by
      intro n hn
      rw [map_fst_subst] at hn
      obtain ⟨p, hp, rfl⟩ := List.mem_map.1 hn
      obtain ⟨h1, h2⟩ := List.mem_filter.1 hp
      exact ⟨List.mem_map_of_mem h1, by simpa using h2⟩
    have hsubN : (new.map sub).map Prod.fst = new.map Prod.fst := map_fst_subst
    have harg : ∀ q ∈ g.nodes, ∀ a ∈ q.2.args, (a ∈ ns ∨ D a) → D q.1 := by
      rintro q hq a ha (h | ⟨c, hc, h⟩)
      · exact ⟨a, h, .base hq ha⟩
      · exact ⟨c, hc, .step h hq ha⟩
    have hnsD : ∀ c ∈ ns, ¬ D c := fun c hc ⟨c', hc', h⟩ => F.parallel hc' hc h
    have hP : ∀ p ∈ cs, ∀ a ∈ (GOp.conv (V := V) p.2).args, P a := by
      intro p hp a ha
      have h1 := (F.mem.1 hp).1
      have h2 : ¬ D p.1 := hnsD _ (List.mem_map_of_mem hp)
      exact ⟨fun h => h2 (harg _ h1 a ha (.inl h)), fun h => h2 (harg _ h1 a ha (.inr h))⟩
    have hPk : ∀ p ∈ cs, ∀ a ∈ (GOp.conv (V := V) p.2).args, σ a ∈ ((g.nodes.filter fun p => P p.1).map sub).map Prod.fst ∨
        σ a ∈ args := by
      intro p hp a ha
      have hPa := hP p hp a ha
      rw [hσ1 a hPa.1]
      rcases F.arg_of (F.mem.1 hp).1 ha with h | h
      · exact .inr h
      · refine .inl ?_
        rw [map_fst_subst]
        obtain ⟨q, hq, rfl⟩ := List.mem_map.1 h
        exact List.mem_map_of_mem (List.mem_filter.2 ⟨hq, by simpa using hPa⟩)
    refine ⟨?_, ?_, ?_⟩
    · rw [List.map_append, List.map_append, List.append_assoc, List.nodup_append]
      refine ⟨?_, ?_, ?_⟩
      · rw [map_fst_subst]
        exact List.Nodup.sublist (List.Sublist.map _ List.filter_sublist) ho1
      · rw [List.nodup_append]
        refine ⟨by rw [hsubN]; exact hn2, ?_, ?_⟩
        · rw [map_fst_subst]
          exact List.Nodup.sublist (List.Sublist.map _ List.filter_sublist) ho1
        · intro a ha b hb
          rw [hsubN] at ha
          have h1 := hn1 a ha
          have h2 := F.fresh b (.inr (hsubQ b hb).1)
          omega
      · intro a ha b hb
        rcases List.mem_append.1 hb with hb | hb
        · rw [hsubN] at hb
          have h1 := hn1 b hb
          have h2 := F.fresh a (.inr (hsubP a ha).1)
          omega
        · rintro rfl
          exact (hsubP a ha).2.2 (hsubQ a hb).2.2
    · intro n hn
      rw [List.map_append, List.map_append, List.mem_append, List.mem_append] at hn
      rcases hn with (hn | hn) | hn
      · exact ho2 n (hsubP n hn).1
      · rw [hsubN] at hn
        intro h
        have h1 := hn1 n hn
        have h2 := F.fresh n (.inl h)
        omega
      · exact ho2 n (hsubQ n hn).1
    · rw [argsOk_append, argsOk_append]
      refine ⟨⟨?_, ?_⟩, ?_⟩
      · refine argsOk_filter ho3 (fun a h _ => h) ?_
        intro q hq hPq a ha
        refine .inr ⟨⟨fun h => hPq.2 (harg q hq a ha (.inl h)), fun h => hPq.2 (harg q hq a ha (.inr h))⟩, ?_⟩
        exact hσ1 a fun h => hPq.2 (harg q hq a ha (.inl h))
      · have := argsOk_new (V := V) (fresh := fresh) (c1 := c1) (cs := cs) (ty := ty) (σ := σ) (split := true)
          (k := fun a => a ∈ ((g.nodes.filter fun p => P p.1).map sub).map Prod.fst ∨ a ∈ args)
          (hPk _ F.root_mem _ (by simp [GOp.args])) (fun p hp => hPk p hp _ (by simp [GOp.args])) ?_ hσ2
        · exact this
        · intro hb p hp
          have hpb : p.2.b.isSome = true := by
            obtain ⟨a, l, hal⟩ : ∃ a l, cs = a :: l := by
              cases hcc : cs with
              | nil => rw [hcc] at hp; cases hp
              | cons a l => exact ⟨a, l, rfl⟩
            rw [hal, List.head?_cons, Option.bind_some] at hb
            have ha : a ∈ cs := by rw [hal]; simp
            rw [← hb]
            exact (F.compat hp ha).2.2
          obtain ⟨b, hb⟩ := Option.isSome_iff_exists.1 hpb
          exact hPk p hp _ (by simp [GOp.args, hb])
      · refine argsOk_filter ho3 (fun a h _ => .inr h) ?_
        intro q hq hQq a ha
        by_cases hns' : a ∈ ns
        · refine .inl (.inl ?_)
          rw [List.map_append, hsubN]
          exact List.mem_append_right _ (hσ3 a hns')
        · rw [hσ1 a hns']
          rcases F.arg_of hq ha with h | h
          · exact .inl (.inr h)
          · by_cases hDa : D a
            · exact .inr ⟨⟨hns', hDa⟩, rfl⟩
            · refine .inl (.inl ?_)
              rw [List.map_append]
              refine List.mem_append_left _ ?_
              rw [map_fst_subst]
              obtain ⟨r, hr, rfl⟩ := List.mem_map.1 h
              exact List.mem_map_of_mem (List.mem_filter.2 ⟨hr, by simpa using ⟨hns', hDa⟩⟩)

end Verif.Recompose
