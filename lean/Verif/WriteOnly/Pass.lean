import Verif.WriteOnly.Sim

/-! # The pass erases only what does not matter -/

namespace Verif.WriteOnly

variable {V M W : Type}

/-! ### Effects -/

/-- The part of `Harm` that is about effects. -/
def EffOk (D : Var → Prop) (o : Op) : Prop :=
  o.iface = true ∧ ∀ e x, (e, x) ∈ o.effects → e = Eff.read ∨ ∃ d, x = some d ∧ D d

theorem mem_effectsOn {o : Op} {x : Var} {e : Eff} : e ∈ o.effectsOn x ↔ (e, some x) ∈ o.effects := by
  unfold Op.effectsOn
  simp only [List.mem_filterMap, Option.ite_none_right_eq_some, Option.some.injEq, Prod.exists]
  constructor
  · rintro ⟨a, b, h, rfl, rfl⟩; exact h
  · intro h; exact ⟨e, some x, h, rfl, rfl⟩

theorem onlyReads_effOk {D : Var → Prop} {o : Op} (h : onlyReads o = true) : EffOk D o := by
  unfold onlyReads at h
  simp only [Bool.and_eq_true, List.all_eq_true, beq_iff_eq] at h
  exact ⟨h.1, fun e x he => Or.inl (h.2 (e, x) he)⟩

theorem mem_users {x : Var} : ∀ {c : Code} {p : Option ℕ} {o : Op}, o ∈ c.ops → x ∈ o.operands →
    ∃ q, (o, q) ∈ c.users x p
  | .nil, _, _, h, _ => by simp [Code.ops] at h
  | .op o' rest, p, o, h, hx => by
    simp only [Code.ops, List.mem_cons] at h
    simp only [Code.users, List.mem_append, List.mem_map, List.mem_filter, beq_iff_eq]
    rcases h with rfl | h
    · exact ⟨p, Or.inl ⟨x, ⟨hx, rfl⟩, rfl⟩⟩
    · obtain ⟨q, hq⟩ := mem_users (p := p) h hx
      exact ⟨q, Or.inr hq⟩
  | .loop hd body rest, p, o, h, hx => by
    simp only [Code.ops, List.mem_append] at h
    simp only [Code.users, List.mem_append]
    rcases h with h | h
    · obtain ⟨q, hq⟩ := mem_users (p := if hd.isFor then some hd.id else none) h hx
      exact ⟨q, Or.inl hq⟩
    · obtain ⟨q, hq⟩ := mem_users (p := p) h hx
      exact ⟨q, Or.inr hq⟩

theorem users_mem {x : Var} : ∀ {c : Code} {p : Option ℕ} {u : Op × Option ℕ}, u ∈ c.users x p →
    u.1 ∈ c.ops ∧ x ∈ u.1.operands
  | .nil, _, _, h => by simp [Code.users] at h
  | .op o' rest, p, u, h => by
    simp only [Code.users, List.mem_append, List.mem_map, List.mem_filter, beq_iff_eq] at h
    simp only [Code.ops, List.mem_cons]
    rcases h with ⟨y, ⟨hy, rfl⟩, rfl⟩ | h
    · exact ⟨Or.inl rfl, hy⟩
    · obtain ⟨h1, h2⟩ := users_mem h
      exact ⟨Or.inr h1, h2⟩
  | .loop hd body rest, p, u, h => by
    simp only [Code.users, List.mem_append] at h
    simp only [Code.ops, List.mem_append]
    rcases h with h | h
    · obtain ⟨h1, h2⟩ := users_mem h
      exact ⟨Or.inl h1, h2⟩
    · obtain ⟨h1, h2⟩ := users_mem h
      exact ⟨Or.inr h1, h2⟩

/-! ### The candidates -/

theorem prune_subset {f : Func} : ∀ {n : ℕ} {cands : List Var}, prune f n cands ⊆ cands
  | 0, _ => List.Subset.refl _
  | n + 1, cands => by
    unfold prune
    split
    · exact List.Subset.refl _
    · exact fun x hx => List.mem_of_mem_filter (prune_subset hx)

theorem prune_stable {f : Func} : ∀ {n : ℕ} {cands : List Var}, cands.length ≤ n →
    ∀ x ∈ prune f n cands, hasLiveCoWrite f (prune f n cands) x = false
  | 0, cands, h => by
    have : cands = [] := List.length_eq_zero_iff.1 (Nat.le_zero.1 h)
    subst this
    intro x hx
    simp [prune] at hx
  | n + 1, cands, h => by
    unfold prune
    split
    · rename_i he
      intro x hx
      unfold pruneOnce at he
      rw [List.length_filter_eq_length_iff] at he
      simpa using he x hx
    · rename_i he
      apply prune_stable
      have h1 : (pruneOnce f cands).length ≤ cands.length := List.length_filter_le _ _
      omega

theorem mem_toEliminate {f : Func} {x : Var} (h : x ∈ toEliminate f) :
    x ∈ f.code.allocs ∧ isWriteOnly f x = true ∧
      ∀ o ∈ f.code.ops, x ∈ o.operands → liveCoWrite (toEliminate f) x o = false := by
  unfold toEliminate at h
  simp only [List.mem_filter, List.contains_iff_mem] at h
  have hw := prune_subset h.2
  simp only [List.mem_filter] at hw
  refine ⟨h.1, hw.2, fun o ho hx => ?_⟩
  have hs := prune_stable (Nat.le_refl (f.code.allocs.filter (isWriteOnly f)).length) x h.2
  unfold hasLiveCoWrite at hs
  rw [List.any_eq_false] at hs
  obtain ⟨q, hq⟩ := mem_users (p := none) ho hx
  have h1 := Bool.eq_false_iff.2 (hs _ hq)
  rw [← h1]
  unfold liveCoWrite
  congr 2
  funext y
  congr 2
  rw [Bool.eq_iff_iff]
  unfold toEliminate
  simp only [List.mem_filter, List.contains_iff_mem, and_iff_right_iff_imp]
  intro hy
  exact List.mem_of_mem_filter (prune_subset hy)

theorem user_effOk {f : Func} (hf : WellFormed f) {x : Var} (h : x ∈ toEliminate f) {o : Op}
    (ho : o ∈ f.code.ops) (hx : x ∈ o.operands) : EffOk (· ∈ toEliminate f) o := by
  obtain ⟨-, hw, hl⟩ := mem_toEliminate h
  unfold isWriteOnly at hw
  simp only [Bool.and_eq_true, List.all_eq_true] at hw
  obtain ⟨q, hq⟩ := mem_users (p := none) ho hx
  have h1 := hw.1 _ hq
  unfold writesOnly at h1
  simp only [Bool.and_eq_true, Bool.not_eq_true', List.isEmpty_eq_false_iff, List.all_eq_true,
    bne_iff_ne] at h1
  obtain ⟨⟨hi, hne⟩, hr⟩ := h1
  obtain ⟨e0, he0⟩ := List.exists_mem_of_ne_nil _ hne
  have ht := hf.tame o ho ⟨x, hx, e0, mem_effectsOn.1 he0, hr e0 he0⟩
  refine ⟨hi, fun e y he => ?_⟩
  by_cases hre : e = Eff.read
  · exact Or.inl hre
  · right
    obtain ⟨z, hz, rfl, hwz⟩ := ht e y he hre
    refine ⟨z, rfl, ?_⟩
    rcases hwz with rfl | hone
    · by_cases hzx : z = x
      · exact hzx ▸ h
      · have h2 := hl o ho hx
        unfold liveCoWrite at h2
        simp only [Bool.or_eq_false_iff, List.any_eq_false, Bool.and_eq_true, bne_iff_ne,
          Bool.not_eq_true', List.contains_eq_mem, decide_eq_false_iff_not,
          not_and, not_not, decide_eq_true_eq] at h2
        have h3 := h2.2 z hz
        exact h3 ⟨hzx, mem_effectsOn.2 he⟩
    · rw [hone, List.mem_singleton] at hx
      exact hx ▸ h

/-! ### Erasing -/

/-- What has the number `i` may be erased. -/
def HarmId (D : Var → Prop) (i : ℕ) : Code → Prop
  | .nil => True
  | .op o rest => (o.id = i → EffOk D o) ∧ HarmId D i rest
  | .loop h body rest => (h.id = i → ∀ o ∈ body.ops, EffOk D o) ∧
      (h.id ≠ i → HarmId D i body) ∧ HarmId D i rest

theorem allHarm_of {D E : Var → Prop} : ∀ {c : Code}, (∀ o ∈ c.ops, EffOk D o) →
    (∀ x ∈ c.defs, E x) → AllHarm D E c
  | .nil, _, _ => trivial
  | .op o rest, h, hE =>
    ⟨⟨(h o (by simp [Code.ops])).1, (h o (by simp [Code.ops])).2,
      fun x hx => hE x (by simp [Code.defs, hx])⟩,
     allHarm_of (fun p hp => h p (by simp [Code.ops, hp])) fun x hx => hE x (by simp [Code.defs, hx])⟩
  | .loop hd body rest, h, hE =>
    ⟨hE _ (by simp [Code.defs]),
     allHarm_of (fun p hp => h p (by simp [Code.ops, hp])) (fun x hx => hE x (by simp [Code.defs, hx])),
     allHarm_of (fun p hp => h p (by simp [Code.ops, hp])) fun x hx => hE x (by simp [Code.defs, hx])⟩

theorem sub_erase {D E : Var → Prop} {i : ℕ} : ∀ {c : Code}, HarmId D i c →
    (∀ x ∈ c.defsOf i, E x) → Sub D E c (c.erase i)
  | .nil, _, _ => .nil
  | .op o rest, h, hE => by
    have hr := sub_erase (c := rest) h.2 fun x hx => hE x (by simp [Code.defsOf, hx])
    unfold Code.erase
    by_cases e : o.id = i
    · rw [if_pos e]
      refine .dropOp ⟨(h.1 e).1, (h.1 e).2, fun x hx => hE x ?_⟩ hr
      simp [Code.defsOf, e, hx]
    · rw [if_neg e]
      exact .keepOp hr
  | .loop hd body rest, h, hE => by
    have hr := sub_erase (c := rest) h.2.2 fun x hx => hE x (by simp [Code.defsOf, hx])
    unfold Code.erase
    by_cases e : hd.id = i
    · rw [if_pos e]
      refine .dropLoop (hE _ (by simp [Code.defsOf, e])) (allHarm_of (h.1 e) fun x hx => hE x ?_) hr
      simp [Code.defsOf, e, hx]
    · rw [if_neg e]
      refine .keepLoop (sub_erase (h.2.1 e) fun x hx => hE x ?_) hr
      simp [Code.defsOf, e, hx]

theorem Sub.ids_sublist {D E : Var → Prop} {a b : Code} (h : Sub D E a b) :
    b.ids.Sublist a.ids := by
  induction h with
  | nil => exact List.Sublist.refl _
  | keepOp _ ih => exact ih.cons_cons _
  | dropOp _ _ ih => exact ih.cons _
  | keepLoop _ _ ihb ihr => exact (ihb.append ihr).cons_cons _
  | dropLoop _ _ _ ih => exact (ih.trans (List.sublist_append_right _ _)).cons _

theorem ops_ids {c : Code} : ∀ {o : Op}, o ∈ c.ops → o.id ∈ c.ids := by
  induction c with
  | nil => intro o h; simp [Code.ops] at h
  | op o' rest ih =>
    intro o h
    simp only [Code.ops, List.mem_cons] at h
    simp only [Code.ids, List.mem_cons]
    rcases h with rfl | h
    · exact Or.inl rfl
    · exact Or.inr (ih h)
  | loop hd body rest ihb ihr =>
    intro o h
    simp only [Code.ops, List.mem_append] at h
    simp only [Code.ids, List.mem_cons, List.mem_append]
    exact Or.inr (h.imp ihb ihr)

/-- If something with the number of an operation is left, it is that operation. -/
theorem Sub.mem_of_id {D E : Var → Prop} {o : Op} {a b : Code} (hs : Sub D E a b) :
    a.ids.Nodup → o ∈ a.ops → o.id ∈ b.ids → o ∈ b.ops := by
  induction hs with
  | nil => intro _ h _; exact h
  | @keepOp p r r' hs ih =>
    intro hnn hoo hii
    simp only [Code.ids, List.nodup_cons, Code.ops, List.mem_cons] at hnn hoo hii ⊢
    rcases hoo with rfl | hoo
    · exact Or.inl rfl
    · rcases hii with hii | hii
      · exact absurd (hii ▸ ops_ids hoo) hnn.1
      · exact Or.inr (ih hnn.2 hoo hii)
  | @dropOp p r r' _ hs ih =>
    intro hnn hoo hii
    simp only [Code.ids, List.nodup_cons, Code.ops, List.mem_cons] at hnn hoo
    rcases hoo with rfl | hoo
    · exact absurd (hs.ids_sublist.subset hii) hnn.1
    · exact ih hnn.2 hoo hii
  | @keepLoop hd b b' r r' hs1 hs2 ih1 ih2 =>
    intro hnn hoo hii
    simp only [Code.ids, List.nodup_cons, List.mem_append, not_or, List.nodup_append,
      Code.ops, List.mem_cons] at hnn hoo hii ⊢
    obtain ⟨⟨hn1, hn2⟩, hnb, hnr, hbr⟩ := hnn
    rcases hoo with hoo | hoo
    · rcases hii with hii | hii | hii
      · exact absurd (hii ▸ ops_ids hoo) hn1
      · exact Or.inl (ih1 hnb hoo hii)
      · exact absurd rfl (hbr _ (ops_ids hoo) _ (hs2.ids_sublist.subset hii))
    · rcases hii with hii | hii | hii
      · exact absurd (hii ▸ ops_ids hoo) hn2
      · exact absurd rfl (hbr _ (hs1.ids_sublist.subset hii) _ (ops_ids hoo))
      · exact Or.inr (ih2 hnr hoo hii)
  | @dropLoop hd b r r' _ _ hs ih =>
    intro hnn hoo hii
    simp only [Code.ids, List.nodup_cons, List.mem_append, not_or, List.nodup_append,
      Code.ops] at hnn hoo
    obtain ⟨⟨hn1, hn2⟩, hnb, hnr, hbr⟩ := hnn
    rcases hoo with hoo | hoo
    · exact absurd rfl (hbr _ (ops_ids hoo) _ (hs.ids_sublist.subset hii))
    · exact ih hnr hoo hii

theorem harmId_not_mem {D : Var → Prop} {i : ℕ} : ∀ {c : Code}, i ∉ c.ids → HarmId D i c
  | .nil, _ => trivial
  | .op o rest, h => by
    simp only [Code.ids, List.mem_cons, not_or] at h
    exact ⟨fun e => absurd e.symm h.1, harmId_not_mem h.2⟩
  | .loop hd body rest, h => by
    simp only [Code.ids, List.mem_cons, List.mem_append, not_or] at h
    exact ⟨fun e => absurd e.symm h.1, fun _ => harmId_not_mem h.2.1, harmId_not_mem h.2.2⟩

/-- If one operation with the number may be erased, then it is the only one. -/
theorem harmId_op {D : Var → Prop} {o : Op} (ho : EffOk D o) : ∀ {c : Code}, c.ids.Nodup →
    (o ∈ c.ops ∨ o.id ∉ c.ids) → HarmId D o.id c
  | .nil, _, _ => trivial
  | .op o' rest, hn, h => by
    simp only [Code.ids, List.nodup_cons] at hn
    simp only [Code.ops, List.mem_cons, Code.ids, not_or] at h
    rcases h with (rfl | h) | h
    · exact ⟨fun _ => ho, harmId_not_mem hn.1⟩
    · refine ⟨fun e => absurd (e ▸ ops_ids h) hn.1, harmId_op ho hn.2 (Or.inl h)⟩
    · exact ⟨fun e => absurd e.symm h.1, harmId_not_mem h.2⟩
  | .loop hd body rest, hn, h => by
    simp only [Code.ids, List.nodup_cons, List.mem_append, not_or, List.nodup_append] at hn
    simp only [Code.ops, List.mem_append, Code.ids, List.mem_cons, not_or] at h
    obtain ⟨⟨hn1, hn2⟩, hb, hr, hbr⟩ := hn
    rcases h with (h | h) | h
    · refine ⟨fun e => absurd (e ▸ ops_ids h) hn1, fun _ => harmId_op ho hb (Or.inl h),
        harmId_not_mem fun hm => hbr _ (ops_ids h) _ hm rfl⟩
    · refine ⟨fun e => absurd (e ▸ ops_ids h) hn2,
        fun _ => harmId_not_mem fun hm => hbr _ hm _ (ops_ids h) rfl, harmId_op ho hr (Or.inl h)⟩
    · exact ⟨fun e => absurd e.symm h.1, fun _ => harmId_not_mem h.2.1, harmId_not_mem h.2.2⟩

theorem bodyOf_ids {i : ℕ} : ∀ {c b : Code}, c.bodyOf i = some b → i ∈ c.ids
  | .nil, b, h => by simp [Code.bodyOf] at h
  | .op o rest, b, h => by
    simp only [Code.bodyOf] at h
    simp [Code.ids, bodyOf_ids h]
  | .loop hd body rest, b, h => by
    unfold Code.bodyOf at h
    by_cases e : hd.id = i
    · simp [Code.ids, e]
    · rw [if_neg e] at h
      rcases Option.or_eq_some_iff.1 h with h | ⟨-, h⟩ <;> simp [Code.ids, bodyOf_ids h]

theorem harmId_loop {D : Var → Prop} {i : ℕ} : ∀ {c b : Code}, c.ids.Nodup →
    c.bodyOf i = some b → (∀ o ∈ b.ops, EffOk D o) → HarmId D i c
  | .nil, b, _, h, _ => by simp [Code.bodyOf] at h
  | .op o rest, b, hn, h, hb => by
    simp only [Code.bodyOf] at h
    simp only [Code.ids, List.nodup_cons] at hn
    exact ⟨fun e => absurd (e ▸ bodyOf_ids h) hn.1, harmId_loop hn.2 h hb⟩
  | .loop hd body rest, b, hn, h, hb => by
    simp only [Code.ids, List.nodup_cons, List.mem_append, not_or, List.nodup_append] at hn
    obtain ⟨⟨hn1, hn2⟩, hnb, hnr, hbr⟩ := hn
    unfold Code.bodyOf at h
    by_cases e : hd.id = i
    · rw [if_pos e] at h
      cases h
      exact ⟨fun _ => hb, fun hne => absurd e hne, harmId_not_mem (e ▸ hn2)⟩
    · rw [if_neg e] at h
      refine ⟨fun e' => absurd e' e, fun _ => ?_, ?_⟩
      · rcases Option.or_eq_some_iff.1 h with h | ⟨-, h⟩
        · exact harmId_loop hnb h hb
        · exact harmId_not_mem fun hm => hbr _ hm _ (bodyOf_ids h) rfl
      · rcases Option.or_eq_some_iff.1 h with h | ⟨-, h⟩
        · exact harmId_not_mem fun hm => hbr _ (bodyOf_ids h) _ hm rfl
        · exact harmId_loop hnr h hb

theorem erase_ids {i : ℕ} : ∀ {c : Code}, i ∉ (c.erase i).ids
  | .nil => by simp [Code.erase, Code.ids]
  | .op o rest => by
    unfold Code.erase
    split
    · exact erase_ids
    · rename_i e
      simp only [Code.ids, List.mem_cons, not_or]
      exact ⟨fun h => e h.symm, erase_ids⟩
  | .loop hd body rest => by
    unfold Code.erase
    split
    · exact erase_ids
    · rename_i e
      simp only [Code.ids, List.mem_cons, List.mem_append, not_or]
      exact ⟨fun h => e h.symm, erase_ids, erase_ids⟩

/-! ### Functions -/

/-- The second function is the first one without operations and loops that do not matter. -/
structure Er (D : Var → Prop) (f g : Func) : Prop where
  args : g.args = f.args
  returns : g.returns = f.returns
  sub : ∀ E : Var → Prop, (∀ x, x ∉ g.uses → E x) → Sub D E f.code g.code

theorem Er.refl (D : Var → Prop) (f : Func) : Er D f f := ⟨rfl, rfl, fun E _ => Sub.refl D E _⟩

theorem Er.uses {D : Var → Prop} {f g : Func} (h : Er D f g) {x : Var} (hx : x ∈ g.uses) :
    x ∈ f.uses := by
  have hs := h.sub (fun _ => True) fun _ _ => trivial
  unfold Func.uses at hx ⊢
  rw [h.returns] at hx
  rcases List.mem_append.1 hx with hx | hx
  · exact List.mem_append_left _ (hs.mem_uses x hx)
  · exact List.mem_append_right _ hx

theorem Er.trans {D : Var → Prop} {f g h : Func} (h1 : Er D f g) (h2 : Er D g h) : Er D f h :=
  ⟨h2.args.trans h1.args, h2.returns.trans h1.returns, fun E hE =>
    (h1.sub E fun x hx => hE x fun hm => hx (h2.uses hm)).trans (h2.sub E hE)⟩

theorem Er.ops {D : Var → Prop} {f g : Func} (h : Er D f g) {o : Op} (ho : o ∈ g.code.ops) :
    o ∈ f.code.ops := (h.sub (fun _ => True) fun _ _ => trivial).mem_ops o ho

theorem Er.ids {D : Var → Prop} {f g : Func} (h : Er D f g) : g.code.ids.Sublist f.code.ids :=
  (h.sub (fun _ => True) fun _ _ => trivial).ids_sublist

theorem func_erase {f g : Func} {i : ℕ} (h : f.erase i = some g) :
    g = { f with code := f.code.erase i } ∧ i ∈ f.code.ids ∧ ∀ x ∈ f.code.defsOf i, x ∉ g.uses := by
  unfold Func.erase at h
  dsimp only at h
  split at h
  · rename_i hc
    simp only [Option.some.injEq] at h
    simp only [Bool.and_eq_true, List.all_eq_true, Bool.not_eq_true',
      List.contains_eq_mem, decide_eq_false_iff_not, decide_eq_true_eq] at hc
    exact ⟨h.symm, hc.1, h ▸ hc.2⟩
  · cases h

theorem er_erase {D : Var → Prop} {f g : Func} {i : ℕ} (hh : HarmId D i f.code)
    (h : f.erase i = some g) : Er D f g := by
  obtain ⟨e, -, hu⟩ := func_erase h
  refine ⟨by rw [e], by rw [e], fun E hE => ?_⟩
  rw [e]
  exact sub_erase hh fun x hx => hE x (hu x hx)

theorem er_eraseUsers {D : Var → Prop} {f0 : Func} (hn : f0.code.ids.Nodup) :
    ∀ (us gone : List ℕ) {f g : Func}, Er D f0 f →
      (∀ u ∈ us, ∃ o ∈ f0.code.ops, o.id = u ∧ EffOk D o) → eraseUsers gone us f = some g →
      Er D f g
  | [], gone, f, g, _, _, h => by
    simp only [eraseUsers, Option.some.injEq] at h
    exact h ▸ Er.refl D f
  | u :: rest, gone, f, g, h0, hu, h => by
    unfold eraseUsers at h
    have hrest : ∀ v ∈ rest, ∃ o ∈ f0.code.ops, o.id = v ∧ EffOk D o :=
      fun v hv => hu v (by simp [hv])
    by_cases hg : gone.contains u
    · rw [if_pos hg] at h
      exact er_eraseUsers hn rest gone h0 hrest h
    · rw [if_neg hg] at h
      split at h
      · cases h
      · simp only [Option.bind_eq_some_iff] at h
        obtain ⟨f1, h1, h2⟩ := h
        obtain ⟨o, ho, rfl, he⟩ := hu u (by simp)
        have hn' : f.code.ids.Nodup := h0.ids.nodup hn
        have hh : HarmId D o.id f.code := by
          by_cases hm : o ∈ f.code.ops
          · exact harmId_op he hn' (Or.inl hm)
          · by_cases hi : o.id ∈ f.code.ids
            · -- something else with the same number: impossible in `f0`
              exfalso
              exact hm ((h0.sub _ fun _ _ => trivial : Sub _ (fun _ => True) _ _).mem_of_id hn ho hi)
            · exact harmId_not_mem hi
        have hE := er_erase hh h1
        exact hE.trans (er_eraseUsers hn rest (o.id :: gone) (h0.trans hE) hrest h2)

theorem er_forAll {D : Var → Prop} {f0 : Func} {step : ℕ → Func → Option Func} :
    ∀ (l : List ℕ) {f g : Func},
      (∀ i ∈ l, ∀ {f g : Func}, Er D f0 f → step i f = some g → Er D f g) → Er D f0 f →
      forAll step l f = some g → Er D f g
  | [], f, g, _, _, h => by
    simp only [forAll, Option.some.injEq] at h
    exact h ▸ Er.refl D f
  | i :: rest, f, g, hs, h0, h => by
    simp only [forAll, Option.bind_eq_some_iff] at h
    obtain ⟨f1, h1, h2⟩ := h
    have hE := hs i (by simp) h0 h1
    exact hE.trans (er_forAll rest (fun j hj => hs j (by simp [hj])) (h0.trans hE) h2)

theorem defOp_mem {x : Var} {c : Code} {o : Op} (h : c.defOp x = some o) :
    o ∈ c.ops ∧ x ∈ o.results := by
  unfold Code.defOp at h
  refine ⟨List.mem_of_find?_eq_some h, ?_⟩
  simpa using List.find?_some h

theorem er_cleanValue {D : Var → Prop} {f0 : Func} (hn : f0.code.ids.Nodup) {x : Var} {f g : Func}
    (h0 : Er D f0 f) (h : cleanValue x f = some g) : Er D f g := by
  unfold cleanValue at h
  split at h
  · cases h; exact Er.refl D f
  · simp only [Option.bind_eq_some_iff] at h
    obtain ⟨o, ho, h⟩ := h
    split at h
    · cases h; exact Er.refl D f
    · split at h
      · rename_i hr
        exact er_erase (harmId_op (onlyReads_effOk hr) (h0.ids.nodup hn)
          (Or.inl (defOp_mem ho).1)) h
      · cases h; exact Er.refl D f

theorem effectFree_effOk {D : Var → Prop} : ∀ {c : Code}, c.effectFree = true →
    ∀ o ∈ c.ops, EffOk D o
  | .nil, _, o, ho => by simp [Code.ops] at ho
  | .op o' rest, h, o, ho => by
    simp only [Code.effectFree, Bool.and_eq_true, List.isEmpty_iff] at h
    simp only [Code.ops, List.mem_cons] at ho
    rcases ho with rfl | ho
    · exact ⟨h.1.1, fun e x he => by rw [h.1.2] at he; simp at he⟩
    · exact effectFree_effOk h.2 o ho
  | .loop _ body rest, h, o, ho => by
    simp only [Code.effectFree, Bool.and_eq_true] at h
    simp only [Code.ops, List.mem_append] at ho
    rcases ho with ho | ho
    · exact effectFree_effOk h.1 o ho
    · exact effectFree_effOk h.2 o ho

theorem deadBody_effOk {D : Var → Prop} {us : List Var} : ∀ {c : Code}, deadBody us c = true →
    ∀ o ∈ c.ops, EffOk D o
  | .nil, _, o, ho => by simp [Code.ops] at ho
  | .op o' rest, h, o, ho => by
    simp only [deadBody, Bool.and_eq_true] at h
    simp only [Code.ops, List.mem_cons] at ho
    rcases ho with rfl | ho
    · exact onlyReads_effOk h.1.2
    · exact deadBody_effOk h.2 o ho
  | .loop _ body rest, h, o, ho => by
    simp only [deadBody, Bool.and_eq_true] at h
    simp only [Code.ops, List.mem_append] at ho
    rcases ho with ho | ho
    · exact effectFree_effOk h.1 o ho
    · exact deadBody_effOk h.2 o ho

theorem er_cleanLoop {D : Var → Prop} {f0 : Func} (hn : f0.code.ids.Nodup) {i : ℕ} {f g : Func}
    (h0 : Er D f0 f) (h : cleanLoop i f = some g) : Er D f g := by
  unfold cleanLoop at h
  simp only [Option.bind_eq_some_iff] at h
  obtain ⟨b, hb, h⟩ := h
  split at h
  · rename_i hd
    exact er_erase (harmId_loop (h0.ids.nodup hn) hb (deadBody_effOk hd)) h
  · cases h; exact Er.refl D f

theorem allocId_some {x : Var} {c : Code} {a : ℕ} (h : c.allocId x = some a) :
    ∃ o ∈ c.ops, o.isAlloc = true ∧ x ∈ o.results ∧ o.id = a := by
  unfold Code.allocId at h
  rw [Option.map_eq_some_iff] at h
  obtain ⟨o, ho, rfl⟩ := h
  have h1 := List.mem_of_find?_eq_some ho
  rw [List.mem_filter] at h1
  exact ⟨o, h1.1, h1.2, by simpa using List.find?_some ho, rfl⟩

theorem mem_defsOf {i : ℕ} : ∀ {c : Code} {o : Op}, o ∈ c.ops → o.id = i →
    ∀ x ∈ o.results, x ∈ c.defsOf i
  | .nil, o, h, _, _, _ => by simp [Code.ops] at h
  | .op o' rest, o, h, e, x, hx => by
    simp only [Code.ops, List.mem_cons] at h
    simp only [Code.defsOf, List.mem_append]
    rcases h with rfl | h
    · left; rw [if_pos e]; exact hx
    · right; exact mem_defsOf h e x hx
  | .loop hd body rest, o, h, e, x, hx => by
    simp only [Code.ops, List.mem_append] at h
    simp only [Code.defsOf, List.mem_append]
    rcases h with h | h
    · left
      split
      · refine List.mem_cons_of_mem _ ?_
        have : ∀ {c : Code}, o ∈ c.ops → x ∈ c.defs := by
          intro c
          induction c with
          | nil => intro h; simp [Code.ops] at h
          | op p r ih =>
            intro h
            simp only [Code.ops, List.mem_cons] at h
            simp only [Code.defs, List.mem_append]
            rcases h with rfl | h
            · exact Or.inl hx
            · exact Or.inr (ih h)
          | loop hd b r ihb ihr =>
            intro h
            simp only [Code.ops, List.mem_append] at h
            simp only [Code.defs, List.mem_cons, List.mem_append]
            exact Or.inr (h.imp ihb ihr)
        exact this h
      · exact mem_defsOf h e x hx
    · right; exact mem_defsOf h e x hx

/-- Eliminating one allocation erases only what does not matter; afterwards the allocation is not
used and its operation is gone. -/
theorem er_eliminateOne {f0 : Func} (hf : WellFormed f0)
    {order : List (Op × Option ℕ) → List (Op × Option ℕ)} (hord : ∀ l, (order l).Perm l)
    {x : Var} (hx : x ∈ toEliminate f0) {f g : Func} (h0 : Er (· ∈ toEliminate f0) f0 f)
    (h : eliminateOne order x f = some g) :
    Er (· ∈ toEliminate f0) f g ∧ x ∉ g.uses ∧
      ∃ o ∈ f0.code.ops, x ∈ o.results ∧ o.id ∉ g.code.ids := by
  unfold eliminateOne at h
  simp only [Option.bind_eq_some_iff] at h
  obtain ⟨a, ha, f1, h1, f2, h2, f3, h3, h4⟩ := h
  have e1 : Er (· ∈ toEliminate f0) f f1 := by
    refine er_eraseUsers hf.ids _ _ h0 ?_ h1
    intro u hu
    rw [List.mem_map] at hu
    obtain ⟨p, hp, rfl⟩ := hu
    obtain ⟨hp1, hp2⟩ := users_mem ((hord _).mem_iff.1 hp)
    exact ⟨p.1, h0.ops hp1, rfl, user_effOk hf hx (h0.ops hp1) hp2⟩
  obtain ⟨o, ho, hoa, hox, rfl⟩ := allocId_some ha
  have hoe : EffOk (· ∈ toEliminate f0) o := by
    obtain ⟨hi, y, hy, hye⟩ := hf.alloc o (h0.ops ho) hoa
    rw [hy, List.mem_singleton] at hox
    subst hox
    exact ⟨hi, fun e z he => Or.inr ⟨x, hye e z he, hx⟩⟩
  have h01 := h0.trans e1
  have hm1 : o ∈ f1.code.ops := by
    obtain ⟨-, hi, -⟩ := func_erase h2
    exact (h01.sub _ fun _ _ => trivial : Sub _ (fun _ => True) _ _).mem_of_id hf.ids (h0.ops ho) hi
  have e2 : Er (· ∈ toEliminate f0) f1 f2 :=
    er_erase (harmId_op hoe (h01.ids.nodup hf.ids) (Or.inl hm1)) h2
  have h02 := h01.trans e2
  have e3 : Er (· ∈ toEliminate f0) f2 f3 :=
    er_forAll _ (fun i _ f g h hs => er_cleanValue hf.ids h hs) h02 h3
  have h03 := h02.trans e3
  have e4 : Er (· ∈ toEliminate f0) f3 g :=
    er_forAll _ (fun i _ f g h hs => er_cleanLoop hf.ids h hs) h03 h4
  have e24 := e3.trans e4
  refine ⟨(e1.trans e2).trans e24, ?_, o, h0.ops ho, hox, ?_⟩
  · intro hu
    obtain ⟨-, -, hd⟩ := func_erase h2
    exact hd x (mem_defsOf hm1 rfl x hox) (e24.uses hu)
  · intro hi
    obtain ⟨e, -, -⟩ := func_erase h2
    have := e24.ids.subset hi
    rw [e] at this
    exact erase_ids this

theorem er_all {f0 : Func} (hf : WellFormed f0)
    {order : List (Op × Option ℕ) → List (Op × Option ℕ)} (hord : ∀ l, (order l).Perm l) :
    ∀ (l : List Var) {f g : Func}, (∀ x ∈ l, x ∈ toEliminate f0) →
      Er (· ∈ toEliminate f0) f0 f → forAll (eliminateOne order) l f = some g →
      Er (· ∈ toEliminate f0) f g ∧ ∀ x ∈ l, x ∉ g.uses ∧
        ∃ o ∈ f0.code.ops, x ∈ o.results ∧ o.id ∉ g.code.ids
  | [], f, g, _, _, h => by
    simp only [forAll, Option.some.injEq] at h
    exact ⟨h ▸ Er.refl _ f, fun x hx => by simp at hx⟩
  | x :: rest, f, g, hl, h0, h => by
    simp only [forAll, Option.bind_eq_some_iff] at h
    obtain ⟨f1, h1, h2⟩ := h
    obtain ⟨e1, hu, o, ho, hox, hoi⟩ := er_eliminateOne hf hord (hl x (by simp)) h0 h1
    obtain ⟨e2, hr⟩ := er_all hf hord rest (fun y hy => hl y (by simp [hy])) (h0.trans e1) h2
    refine ⟨e1.trans e2, fun y hy => ?_⟩
    rcases List.mem_cons.1 hy with rfl | hy
    · exact ⟨fun hm => hu (e2.uses hm), o, ho, hox, fun hm => hoi (e2.ids.subset hm)⟩
    · exact hr y hy

/-! ### Definitions -/

theorem ops_defs {c : Code} : ∀ {o : Op} {x : Var}, o ∈ c.ops → x ∈ o.results → x ∈ c.defs := by
  induction c with
  | nil => intro o x h; simp [Code.ops] at h
  | op p r ih =>
    intro o x h hx
    simp only [Code.ops, List.mem_cons] at h
    simp only [Code.defs, List.mem_append]
    rcases h with rfl | h
    · exact Or.inl hx
    · exact Or.inr (ih h hx)
  | loop hd b r ihb ihr =>
    intro o x h hx
    simp only [Code.ops, List.mem_append] at h
    simp only [Code.defs, List.mem_cons, List.mem_append]
    exact Or.inr (h.imp (ihb · hx) (ihr · hx))

theorem def_unique {c : Code} : c.defs.Nodup → ∀ {o o' : Op} {x : Var}, o ∈ c.ops → o' ∈ c.ops →
    x ∈ o.results → x ∈ o'.results → o = o' := by
  induction c with
  | nil => intro _ o o' x h; simp [Code.ops] at h
  | op p r ih =>
    intro hn o o' x h h' hx hx'
    simp only [Code.ops, List.mem_cons, Code.defs, List.nodup_append] at h h' hn
    rcases h with rfl | h <;> rcases h' with rfl | h'
    · rfl
    · exact absurd rfl (hn.2.2 _ hx _ (ops_defs h' hx'))
    · exact absurd rfl (hn.2.2 _ hx' _ (ops_defs h hx))
    · exact ih hn.2.1 h h' hx hx'
  | loop hd b r ihb ihr =>
    intro hn o o' x h h' hx hx'
    simp only [Code.ops, List.mem_append, Code.defs, List.nodup_cons, List.nodup_append] at h h' hn
    obtain ⟨-, hb, hr, hbr⟩ := hn
    rcases h with h | h <;> rcases h' with h' | h'
    · exact ihb hb h h' hx hx'
    · exact absurd rfl (hbr _ (ops_defs h hx) _ (ops_defs h' hx'))
    · exact absurd rfl (hbr _ (ops_defs h' hx') _ (ops_defs h hx))
    · exact ihr hr h h' hx hx'

theorem defOk_of {D : Var → Prop} {c : Code} : c.defs.Nodup →
    (∀ o ∈ c.ops, AllocForm o) →
    (∀ x, D x → x ∈ c.defs → ∃ o ∈ c.ops, o.isAlloc = true ∧ x ∈ o.results) → DefOk D c := by
  induction c with
  | nil => intro _ _ _; trivial
  | op p r ih =>
    intro hn ha h
    simp only [Code.defs, List.nodup_append] at hn
    refine ⟨?_, ih hn.2.1 (fun o ho => ha o (by simp [Code.ops, ho])) ?_⟩
    · intro x hx hD
      obtain ⟨o, ho, hoa, hox⟩ := h x hD (by simp [Code.defs, hx])
      simp only [Code.ops, List.mem_cons] at ho
      rcases ho with rfl | ho
      · obtain ⟨-, y, hy, -⟩ := ha o (by simp [Code.ops]) hoa
        rw [hy, List.mem_singleton] at hox
        exact ⟨hoa, hox ▸ hy⟩
      · exact absurd rfl (hn.2.2 _ hx _ (ops_defs ho hox))
    · intro x hD hx
      obtain ⟨o, ho, hoa, hox⟩ := h x hD (by simp [Code.defs, hx])
      simp only [Code.ops, List.mem_cons] at ho
      rcases ho with rfl | ho
      · exact absurd rfl (hn.2.2 _ hox _ hx)
      · exact ⟨o, ho, hoa, hox⟩
  | loop hd b r ihb ihr =>
    intro hn ha h
    simp only [Code.defs, List.nodup_cons, List.mem_append, not_or, List.nodup_append] at hn
    obtain ⟨⟨hi1, hi2⟩, hb, hr, hbr⟩ := hn
    refine ⟨?_, ihb hb (fun o ho => ha o (by simp [Code.ops, ho])) ?_,
      ihr hr (fun o ho => ha o (by simp [Code.ops, ho])) ?_⟩
    · intro hD
      obtain ⟨o, ho, hoa, hox⟩ := h _ hD (by simp [Code.defs])
      simp only [Code.ops, List.mem_append] at ho
      rcases ho with ho | ho
      · exact hi1 (ops_defs ho hox)
      · exact hi2 (ops_defs ho hox)
    · intro x hD hx
      obtain ⟨o, ho, hoa, hox⟩ := h x hD (by simp [Code.defs, hx])
      simp only [Code.ops, List.mem_append] at ho
      rcases ho with ho | ho
      · exact ⟨o, ho, hoa, hox⟩
      · exact absurd rfl (hbr _ hx _ (ops_defs ho hox))
    · intro x hD hx
      obtain ⟨o, ho, hoa, hox⟩ := h x hD (by simp [Code.defs, hx])
      simp only [Code.ops, List.mem_append] at ho
      rcases ho with ho | ho
      · exact absurd rfl (hbr _ (ops_defs ho hox) _ hx)
      · exact ⟨o, ho, hoa, hox⟩

theorem mem_allocs {c : Code} {x : Var} (h : x ∈ c.allocs) :
    ∃ o ∈ c.ops, o.isAlloc = true ∧ x ∈ o.results := by
  unfold Code.allocs at h
  simp only [List.mem_flatMap, List.mem_filter] at h
  obtain ⟨o, ho, hx⟩ := h
  exact ⟨o, ho.1, ho.2, hx⟩

/-- The pass keeps the results. -/
theorem eliminate_sound {sem : Sem V M W} {f g : Func} (hf : WellFormed f)
    (hon : HonestOn sem f.code) {order : List (Op × Option ℕ) → List (Op × Option ℕ)}
    (hord : ∀ l, (order l).Perm l) (h : eliminate order f = some g) : SameResults sem f g := by
  obtain ⟨hE, hall⟩ := er_all hf hord (toEliminate f) (fun _ h => h) (Er.refl _ f) h
  intro s s' hs hrun
  have hDdef : ∀ x, x ∈ toEliminate f → x ∈ f.code.defs := by
    intro x hx
    obtain ⟨o, ho, -, hox⟩ := mem_allocs (mem_toEliminate hx).1
    exact ops_defs ho hox
  have hR : Rel sem (· ∈ toEliminate f) (· ∉ g.uses) s s := by
    refine ⟨fun _ _ => rfl, fun _ _ => rfl, rfl, ?_, ?_⟩
    · intro x v b _ hv hb hD
      exact hs.apart x v b hv hb (hDdef b hD)
    · intro d v b hD hv hb
      by_contra hne
      -- arguments are not defined again, but an eliminated variable could be an argument
      exact (hs.arg d v hv) (hDdef d hD)
  obtain ⟨t', ht, hR'⟩ := sub_run (D := (· ∈ toEliminate f)) (E := (· ∉ g.uses))
    (fun x hx => (hall x hx).1) (hE.sub _ fun _ h => h) hon
    (defOk_of hf.defs hf.alloc fun x hx _ => mem_allocs (mem_toEliminate hx).1)
    (fun x hx => not_not.2 (List.mem_append_left _ hx))
    (by
      intro o ho x hx hD
      obtain ⟨-, o', ho', hox', hoi'⟩ := hall x hD
      have := def_unique hf.defs (hE.ops ho) ho' hx hox'
      subst this
      exact hoi' (ops_ids ho)) hR hrun
  refine ⟨t', ht, hR'.world.symm, ?_, ?_⟩
  · intro x hx
    exact (hR'.env x (not_not.2 (List.mem_append_right _ (by rw [hE.returns]; exact hx)))).symm
  · intro b hb
    refine (hR'.mem b ?_).symm
    rcases hb with ⟨x, -, v, hv, hb⟩ | ⟨x, hx, v, hv, hb⟩
    · intro hD
      exact hs.apart x v b hv hb (hDdef b hD)
    · exact hR'.apart x v b (not_not.2 (List.mem_append_right _ (by rw [hE.returns]; exact hx))) hv hb

end Verif.WriteOnly
