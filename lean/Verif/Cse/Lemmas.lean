import Verif.Cse.Model
/-!
# Common subexpressions and node names: lemmas (C127)
-/
namespace Verif.Cse

variable {V S : Type}

theorem same_iff (a b : Op) : same a b = true ↔ SameWork a b ∧ a.nodeName = b.nodeName := by
  unfold same SameWork
  simp only [Bool.and_eq_true, decide_eq_true_eq]
  tauto

/-- Names do not change what is computed. -/
theorem run_map (I : Semantics V S) (f : Op → Op)
    (hf : ∀ op, (f op).id = op.id ∧ SameWork (f op) op) (ops : List Op) (env : Nat → V) (s : S) :
    I.run (ops.map f) env s = I.run ops env s := by
  induction ops generalizing env s with
  | nil => rfl
  | cons op ops ih =>
    have hs : I.step (f op) env s = I.step op env s := by
      obtain ⟨h1, h2, h3, h4⟩ := hf op
      unfold Semantics.step
      rw [h1, h2, h3, h4]
    simp only [List.map_cons, Semantics.run]
    rw [hs, ih]

theorem removeName_work (needs : Nat → Bool) (op : Op) :
    (removeName needs op).id = op.id ∧ SameWork (removeName needs op) op := by
  unfold removeName SameWork
  split <;> simp

theorem restoreName_work (needs : Nat → Bool) (m : List (Nat × Nat)) (op : Op) :
    (restoreName needs m op).id = op.id ∧ SameWork (restoreName needs m op) op := by
  unfold restoreName SameWork
  split
  · split <;> simp
  · simp

theorem ssa_map (f : Op → Op) (hf : ∀ op, (f op).id = op.id ∧ SameWork (f op) op) (d : List Nat)
    (ops : List Op) (h : Ssa d ops) : Ssa d (ops.map f) := by
  induction ops generalizing d with
  | nil => trivial
  | cons op ops ih =>
    obtain ⟨h1, h2, h3, h4⟩ := hf op
    simp only [List.map_cons, Ssa, h1, h4]
    exact ⟨h.1, h.2.1, ih _ h.2.2⟩

/-- The elimination keeps the state, and what is returned. -/
theorem cse_run (I : Semantics V S) (ops : List Op) (σ : Nat → Nat) (known : List Op)
    (d : List Nat) (hs : Ssa d ops) (env env' : Nat → V) (s : S)
    (hσ : ∀ v ∈ d, σ v ∈ d) (hσ' : ∀ v, v ∉ d → σ v = v) (he : ∀ v ∈ d, env v = env' (σ v))
    (hk : ∀ k ∈ known, I.pureOp k.kind = true ∧ k.id ∈ d ∧ (∀ v ∈ k.operands, v ∈ d) ∧
      env' k.id = I.value k.kind k.attrs (k.operands.map env')) :
    (I.run (cse I.pureOp σ known ops) env' s).2 = (I.run ops env s).2 := by
  induction ops generalizing σ known d env env' s with
  | nil => rfl
  | cons op ops ih =>
    obtain ⟨ho, hid, hrest⟩ := hs
    have hargs : (op.operands.map σ).map env' = op.operands.map env := by
      rw [List.map_map]
      apply List.map_congr_left
      intro v hv
      exact (he v (ho v hv)).symm
    have hne : ∀ v ∈ d, v ≠ op.id := fun v hv e => hid (e ▸ hv)
    -- an operation that is kept gives the same value to the same result
    have keep : ∀ (x : V) (known' : List Op) (s' : S),
        (∀ k ∈ known', I.pureOp k.kind = true ∧ k.id ∈ op.id :: d ∧
          (∀ v ∈ k.operands, v ∈ op.id :: d) ∧
          (fun v => if v = op.id then x else env' v) k.id =
            I.value k.kind k.attrs (k.operands.map fun v => if v = op.id then x else env' v)) →
        (I.run (cse I.pureOp σ known' ops) (fun v => if v = op.id then x else env' v) s').2 =
          (I.run ops (fun v => if v = op.id then x else env v) s').2 := by
      intro x known' s' hk'
      apply ih σ known' (op.id :: d) hrest
      · intro v hv
        rcases List.mem_cons.1 hv with rfl | hv
        · rw [hσ' _ hid]; exact List.mem_cons_self
        · exact List.mem_cons_of_mem _ (hσ v hv)
      · intro v hv
        exact hσ' v (fun e => hv (List.mem_cons_of_mem _ e))
      · intro v hv
        rcases List.mem_cons.1 hv with rfl | hv
        · simp [hσ' _ hid]
        · have h1 := hne v hv
          have h2 := hne (σ v) (hσ v hv)
          simp [h1, h2, he v hv]
      · exact hk'
    have known_keep : ∀ (x : V), ∀ k ∈ known, I.pureOp k.kind = true ∧ k.id ∈ op.id :: d ∧
          (∀ v ∈ k.operands, v ∈ op.id :: d) ∧
          (fun v => if v = op.id then x else env' v) k.id =
            I.value k.kind k.attrs (k.operands.map fun v => if v = op.id then x else env' v) := by
      intro x k hkm
      obtain ⟨a, b, c, e⟩ := hk k hkm
      refine ⟨a, List.mem_cons_of_mem _ b, fun v hv => List.mem_cons_of_mem _ (c v hv), ?_⟩
      have h1 : k.operands.map (fun v => if v = op.id then x else env' v) = k.operands.map env' := by
        apply List.map_congr_left
        intro v hv
        simp [hne v (c v hv)]
      rw [h1]
      simp [hne k.id b, e]
    unfold cse
    by_cases hp : I.pureOp op.kind = true
    · have hp' : I.pureOp (replaceOperands σ op).kind = true := hp
      simp only [hp', if_true]
      cases hf : known.find? (same (replaceOperands σ op)) with
      | some k =>
        have hkm := List.mem_of_find?_eq_some hf
        have hsame := ((same_iff _ _).1 (List.find?_some hf)).1
        obtain ⟨k1, k2, k3, k4⟩ := hk k hkm
        obtain ⟨w1, w2, w3⟩ := hsame
        simp only [replaceOperands] at w1 w2 w3
        simp only
        have hstep : I.run (op :: ops) env s = I.run ops (fun v => if v = op.id then
            I.value op.kind op.attrs (op.operands.map env) else env v) s := by
          simp only [Semantics.run, Semantics.step, hp, if_true]
        rw [hstep]
        have hval : env' k.id = I.value op.kind op.attrs (op.operands.map env) := by
          rw [k4, ← w1, ← w2, ← w3, hargs]
        apply ih _ known (op.id :: d) hrest
        · intro v hv
          by_cases hv1 : v = op.id
          · simp only [hv1, if_true]
            exact List.mem_cons_of_mem _ k2
          · simp only [hv1, if_false]
            rcases List.mem_cons.1 hv with h | h
            · exact absurd h hv1
            · exact List.mem_cons_of_mem _ (hσ v h)
        · intro v hv
          have hv1 : v ≠ op.id := fun e => hv (by simp [e])
          simp only [hv1, if_false]
          exact hσ' v (fun e => hv (List.mem_cons_of_mem _ e))
        · intro v hv
          by_cases hv1 : v = op.id
          · simp only [hv1, if_true]
            exact hval.symm
          · simp only [hv1, if_false]
            rcases List.mem_cons.1 hv with h | h
            · exact absurd h hv1
            · exact he v h
        · intro k' hk'
          obtain ⟨a, b, c, e⟩ := hk k' hk'
          exact ⟨a, List.mem_cons_of_mem _ b, fun v hv => List.mem_cons_of_mem _ (c v hv), e⟩
      | none =>
        simp only
        have hstep : ∀ l, I.run (replaceOperands σ op :: l) env' s = I.run l
            (fun v => if v = op.id then I.value op.kind op.attrs (op.operands.map env) else env' v)
            s := by
          intro l
          simp only [Semantics.run, Semantics.step, replaceOperands, hp, if_true, hargs]
        have hstep2 : I.run (op :: ops) env s = I.run ops (fun v => if v = op.id then
            I.value op.kind op.attrs (op.operands.map env) else env v) s := by
          simp only [Semantics.run, Semantics.step, hp, if_true]
        rw [hstep, hstep2]
        apply keep
        intro k hkm
        rcases List.mem_cons.1 hkm with rfl | hkm
        · have hops : ∀ v ∈ op.operands.map σ, v ∈ d := by
            intro v hv
            obtain ⟨u, hu, rfl⟩ := List.mem_map.1 hv
            exact hσ u (ho u hu)
          refine ⟨hp, List.mem_cons_self, fun v hv => List.mem_cons_of_mem _ (hops v hv), ?_⟩
          have h1 : (op.operands.map σ).map (fun v => if v = op.id then
              I.value op.kind op.attrs (op.operands.map env) else env' v) =
              (op.operands.map σ).map env' := by
            apply List.map_congr_left
            intro v hv
            simp [hne v (hops v hv)]
          simp only [replaceOperands, if_true]
          rw [h1, hargs]
        · exact known_keep _ k hkm
    · have hp' : ¬ I.pureOp (replaceOperands σ op).kind = true := hp
      simp only [hp', Bool.false_eq_true, if_false]
      have hstep : ∀ l, I.run (replaceOperands σ op :: l) env' s = I.run l
          (fun v => if v = op.id then (I.effect op.kind op.attrs (op.operands.map env) s).1
            else env' v) (I.effect op.kind op.attrs (op.operands.map env) s).2 := by
        intro l
        simp only [Semantics.run, Semantics.step, replaceOperands, hp, hargs]
        rfl
      have hstep2 : I.run (op :: ops) env s = I.run ops (fun v => if v = op.id then
          (I.effect op.kind op.attrs (op.operands.map env) s).1 else env v)
          (I.effect op.kind op.attrs (op.operands.map env) s).2 := by
        simp only [Semantics.run, Semantics.step, hp]
        rfl
      rw [hstep, hstep2]
      exact keep _ known _ (known_keep _)

/-- What the elimination keeps: operations of the block, with other operands. -/
theorem cse_mem (pureOp : Nat → Bool) (ops : List Op) (σ : Nat → Nat) (known : List Op) (x : Op)
    (h : x ∈ cse pureOp σ known ops) :
    ∃ o ∈ ops, x.id = o.id ∧ x.kind = o.kind ∧ x.attrs = o.attrs ∧ x.nodeName = o.nodeName := by
  induction ops generalizing σ known with
  | nil => simp [cse] at h
  | cons op ops ih =>
    have step : ∀ σ' known', x ∈ replaceOperands σ op :: cse pureOp σ' known' ops →
        ∃ o ∈ op :: ops, x.id = o.id ∧ x.kind = o.kind ∧ x.attrs = o.attrs ∧
          x.nodeName = o.nodeName := by
      intro σ' known' hx
      rcases List.mem_cons.1 hx with rfl | hx
      · exact ⟨op, by simp, rfl, rfl, rfl, rfl⟩
      · obtain ⟨o, ho, h'⟩ := ih σ' known' hx
        exact ⟨o, by simp [ho], h'⟩
    unfold cse at h
    simp only at h
    split at h
    · split at h
      · obtain ⟨o, ho, h'⟩ := ih _ _ h
        exact ⟨o, by simp [ho], h'⟩
      · exact step _ _ h
    · exact step _ _ h

/-- Operations that are kept differ from each other and from those known before. -/
theorem cse_distinct (pureOp : Nat → Bool) (ops : List Op) (σ : Nat → Nat) (known : List Op) :
    (∀ x ∈ cse pureOp σ known ops, pureOp x.kind = true → ∀ k ∈ known, ¬ same x k = true) ∧
    (cse pureOp σ known ops).Pairwise fun a b => pureOp a.kind = true → ¬ same b a = true := by
  induction ops generalizing σ known with
  | nil => simp [cse]
  | cons op ops ih =>
    unfold cse
    simp only
    split
    · rename_i hp
      split
      · exact ih _ _
      · rename_i hnone
        obtain ⟨i1, i2⟩ := ih σ (replaceOperands σ op :: known)
        have hn := List.find?_eq_none.1 hnone
        constructor
        · intro x hx hpx k hk
          rcases List.mem_cons.1 hx with rfl | hx
          · exact hn k hk
          · exact i1 x hx hpx k (by simp [hk])
        · refine List.pairwise_cons.2 ⟨?_, i2⟩
          intro b hb hpa hs
          have hkind := ((same_iff _ _).1 hs).1.1
          exact i1 b hb (by rw [hkind]; exact hpa) _ (by simp) hs
    · rename_i hp
      obtain ⟨i1, i2⟩ := ih σ known
      constructor
      · intro x hx hpx k hk
        rcases List.mem_cons.1 hx with rfl | hx
        · exact absurd hpx hp
        · exact i1 x hx hpx k hk
      · refine List.pairwise_cons.2 ⟨?_, i2⟩
        intro b _ hpa
        exact absurd hpa hp

/-- Names that were saved are found. -/
theorem lookup_saved (needs : Nat → Bool) (ops : List Op) (d : List Nat) (h : Ssa d ops) (o : Op)
    (ho : o ∈ ops) (hn : needs o.kind = true) :
    lookup (savedNames needs ops) o.id = o.nodeName ∧ o.id ∉ d := by
  induction ops generalizing d with
  | nil => simp at ho
  | cons op ops ih =>
    obtain ⟨-, h1, h2⟩ := h
    have absent : ∀ (ops : List Op) (d : List Nat), Ssa d ops → ∀ i ∈ d,
        lookup (savedNames needs ops) i = none := by
      intro ops
      induction ops with
      | nil => intro d _ i _; rfl
      | cons p ops ih2 =>
        intro d hd i hi
        obtain ⟨-, g1, g2⟩ := hd
        have hr := ih2 _ g2 i (List.mem_cons_of_mem _ hi)
        have hne : ¬ p.id = i := fun e => g1 (e ▸ hi)
        unfold savedNames
        split
        · simp only [lookup, hne, if_false]
          exact hr
        · exact hr
    rcases List.mem_cons.1 ho with rfl | ho
    · refine ⟨?_, h1⟩
      unfold savedNames
      cases hnm : o.nodeName with
      | some n => simp [hn, lookup]
      | none =>
        simp only [hn]
        exact absent ops _ h2 o.id List.mem_cons_self
    · obtain ⟨q1, q2⟩ := ih _ h2 ho
      have hne : ¬ op.id = o.id := fun e => q2 (by simp [e])
      refine ⟨?_, fun e => q2 (List.mem_cons_of_mem _ e)⟩
      unfold savedNames
      split
      · simp only [lookup, hne, if_false]
        exact q1
      · exact q1

end Verif.Cse
