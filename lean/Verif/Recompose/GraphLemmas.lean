import Verif.Recompose.ParallelConv
import Mathlib.Data.List.Nodup
import Mathlib.Data.List.Perm.Basic

/-! # Laws of graphs -/

namespace Verif.Recompose

open Verif.Rewrite

variable {V : Type} [Inhabited V] {A : Alg V}

/-- An assignment of values that fits all operations. -/
def Run (A : Alg V) (l : List (ℕ × GOp V)) (ρ : ℕ → Tensor V) : Prop := ∀ p ∈ l, p.2.eval A ρ = some (ρ p.1)

theorem eval_congr {ρ ρ' : ℕ → Tensor V} {op : GOp V} (h : ∀ a ∈ op.args, ρ a = ρ' a) : op.eval A ρ = op.eval A ρ' := by
  cases op with
  | conv c =>
    simp only [GOp.args, List.mem_cons, Option.mem_toList] at h
    simp only [GOp.eval]
    rw [h c.x (.inl rfl), h c.w (.inr (.inl rfl))]
    congr 1
    rcases hb : c.b with _ | b
    · rfl
    · simp only [Option.map_some]
      rw [h b (.inr (.inr (by rw [hb])))]
  | concat axis l => simp only [GOp.eval]; rw [List.map_congr_left (l := l) h]
  | split axis sizes i x => simp only [GOp.eval]; rw [h x (by simp [GOp.args])]
  | other l f => simp only [GOp.eval]; rw [List.map_congr_left (l := l) h]

theorem subst_eval {ρ : ℕ → Tensor V} {σ : ℕ → ℕ} {op : GOp V} : (op.subst σ).eval A ρ = op.eval A (ρ ∘ σ) := by
  cases op with
  | conv c => simp only [GOp.subst, GOp.eval, Option.map_map, Function.comp_apply]
  | concat axis l => simp only [GOp.subst, GOp.eval, List.map_map]
  | split axis sizes i x => rfl
  | other l f => simp only [GOp.subst, GOp.eval, List.map_map]

omit [Inhabited V] in
theorem args_subst {σ : ℕ → ℕ} {op : GOp V} : (op.subst σ).args = op.args.map σ := by
  cases op with
  | conv c => cases hb : c.b <;> simp [GOp.subst, GOp.args, hb]
  | concat axis l => rfl
  | split axis sizes i x => rfl
  | other l f => rfl

omit [Inhabited V] in
/-- Every operand is known before it is used. -/
def ArgsOk : (ℕ → Prop) → List (ℕ × GOp V) → Prop
  | _, [] => True
  | known, p :: l => (∀ a ∈ p.2.args, known a) ∧ ArgsOk (fun a => a = p.1 ∨ known a) l

omit [Inhabited V] in
theorem argsOk_mono {l : List (ℕ × GOp V)} : ∀ {k k' : ℕ → Prop}, (∀ a, k a → k' a) → ArgsOk k l → ArgsOk k' l := by
  induction l with
  | nil => intros; trivial
  | cons p l ih =>
    rintro k k' h ⟨h1, h2⟩
    exact ⟨fun a ha => h a (h1 a ha), ih (fun a ha => ha.imp id (h a)) h2⟩

omit [Inhabited V] in
theorem argsOk_append {l l' : List (ℕ × GOp V)} : ∀ {k : ℕ → Prop},
    ArgsOk k (l ++ l') ↔ ArgsOk k l ∧ ArgsOk (fun a => a ∈ l.map Prod.fst ∨ k a) l' := by
  induction l with
  | nil => intro k; simp [ArgsOk]
  | cons p l ih =>
    intro k
    rw [List.cons_append, ArgsOk, ih, ArgsOk, and_assoc]
    have : (fun a => a ∈ l.map Prod.fst ∨ a = p.1 ∨ k a) = fun a => a ∈ (p :: l).map Prod.fst ∨ k a := by
      funext a
      rw [List.map_cons, List.mem_cons]
      exact propext ⟨fun h => by tauto, fun h => by tauto⟩
    rw [this]

omit [Inhabited V] in
theorem ordered_iff {l : List (ℕ × GOp V)} : ∀ {known : List ℕ}, Ordered known l ↔
    (l.map Prod.fst).Nodup ∧ (∀ n ∈ l.map Prod.fst, n ∉ known) ∧ ArgsOk (fun a => a ∈ known) l := by
  induction l with
  | nil => intro k; simp [Ordered, ArgsOk]
  | cons p l ih =>
    intro k
    rw [Ordered, ih, ArgsOk, List.map_cons, List.nodup_cons]
    have : (fun a => a ∈ p.1 :: k) = fun a => a = p.1 ∨ a ∈ k := by
      funext a
      exact propext List.mem_cons
    rw [this]
    constructor
    · rintro ⟨h1, h2, h3, h4, h5⟩
      refine ⟨⟨fun h => (h4 _ h) (by simp), h3⟩, ?_, h2, h5⟩
      intro n hn
      rcases List.mem_cons.1 hn with rfl | hn
      · exact h1
      · exact fun hk => h4 n hn (by simp [hk])
    · rintro ⟨⟨h1, h2⟩, h3, h4, h5⟩
      refine ⟨h3 _ (by simp), h4, h2, ?_, h5⟩
      intro n hn hk
      rcases List.mem_cons.1 hk with rfl | hk
      · exact h1 hn
      · exact h3 n (by simp [hn]) hk

omit [Inhabited V] in
/-- Keep some operations and rename operands. -/
theorem argsOk_filter {P : ℕ → Prop} [DecidablePred P] {σ : ℕ → ℕ} {l : List (ℕ × GOp V)} : ∀ {k k' : ℕ → Prop},
    ArgsOk k l → (∀ a, k a → P a → k' a) →
    (∀ q ∈ l, P q.1 → ∀ a ∈ q.2.args, k' (σ a) ∨ (P a ∧ σ a = a)) →
    ArgsOk k' ((l.filter fun p => P p.1).map fun p => (p.1, p.2.subst σ)) := by
  induction l with
  | nil => intros; trivial
  | cons p l ih =>
    rintro k k' ⟨h1, h2⟩ hk h
    by_cases hp : P p.1
    · rw [List.filter_cons_of_pos (by simpa using hp), List.map_cons]
      refine ⟨?_, ih h2 ?_ ?_⟩
      · intro a ha
        dsimp only at ha
        rw [args_subst] at ha
        obtain ⟨b, hb, rfl⟩ := List.mem_map.1 ha
        rcases h p (by simp) hp b hb with h3 | ⟨h3, h4⟩
        · exact h3
        · rw [h4]; exact hk b (h1 b hb) h3
      · intro a ha hpa
        rcases ha with rfl | ha
        · exact .inl rfl
        · exact .inr (hk a ha hpa)
      · intro q hq hpq a ha
        rcases h q (by simp [hq]) hpq a ha with h3 | h3
        · exact .inl (.inr h3)
        · exact .inr h3
    · rw [List.filter_cons_of_neg (by simpa using hp)]
      refine ih h2 ?_ ?_
      · intro a ha hpa
        rcases ha with rfl | ha
        · exact absurd hpa hp
        · exact hk a ha hpa
      · intro q hq
        exact h q (by simp [hq])

omit [Inhabited V] in
theorem argsOk_pos {l : List (ℕ × GOp V)} : ∀ {k : ℕ → Prop}, ArgsOk k l → (l.map Prod.fst).Nodup →
    ∀ q ∈ l, ∀ a ∈ q.2.args, k a ∨
      (a ∈ l.map Prod.fst ∧ (l.map Prod.fst).idxOf a < (l.map Prod.fst).idxOf q.1) := by
  induction l with
  | nil => intro k _ _ q hq; cases hq
  | cons p l ih =>
    rintro k ⟨h1, h2⟩ hn q hq a ha
    rw [List.map_cons, List.nodup_cons] at hn
    rcases List.mem_cons.1 hq with rfl | hq
    · exact .inl (h1 a ha)
    have hqp : q.1 ≠ p.1 := fun h => hn.1 (h ▸ List.mem_map_of_mem hq)
    rcases ih h2 hn.2 q hq a ha with (rfl | h3) | ⟨h3, h4⟩
    · refine .inr ⟨by simp, ?_⟩
      rw [List.map_cons, List.idxOf_cons_self, List.idxOf_cons_ne _ (Ne.symm hqp)]
      omega
    · exact .inl h3
    · refine .inr ⟨by simp [h3], ?_⟩
      have hap : a ≠ p.1 := fun h => hn.1 (h ▸ h3)
      rw [List.map_cons, List.idxOf_cons_ne _ (Ne.symm hqp), List.idxOf_cons_ne _ (Ne.symm hap)]
      omega

/-! ### Running -/

theorem exec_run {l : List (ℕ × GOp V)} : ∀ {known : List ℕ} {ρ ρ' : ℕ → Tensor V}, Ordered known l →
    exec A ρ l = some ρ' → Run A l ρ' ∧ ∀ a, a ∉ l.map Prod.fst → ρ' a = ρ a := by
  induction l with
  | nil =>
    intro k ρ ρ' _ h
    cases h
    exact ⟨(by intro p hp; cases hp), fun _ _ => rfl⟩
  | cons p l ih =>
    rintro k ρ ρ' ⟨h1, h2, h3⟩ h
    rw [exec, Option.bind_eq_some_iff] at h
    obtain ⟨t, ht, h⟩ := h
    obtain ⟨hr, ha⟩ := ih h3 h
    have hl : ∀ n ∈ p.1 :: k, n ∉ l.map Prod.fst := fun n hn hm => (ordered_iff.1 h3).2.1 n hm hn
    have hk : ∀ a ∈ k, ρ' a = ρ a := by
      intro a hak
      rw [ha a (hl a (by simp [hak])), Function.update_of_ne]
      rintro rfl
      exact h1 hak
    refine ⟨?_, ?_⟩
    · intro q hq
      rcases List.mem_cons.1 hq with rfl | hq
      · rw [eval_congr (ρ' := ρ) (fun a haa => hk a (h2 a haa)), ht, ha _ (hl _ (by simp)), Function.update_self]
      · exact hr q hq
    · intro a haa
      rw [List.map_cons, List.mem_cons, not_or] at haa
      rw [ha a haa.2, Function.update_of_ne haa.1]

theorem run_exec {l : List (ℕ × GOp V)} : ∀ {known : List ℕ} {ρ ρ0 : ℕ → Tensor V}, Ordered known l →
    Run A l ρ → (∀ a ∈ known, ρ0 a = ρ a) →
    ∃ ρ', exec A ρ0 l = some ρ' ∧ ∀ a, a ∈ known ∨ a ∈ l.map Prod.fst → ρ' a = ρ a := by
  induction l with
  | nil =>
    intro k ρ ρ0 _ _ h
    exact ⟨ρ0, rfl, fun a ha => h a (by simpa using ha)⟩
  | cons p l ih =>
    rintro k ρ ρ0 ⟨h1, h2, h3⟩ hr h
    have he : p.2.eval A ρ0 = some (ρ p.1) := by
      rw [eval_congr (ρ' := ρ) (fun a ha => h a (h2 a ha))]
      exact hr p (by simp)
    obtain ⟨ρ', h4, h5⟩ := ih (ρ := ρ) (ρ0 := Function.update ρ0 p.1 (ρ p.1)) h3 (fun q hq => hr q (by simp [hq])) (by
      intro a ha
      rcases List.mem_cons.1 ha with rfl | ha
      · rw [Function.update_self]
      · rw [Function.update_of_ne (by rintro rfl; exact h1 ha), h a ha])
    refine ⟨ρ', by rw [exec, he, Option.bind_some, h4], ?_⟩
    intro a ha
    apply h5
    simp only [List.map_cons, List.mem_cons] at ha ⊢
    tauto

/-- Two functions return the same if every fitting assignment for one gives one for the other. -/
theorem eval_transport {args : List ℕ} {g g' : Graph V} {env : ℕ → Tensor V} {o : List (Tensor V)}
    (hg : g.WF args) (hg' : g'.WF args) (h : g.eval A env = some o)
    (hrun : ∀ ρ, exec A env g.nodes = some ρ → Run A g.nodes ρ →
      ∃ ρ', Run A g'.nodes ρ' ∧ (∀ a ∈ args, ρ' a = ρ a) ∧ g'.outs.map ρ' = g.outs.map ρ) :
    g'.eval A env = some o := by
  unfold Graph.eval at h
  rw [Option.map_eq_some_iff] at h
  obtain ⟨ρ, h1, rfl⟩ := h
  obtain ⟨h2, h3⟩ := exec_run hg.1 h1
  obtain ⟨ρ', h4, h5, h6⟩ := hrun ρ h1 h2
  have hnot := (ordered_iff.1 hg.1).2.1
  obtain ⟨ρ'', h7, h8⟩ := run_exec (ρ0 := env) hg'.1 h4 (fun a ha => by
    rw [h5 a ha, h3 a (fun hm => hnot a hm ha)])
  unfold Graph.eval
  rw [h7, Option.map_some, ← h6]
  congr 1
  exact List.map_congr_left fun a ha => h8 a (hg'.2 a ha)

/-! ### Uses and definitions -/

omit [Inhabited V]

theorem some_mem_usesOf {g : Graph V} {v n : ℕ} :
    some n ∈ usesOf g v ↔ ∃ op, (n, op) ∈ g.nodes ∧ v ∈ op.args := by
  unfold usesOf
  simp only [List.mem_append, List.mem_flatMap, List.mem_map, List.mem_filter, decide_eq_true_eq, Prod.exists,
    Option.some.injEq, reduceCtorEq, and_false, exists_false, or_false]
  constructor
  · rintro ⟨a, op, h1, b, ⟨h2, rfl⟩, rfl⟩
    exact ⟨op, h1, h2⟩
  · rintro ⟨op, h1, h2⟩
    exact ⟨n, op, h1, v, ⟨h2, rfl⟩, rfl⟩

theorem none_mem_usesOf {g : Graph V} {v : ℕ} : none ∈ usesOf g v ↔ v ∈ g.outs := by
  unfold usesOf
  simp

theorem opOf_iff {g : Graph V} (hn : (g.nodes.map Prod.fst).Nodup) {n : ℕ} {op : GOp V} :
    opOf g n = some op ↔ (n, op) ∈ g.nodes := by
  unfold opOf
  rw [Option.map_eq_some_iff]
  constructor
  · rintro ⟨⟨m, op'⟩, h1, rfl⟩
    have h2 := List.find?_some h1
    simp only [decide_eq_true_eq] at h2
    subst h2
    exact List.mem_of_find?_eq_some h1
  · intro h
    rcases hf : g.nodes.find? (fun p => p.1 = n) with _ | q
    · have := List.find?_eq_none.1 hf (n, op) h
      simp at this
    · refine ⟨q, hf, ?_⟩
      have h1 := List.find?_some hf
      simp only [decide_eq_true_eq] at h1
      have h2 := List.mem_of_find?_eq_some hf
      have := List.inj_on_of_nodup_map hn h2 h h1
      rw [this]

theorem convOf_iff {g : Graph V} (hn : (g.nodes.map Prod.fst).Nodup) {n : ℕ} {c : ConvOp} :
    convOf g n = some c ↔ (n, GOp.conv c) ∈ g.nodes := by
  rw [← opOf_iff hn]
  unfold convOf
  split
  · rename_i c' h
    rw [h]
    simp
  · rename_i h
    constructor
    · intro hh; cases hh
    · intro hh; exact absurd hh (h c)

theorem concatOf_some {g : Graph V} (hn : (g.nodes.map Prod.fst).Nodup) {u : Option ℕ} {k : ℕ} {axis : ℤ}
    (h : concatOf g u = some (k, axis)) : u = some k ∧ ∃ l, (k, GOp.concat axis l) ∈ g.nodes := by
  unfold concatOf at h
  split at h
  · cases h
  · split at h
    · rename_i h1
      cases h
      exact ⟨rfl, _, (opOf_iff hn).1 h1⟩
    · cases h

theorem dep_trans {g : Graph V} {a b : ℕ} {p : ℕ × GOp V} (h : a = b ∨ Dep g a b) (hp : p ∈ g.nodes)
    (hb : b ∈ p.2.args) : Dep g a p.1 := by
  rcases h with rfl | h
  · exact .base hp hb
  · exact .step h hp hb

/-- What depends on an operation comes after it. -/
theorem dep_pos {args : List ℕ} {g : Graph V} (ho : Ordered args g.nodes) {a b : ℕ} (h : Dep g a b)
    (ha : a ∉ args) : pos g a < pos g b ∧ a ∈ g.nodes.map Prod.fst := by
  obtain ⟨h1, h2, h3⟩ := ordered_iff.1 ho
  induction h with
  | base hp hb =>
    rcases argsOk_pos h3 h1 _ hp _ hb with h | h
    · exact absurd h ha
    · exact ⟨h.2, h.1⟩
  | @step b p _ hp hb ih =>
    obtain ⟨i1, i2⟩ := ih
    rcases argsOk_pos h3 h1 _ hp _ hb with h | h
    · exfalso
      have : b ∉ g.nodes.map Prod.fst := fun hm => h2 b hm h
      have h4 := List.idxOf_lt_length_of_mem i2
      unfold pos at i1
      rename_i hd
      cases hd with
      | base hp' _ => exact this (List.mem_map_of_mem hp')
      | step _ hp' _ => exact this (List.mem_map_of_mem hp')
    · exact ⟨lt_trans i1 h.2, i2⟩

end Verif.Recompose
