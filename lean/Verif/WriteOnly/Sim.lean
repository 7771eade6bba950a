import Verif.WriteOnly.Model

/-!
# Erasing operations that do not matter

If what is erased changes nothing but the buffers in `D`, and what it defines is not used by the
rest, then the rest computes what the whole did.
-/

namespace Verif.WriteOnly

variable {V M W : Type}

/-! ### Lists and environments -/

theorem mapM_nil' {f : Var → Option V} : ([] : List Var).mapM f = some [] := rfl

theorem mapM_cons_some {f : Var → Option V} {x : Var} {l : List Var} {vs : List V}
    (h : (x :: l).mapM f = some vs) : ∃ v vs', vs = v :: vs' ∧ f x = some v ∧
      l.mapM f = some vs' := by
  rw [List.mapM_cons] at h
  simp only [Option.bind_eq_bind, Option.pure_def, Option.bind_eq_some_iff, Option.some.injEq] at h
  obtain ⟨v, hv, vs', hvs, rfl⟩ := h
  exact ⟨v, vs', rfl, hv, hvs⟩

theorem mapM_length {f : Var → Option V} {l : List Var} : ∀ {vs : List V}, l.mapM f = some vs →
    vs.length = l.length := by
  induction l with
  | nil => intro vs h; simp only [mapM_nil', Option.some.injEq] at h; subst h; rfl
  | cons x l ih =>
    intro vs h
    obtain ⟨v, vs', rfl, -, h2⟩ := mapM_cons_some h
    simp [ih h2]

theorem mapM_zip {f : Var → Option V} {l : List Var} : ∀ {vs : List V}, l.mapM f = some vs →
    ∀ x v, (x, v) ∈ l.zip vs → f x = some v := by
  induction l with
  | nil => intro vs _ x v h; simp at h
  | cons y l ih =>
    intro vs h x v hx
    obtain ⟨v', vs', rfl, h1, h2⟩ := mapM_cons_some h
    rw [List.zip_cons_cons, List.mem_cons] at hx
    rcases hx with hx | hx
    · cases hx; exact h1
    · exact ih h2 x v hx

theorem mapM_mem {f : Var → Option V} {l : List Var} : ∀ {vs : List V}, l.mapM f = some vs →
    ∀ v ∈ vs, ∃ x ∈ l, f x = some v := by
  induction l with
  | nil => intro vs h v hv; simp only [mapM_nil', Option.some.injEq] at h; subst h; simp at hv
  | cons y l ih =>
    intro vs h v hv
    obtain ⟨v', vs', rfl, h1, h2⟩ := mapM_cons_some h
    rcases List.mem_cons.1 hv with rfl | hv
    · exact ⟨y, by simp, h1⟩
    · obtain ⟨x, hx, e⟩ := ih h2 v hv
      exact ⟨x, by simp [hx], e⟩

theorem mapM_congr {f g : Var → Option V} {l : List Var} (h : ∀ x ∈ l, f x = g x) :
    l.mapM f = l.mapM g := by
  induction l with
  | nil => rfl
  | cons x l ih =>
    rw [List.mapM_cons, List.mapM_cons, h x (by simp), ih fun y hy => h y (by simp [hy])]

theorem setVars_not_mem {xs : List Var} : ∀ {env : Var → Option V} {vs : List V} {x : Var},
    x ∉ xs → setVars env xs vs x = env x := by
  induction xs with
  | nil => intro env vs x _; cases vs <;> rfl
  | cons y xs ih =>
    intro env vs x hx
    cases vs with
    | nil => rfl
    | cons v vs =>
      simp only [List.mem_cons, not_or] at hx
      simp only [setVars]
      rw [ih hx.2, Function.update_of_ne hx.1]

theorem setVars_some {xs : List Var} : ∀ {env : Var → Option V} {vs : List V} {x : Var} {v : V},
    setVars env xs vs x = some v → env x = some v ∨ (x ∈ xs ∧ v ∈ vs) := by
  induction xs with
  | nil => intro env vs x v h; left; cases vs <;> exact h
  | cons y xs ih =>
    intro env vs x v h
    cases vs with
    | nil => exact Or.inl h
    | cons w vs =>
      simp only [setVars] at h
      rcases ih h with h | h
      · by_cases e : x = y
        · subst e
          rw [Function.update_self] at h
          cases h
          right; simp
        · rw [Function.update_of_ne e] at h
          exact Or.inl h
      · right
        exact ⟨by simp [h.1], by simp [h.2]⟩

theorem setVars_agree {E : Var → Prop} {xs : List Var} :
    ∀ {env env' : Var → Option V} {vs : List V}, (∀ x, ¬ E x → env x = env' x) →
      ∀ x, ¬ E x → setVars env xs vs x = setVars env' xs vs x := by
  induction xs with
  | nil => intro env env' vs h x hx; cases vs <;> exact h x hx
  | cons y xs ih =>
    intro env env' vs h x hx
    cases vs with
    | nil => exact h x hx
    | cons v vs =>
      simp only [setVars]
      refine ih ?_ x hx
      intro z hz
      by_cases e : z = y
      · subst e; simp
      · rw [Function.update_of_ne e, Function.update_of_ne e, h z hz]

/-! ### What may be erased -/

/-- An operation that changes nothing but buffers in `D`, and whose results are in `E`. -/
structure Harm (D E : Var → Prop) (o : Op) : Prop where
  iface : o.iface = true
  effects : ∀ e x, (e, x) ∈ o.effects → e = Eff.read ∨ ∃ d, x = some d ∧ D d
  results : ∀ x ∈ o.results, E x

def AllHarm (D E : Var → Prop) : Code → Prop
  | .nil => True
  | .op o rest => Harm D E o ∧ AllHarm D E rest
  | .loop h body rest => E h.iv ∧ AllHarm D E body ∧ AllHarm D E rest

/-- The second code is the first one without some operations and loops that do not matter. -/
inductive Sub (D E : Var → Prop) : Code → Code → Prop
  | nil : Sub D E .nil .nil
  | keepOp {o : Op} {r r' : Code} : Sub D E r r' → Sub D E (.op o r) (.op o r')
  | dropOp {o : Op} {r r' : Code} : Harm D E o → Sub D E r r' → Sub D E (.op o r) r'
  | keepLoop {h : Head} {b b' r r' : Code} : Sub D E b b' → Sub D E r r' →
      Sub D E (.loop h b r) (.loop h b' r')
  | dropLoop {h : Head} {b r r' : Code} : E h.iv → AllHarm D E b → Sub D E r r' →
      Sub D E (.loop h b r) r'

/-- The variables in `D` are defined by allocations. -/
def DefOk (D : Var → Prop) : Code → Prop
  | .nil => True
  | .op o rest => (∀ x ∈ o.results, D x → o.isAlloc = true ∧ o.results = [x]) ∧ DefOk D rest
  | .loop h body rest => ¬ D h.iv ∧ DefOk D body ∧ DefOk D rest

/-! ### States -/

/-- The states of the two codes: they agree outside of `E` and `D`, and pointers to buffers in `D`
are not in variables outside of `E`. -/
structure Rel (sem : Sem V M W) (D E : Var → Prop) (s t : State V M W) : Prop where
  env : ∀ x, ¬ E x → s.env x = t.env x
  mem : ∀ b, ¬ D b → s.mem b = t.mem b
  world : s.world = t.world
  apart : ∀ x v b, ¬ E x → s.env x = some v → sem.root v = some b → ¬ D b
  own : ∀ d v b, D d → s.env d = some v → sem.root v = some b → b = d

theorem step_some {sem : Sem V M W} {o : Op} {s s' : State V M W} (h : step sem o s = some s') :
    ∃ vs r, o.operands.mapM s.env = some vs ∧ sem.exec o vs s.mem s.world = some r ∧
      s' = ⟨setVars s.env o.results r.1, r.2.1, r.2.2⟩ := by
  unfold step stepWith at h
  simp only [Option.bind_eq_some_iff, Option.map_eq_some_iff] at h
  obtain ⟨vs, hvs, r, hr, rfl⟩ := h
  exact ⟨vs, r, hvs, hr, rfl⟩

theorem harm_step {sem : Sem V M W} {D E : Var → Prop} {o : Op} (hon : Honest sem o)
    (hh : Harm D E o) (hd : ∀ x ∈ o.results, D x → o.isAlloc = true ∧ o.results = [x])
    {s s' t : State V M W} (hR : Rel sem D E s t) (h : step sem o s = some s') :
    Rel sem D E s' t := by
  obtain ⟨vs, r, hvs, hr, rfl⟩ := step_some h
  refine ⟨?_, ?_, ?_, ?_, ?_⟩
  · intro x hx
    dsimp only
    rw [setVars_not_mem fun hm => hx (hh.results x hm)]
    exact hR.env x hx
  · intro b hb
    dsimp only
    rw [← hR.mem b hb]
    by_contra hne
    obtain ⟨e, x, he, hner, hx⟩ := hon.declared hh.iface (mapM_length hvs) hr b hne
    rcases hh.effects e (some x) he with h1 | ⟨d, h1, hd'⟩
    · exact hner h1
    · cases h1
      rcases hx with ⟨v, hv, hb'⟩ | ⟨-, hb'⟩
      · have := hR.own _ v b hd' (mapM_zip hvs _ _ hv) hb'
        exact hb (this ▸ hd')
      · exact hb (hb' ▸ hd')
  · dsimp only
    rw [hon.world hh.iface ?_ hr]
    · exact hR.world
    · rintro ⟨e, he, hne⟩
      rcases hh.effects e none he with h1 | ⟨d, h1, -⟩
      · exact hne h1
      · cases h1
  · intro x v b hx hv
    dsimp only at hv
    rw [setVars_not_mem fun hm => hx (hh.results x hm)] at hv
    exact hR.apart x v b hx hv
  · intro d v b hD hv hb
    dsimp only at hv
    rcases setVars_some hv with hv | ⟨hm, hv⟩
    · exact hR.own d v b hD hv hb
    · obtain ⟨ha, he⟩ := hd d hm hD
      have := hon.alloc ha hr v hv b hb
      rw [he] at this
      simpa using this

theorem keep_step {sem : Sem V M W} {D E : Var → Prop} (hDE : ∀ x, D x → E x) {o : Op}
    (hon : Honest sem o) (hop : ∀ x ∈ o.operands, ¬ E x) (hres : ∀ x ∈ o.results, ¬ D x)
    {s s' t : State V M W} (hR : Rel sem D E s t) (h : step sem o s = some s') :
    ∃ t', step sem o t = some t' ∧ Rel sem D E s' t' := by
  obtain ⟨vs, r, hvs, hr, rfl⟩ := step_some h
  have hroot : ∀ v ∈ vs, ∀ b, sem.root v = some b → ¬ D b := by
    intro v hv b hb
    obtain ⟨x, hx, hxv⟩ := mapM_mem hvs v hv
    exact hR.apart x v b (hop x hx) hxv hb
  obtain ⟨m1, hm1, hag⟩ := hon.loc hr (m' := t.mem) fun v hv b hb => hR.mem b (hroot v hv b hb)
  have hvs' : o.operands.mapM t.env = some vs := by
    rw [← hvs]
    exact mapM_congr fun x hx => (hR.env x (hop x hx)).symm
  refine ⟨⟨setVars t.env o.results r.1, m1, r.2.2⟩, ?_, ?_⟩
  · unfold step stepWith
    rw [hvs', Option.bind_some, ← hR.world, hm1]
    rfl
  · refine ⟨?_, ?_, rfl, ?_, ?_⟩
    · exact setVars_agree hR.env
    · intro b hb
      dsimp only
      rcases hag b with h1 | ⟨h1, h2⟩
      · exact h1.symm
      · rw [h1, h2, hR.mem b hb]
    · intro x v b hx hv hb
      dsimp only at hv
      rcases setVars_some hv with hv | ⟨-, hv⟩
      · exact hR.apart x v b hx hv hb
      · rcases hon.pointers hr v hv b hb with ⟨v', hv', hb'⟩ | hm
        · exact hroot v' hv' b hb'
        · exact hres b hm
    · intro d v b hD hv hb
      dsimp only at hv
      rcases setVars_some hv with hv | ⟨hm, -⟩
      · exact hR.own d v b hD hv hb
      · exact absurd hD (hres d hm)

theorem Rel.setBoth {sem : Sem V M W} {D E : Var → Prop} {s t : State V M W}
    (hR : Rel sem D E s t) {iv : Var} (hiv : ¬ D iv) {v : V} (hv : sem.root v = none) :
    Rel sem D E ⟨Function.update s.env iv (some v), s.mem, s.world⟩
      ⟨Function.update t.env iv (some v), t.mem, t.world⟩ := by
  refine ⟨?_, hR.mem, hR.world, ?_, ?_⟩
  · intro x hx
    by_cases e : x = iv
    · subst e; simp
    · simp only [Function.update_of_ne e]
      exact hR.env x hx
  · intro x w b hx hw hb
    by_cases e : x = iv
    · subst e
      simp only [Function.update_self, Option.some.injEq] at hw
      subst hw
      rw [hv] at hb
      cases hb
    · simp only [Function.update_of_ne e] at hw
      exact hR.apart x w b hx hw hb
  · intro d w b hD hw hb
    have e : d ≠ iv := fun e => hiv (e ▸ hD)
    simp only [Function.update_of_ne e] at hw
    exact hR.own d w b hD hw hb

theorem Rel.setLeft {sem : Sem V M W} {D E : Var → Prop} {s t : State V M W}
    (hR : Rel sem D E s t) {iv : Var} (hiv : ¬ D iv) (hE : E iv) (v : V) :
    Rel sem D E ⟨Function.update s.env iv (some v), s.mem, s.world⟩ t := by
  refine ⟨?_, hR.mem, hR.world, ?_, ?_⟩
  · intro x hx
    have e : x ≠ iv := fun e => hx (e ▸ hE)
    simp only [Function.update_of_ne e]
    exact hR.env x hx
  · intro x w b hx hw hb
    have e : x ≠ iv := fun e => hx (e ▸ hE)
    simp only [Function.update_of_ne e] at hw
    exact hR.apart x w b hx hw hb
  · intro d w b hD hw hb
    have e : d ≠ iv := fun e => hiv (e ▸ hD)
    simp only [Function.update_of_ne e] at hw
    exact hR.own d w b hD hw hb

/-! ### Runs -/

theorem harm_iterate {sem : Sem V M W} {D E : Var → Prop}
    {f : State V M W → Option (State V M W)} {iv : Var} (hiv : ¬ D iv) (hE : E iv)
    (hf : ∀ {s s' t}, Rel sem D E s t → f s = some s' → Rel sem D E s' t) :
    ∀ (vs : List V) {s s' t : State V M W}, Rel sem D E s t →
      iterate f iv vs s = some s' → Rel sem D E s' t
  | [], s, s', t, hR, h => by
    simp only [iterate, Option.some.injEq] at h
    exact h ▸ hR
  | v :: vs, s, s', t, hR, h => by
    simp only [iterate, Option.bind_eq_some_iff] at h
    obtain ⟨s1, h1, h2⟩ := h
    exact harm_iterate hiv hE hf vs (hf (hR.setLeft hiv hE v) h1) h2

theorem harm_run {sem : Sem V M W} {D E : Var → Prop} (c : Code) :
    (∀ o ∈ c.ops, Honest sem o) → AllHarm D E c → DefOk D c →
    ∀ {s s' t : State V M W}, Rel sem D E s t → run sem c s = some s' → Rel sem D E s' t := by
  induction c with
  | nil =>
    intro _ _ _ s s' t hR h
    simp only [run, Option.some.injEq] at h
    exact h ▸ hR
  | op o rest ih =>
    intro hon hh hd s s' t hR h
    simp only [run, Option.bind_eq_some_iff] at h
    obtain ⟨s1, h1, h2⟩ := h
    exact ih (fun p hp => hon p (by simp [Code.ops, hp])) hh.2 hd.2
      (harm_step (hon o (by simp [Code.ops])) hh.1 hd.1 hR h1) h2
  | loop h body rest ihb ihr =>
    intro hon hh hd s s' t hR hrun
    simp only [run, Option.bind_eq_some_iff] at hrun
    obtain ⟨vs, -, s1, h1, h2⟩ := hrun
    refine ihr (fun p hp => hon p (by simp [Code.ops, hp])) hh.2.2 hd.2.2 ?_ h2
    exact harm_iterate hd.1 hh.1
      (fun hR' hf => ihb (fun p hp => hon p (by simp [Code.ops, hp])) hh.2.1 hd.2.1 hR' hf) _ hR h1

theorem keep_iterate {sem : Sem V M W} {D E : Var → Prop}
    {f g : State V M W → Option (State V M W)} {iv : Var} (hiv : ¬ D iv)
    (hf : ∀ {s s' t}, Rel sem D E s t → f s = some s' → ∃ t', g t = some t' ∧ Rel sem D E s' t') :
    ∀ (vs : List V) (_ : ∀ v ∈ vs, sem.root v = none) {s s' t : State V M W}, Rel sem D E s t →
      iterate f iv vs s = some s' → ∃ t', iterate g iv vs t = some t' ∧ Rel sem D E s' t'
  | [], _, s, s', t, hR, h => by
    simp only [iterate, Option.some.injEq] at h
    exact ⟨t, rfl, h ▸ hR⟩
  | v :: vs, hv, s, s', t, hR, h => by
    simp only [iterate, Option.bind_eq_some_iff] at h
    obtain ⟨s1, h1, h2⟩ := h
    obtain ⟨t1, ht1, hR1⟩ := hf (hR.setBoth hiv (hv v (by simp))) h1
    obtain ⟨t2, ht2, hR2⟩ := keep_iterate hiv hf vs (fun w hw => hv w (by simp [hw])) hR1 h2
    exact ⟨t2, by simp only [iterate, ht1, Option.bind_some, ht2], hR2⟩

/-- The rest computes what the whole did. -/
theorem sub_run {sem : Sem V M W} {D E : Var → Prop} (hDE : ∀ x, D x → E x) {c c' : Code}
    (hs : Sub D E c c') :
    HonestOn sem c → DefOk D c → (∀ x ∈ c'.uses, ¬ E x) →
    (∀ o ∈ c'.ops, ∀ x ∈ o.results, ¬ D x) →
    ∀ {s s' t : State V M W}, Rel sem D E s t → run sem c s = some s' →
      ∃ t', run sem c' t = some t' ∧ Rel sem D E s' t' := by
  induction hs with
  | nil =>
    intro _ _ _ _ s s' t hR h
    simp only [run, Option.some.injEq] at h
    exact ⟨t, rfl, h ▸ hR⟩
  | @keepOp o r r' _ ih =>
    intro hon hd hu hr s s' t hR h
    simp only [run, Option.bind_eq_some_iff] at h
    obtain ⟨s1, h1, h2⟩ := h
    obtain ⟨t1, ht1, hR1⟩ := keep_step hDE (hon.ops o (by simp [Code.ops]))
      (fun x hx => hu x (by simp [Code.uses, hx])) (hr o (by simp [Code.ops])) hR h1
    obtain ⟨t2, ht2, hR2⟩ := ih ⟨fun p hp => hon.ops p (by simp [Code.ops, hp]), hon.trips⟩ hd.2
      (fun x hx => hu x (by simp [Code.uses, hx])) (fun p hp => hr p (by simp [Code.ops, hp]))
      hR1 h2
    exact ⟨t2, by simp only [run, ht1, Option.bind_some, ht2], hR2⟩
  | @dropOp o r r' hh _ ih =>
    intro hon hd hu hr s s' t hR h
    simp only [run, Option.bind_eq_some_iff] at h
    obtain ⟨s1, h1, h2⟩ := h
    exact ih ⟨fun p hp => hon.ops p (by simp [Code.ops, hp]), hon.trips⟩ hd.2 hu hr
      (harm_step (hon.ops o (by simp [Code.ops])) hh hd.1 hR h1) h2
  | @keepLoop h b b' r r' _ _ ihb ihr =>
    intro hon hd hu hr s s' t hR hrun
    simp only [run, Option.bind_eq_some_iff] at hrun
    obtain ⟨vs, hvs, s1, h1, h2⟩ := hrun
    have hvs' : h.operands.mapM t.env = some vs := by
      rw [← hvs]
      exact mapM_congr fun x hx => (hR.env x (hu x (by simp [Code.uses, hx]))).symm
    obtain ⟨t1, ht1, hR1⟩ := keep_iterate (g := run sem b') hd.1
      (fun hR' hf => ihb ⟨fun p hp => hon.ops p (by simp [Code.ops, hp]), hon.trips⟩ hd.2.1
        (fun x hx => hu x (by simp [Code.uses, hx])) (fun p hp => hr p (by simp [Code.ops, hp]))
        hR' hf) _ (hon.trips h vs) hR h1
    obtain ⟨t2, ht2, hR2⟩ := ihr ⟨fun p hp => hon.ops p (by simp [Code.ops, hp]), hon.trips⟩ hd.2.2
      (fun x hx => hu x (by simp [Code.uses, hx])) (fun p hp => hr p (by simp [Code.ops, hp]))
      hR1 h2
    exact ⟨t2, by simp only [run, hvs', Option.bind_some, ht1, ht2], hR2⟩
  | @dropLoop h b r r' hE hb _ ih =>
    intro hon hd hu hr s s' t hR hrun
    simp only [run, Option.bind_eq_some_iff] at hrun
    obtain ⟨vs, -, s1, h1, h2⟩ := hrun
    refine ih ⟨fun p hp => hon.ops p (by simp [Code.ops, hp]), hon.trips⟩ hd.2.2 hu hr ?_ h2
    exact harm_iterate hd.1 hE
      (fun hR' hf => harm_run b (fun p hp => hon.ops p (by simp [Code.ops, hp])) hb hd.2.1 hR' hf)
      _ hR h1

/-! ### Erasing in turns -/

theorem Sub.refl (D E : Var → Prop) : ∀ c, Sub D E c c
  | .nil => .nil
  | .op _ r => .keepOp (Sub.refl D E r)
  | .loop _ b r => .keepLoop (Sub.refl D E b) (Sub.refl D E r)

theorem Sub.allHarm {D E : Var → Prop} {c c' : Code} (h : Sub D E c c') :
    AllHarm D E c' → AllHarm D E c := by
  induction h with
  | nil => exact id
  | keepOp _ ih => exact fun h => ⟨h.1, ih h.2⟩
  | dropOp hh _ ih => exact fun h => ⟨hh, ih h⟩
  | keepLoop _ _ ihb ihr => exact fun h => ⟨h.1, ihb h.2.1, ihr h.2.2⟩
  | dropLoop hE hb _ ih => exact fun h => ⟨hE, hb, ih h⟩

theorem Sub.trans {D E : Var → Prop} {a b : Code} (h : Sub D E a b) :
    ∀ {c : Code}, Sub D E b c → Sub D E a c := by
  induction h with
  | nil => exact fun h => h
  | keepOp _ ih =>
    intro c hc
    cases hc with
    | keepOp h2 => exact .keepOp (ih h2)
    | dropOp hh h2 => exact .dropOp hh (ih h2)
  | dropOp hh _ ih => exact fun hc => .dropOp hh (ih hc)
  | keepLoop hb _ ihb ihr =>
    intro c hc
    cases hc with
    | keepLoop h2 h3 => exact .keepLoop (ihb h2) (ihr h3)
    | dropLoop hE hh h3 => exact .dropLoop hE (hb.allHarm hh) (ihr h3)
  | dropLoop hE hb _ ih => exact fun hc => .dropLoop hE hb (ih hc)

theorem Sub.mem_ops {D E : Var → Prop} {a b : Code} (h : Sub D E a b) : ∀ o ∈ b.ops, o ∈ a.ops := by
  induction h with
  | nil => exact fun _ h => h
  | keepOp _ ih =>
    intro o ho
    simp only [Code.ops, List.mem_cons] at ho ⊢
    exact ho.imp_right (ih o)
  | dropOp _ _ ih => intro o ho; simp only [Code.ops, List.mem_cons]; exact Or.inr (ih o ho)
  | keepLoop _ _ ihb ihr =>
    intro o ho
    simp only [Code.ops, List.mem_append] at ho ⊢
    exact ho.imp (ihb o) (ihr o)
  | dropLoop _ _ _ ih => intro o ho; simp only [Code.ops, List.mem_append]; exact Or.inr (ih o ho)

theorem Sub.mem_uses {D E : Var → Prop} {a b : Code} (h : Sub D E a b) :
    ∀ x ∈ b.uses, x ∈ a.uses := by
  induction h with
  | nil => exact fun _ h => h
  | keepOp _ ih =>
    intro o ho
    simp only [Code.uses, List.mem_append] at ho ⊢
    exact ho.imp_right (ih o)
  | dropOp _ _ ih => intro o ho; simp only [Code.uses, List.mem_append]; exact Or.inr (ih o ho)
  | keepLoop _ _ ihb ihr =>
    intro o ho
    simp only [Code.uses, List.mem_append] at ho ⊢
    exact ho.imp_right (Or.imp (ihb o) (ihr o))
  | dropLoop _ _ _ ih =>
    intro o ho; simp only [Code.uses, List.mem_append]; exact Or.inr (Or.inr (ih o ho))

end Verif.WriteOnly
