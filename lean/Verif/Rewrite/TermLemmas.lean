import Verif.Rewrite.Term

/-! # General facts about fragments and rewriting -/

namespace Verif.Rewrite

variable {V : Type} [Inhabited V] {A : Alg V} {env : ℕ → Tensor V}

theorem eval_op {o : Op} {as : List (Ex V)} {ty : STy} {v : Option (Tensor V)} :
    eval A env (.op o as ty) = some v ↔
      ∃ xs t, evalL A env as = some xs ∧ sem A o xs = some t ∧ v = some t := by
  simp only [eval, Option.bind_eq_some_iff, Option.map_eq_some_iff]
  constructor
  · rintro ⟨xs, hx, t, ht, rfl⟩
    exact ⟨xs, t, hx, ht, rfl⟩
  · rintro ⟨xs, t, hx, ht, rfl⟩
    exact ⟨xs, hx, t, ht, rfl⟩

theorem evalL_cons {e : Ex V} {es : List (Ex V)} {vs : List (Option (Tensor V))} :
    evalL A env (e :: es) = some vs ↔
      ∃ v ws, eval A env e = some v ∧ evalL A env es = some ws ∧ vs = v :: ws := by
  simp only [evalL, Option.bind_eq_some_iff, Option.map_eq_some_iff]
  constructor
  · rintro ⟨v, hv, ws, hw, rfl⟩
    exact ⟨v, ws, hv, hw, rfl⟩
  · rintro ⟨v, ws, hv, hw, rfl⟩
    exact ⟨v, hv, ws, hw, rfl⟩

theorem evalL_nil {vs : List (Option (Tensor V))} :
    evalL A env [] = some vs ↔ vs = [] := by
  simp [evalL, eq_comm]

theorem eval_op1 {o : Op} {a : Ex V} {ty : STy} {v : Option (Tensor V)} :
    eval A env (.op o [a] ty) = some v ↔
      ∃ x t, eval A env a = some x ∧ sem A o [x] = some t ∧ v = some t := by
  rw [eval_op]
  constructor
  · rintro ⟨xs, t, hx, ht, rfl⟩
    obtain ⟨x, ws, h1, h2, rfl⟩ := evalL_cons.1 hx
    rw [evalL_nil] at h2; subst h2
    exact ⟨x, t, h1, ht, rfl⟩
  · rintro ⟨x, t, hx, ht, rfl⟩
    exact ⟨[x], t, evalL_cons.2 ⟨x, [], hx, evalL_nil.2 rfl, rfl⟩, ht, rfl⟩

theorem eval_op2 {o : Op} {a b : Ex V} {ty : STy} {v : Option (Tensor V)} :
    eval A env (.op o [a, b] ty) = some v ↔
      ∃ x y t, eval A env a = some x ∧ eval A env b = some y ∧ sem A o [x, y] = some t ∧
        v = some t := by
  rw [eval_op]
  constructor
  · rintro ⟨xs, t, hx, ht, rfl⟩
    obtain ⟨x, ws, h1, g2, rfl⟩ := evalL_cons.1 hx
    obtain ⟨y, ws, h2, h3, rfl⟩ := evalL_cons.1 g2
    rw [evalL_nil] at h3; subst h3
    exact ⟨x, y, t, h1, h2, ht, rfl⟩
  · rintro ⟨x, y, t, hx, hy, ht, rfl⟩
    exact ⟨[x, y], t, evalL_cons.2 ⟨x, [y], hx, evalL_cons.2 ⟨y, [], hy, evalL_nil.2 rfl, rfl⟩, rfl⟩,
      ht, rfl⟩

theorem eval_op3 {o : Op} {a b c : Ex V} {ty : STy} {v : Option (Tensor V)} :
    eval A env (.op o [a, b, c] ty) = some v ↔
      ∃ x y z t, eval A env a = some x ∧ eval A env b = some y ∧ eval A env c = some z ∧
        sem A o [x, y, z] = some t ∧ v = some t := by
  rw [eval_op]
  constructor
  · rintro ⟨xs, t, hx, ht, rfl⟩
    obtain ⟨x, ws, h1, g2, rfl⟩ := evalL_cons.1 hx
    obtain ⟨y, ws, h2, g3, rfl⟩ := evalL_cons.1 g2
    obtain ⟨z, ws, h3, h4, rfl⟩ := evalL_cons.1 g3
    rw [evalL_nil] at h4; subst h4
    exact ⟨x, y, z, t, h1, h2, h3, ht, rfl⟩
  · rintro ⟨x, y, z, t, hx, hy, hz, ht, rfl⟩
    exact ⟨[x, y, z], t, evalL_cons.2 ⟨x, [y, z], hx, evalL_cons.2 ⟨y, [z], hy,
      evalL_cons.2 ⟨z, [], hz, evalL_nil.2 rfl, rfl⟩, rfl⟩, rfl⟩, ht, rfl⟩

theorem typed_op {o : Op} {as : List (Ex V)} {ty : STy} :
    Typed A env (.op o as ty) ↔
      (∀ t, eval A env (.op o as ty) = some (some t) → ty.Fits t.shape) ∧
        EltOk o (as.map Ex.ty) ty.elt ∧ TypedL A env as := by
  rw [Typed]

@[simp] theorem typedL_nil : TypedL A env [] := by rw [TypedL]; trivial

@[simp] theorem typedL_cons {e : Ex V} {es : List (Ex V)} :
    TypedL A env (e :: es) ↔ Typed A env e ∧ TypedL A env es := by rw [TypedL]

@[simp] theorem typed_none : Typed A env .none := by rw [Typed]; trivial

@[simp] theorem typed_const {t : Tensor V} {d : DT} : Typed A env (.const t d) := by
  rw [Typed]; trivial

theorem fits_unranked {d : DT} {s : List ℕ} : (STy.unranked d).Fits s := by
  intro ds h; cases h

theorem typed_unranked {o : Op} {as : List (Ex V)} {d : DT} (h : TypedL A env as)
    (hk : EltOk o (as.map Ex.ty) d) : Typed A env (.op o as (.unranked d)) := by
  rw [typed_op]
  exact ⟨fun t _ => fits_unranked, hk, h⟩

/-- The static type of a value describes it. -/
theorem typed_fits {e : Ex V} (h : Typed A env e) {t : Tensor V}
    (he : eval A env e = some (some t)) : e.ty.Fits t.shape := by
  cases e with
  | none => simp [eval] at he
  | arg i ty => simp [eval] at he; subst he; rw [Typed] at h; exact h
  | const t' d =>
    simp [eval] at he; subst he
    intro ds hd
    simp only [Ex.ty, STy.static, Option.some.injEq] at hd
    subst hd
    unfold FitsDims
    rw [List.forall₂_map_left_iff]
    exact List.forall₂_same.2 fun _ _ => .inr rfl
  | op o as ty => rw [typed_op] at h; exact h.1 t he

/-- Replacing an operation by another one with the same recorded type and the same value. -/
theorem typed_same {o o' : Op} {as as' : List (Ex V)} {ty : STy} {v : Option (Tensor V)}
    (h : Typed A env (.op o as ty)) (he : eval A env (.op o as ty) = some v)
    (he' : eval A env (.op o' as' ty) = some v) (hk : EltOk o' (as'.map Ex.ty) ty.elt)
    (h' : TypedL A env as') : Typed A env (.op o' as' ty) := by
  rw [typed_op] at h ⊢
  refine ⟨fun t ht => h.1 t ?_, hk, h'⟩
  rw [he'] at ht
  cases ht
  exact he

/-- The element types of a list of operands decide whether an operation is well typed. -/
theorem eltOk_congr {o : Op} {as bs : List STy} {r : DT}
    (h : as.map STy.elt = bs.map STy.elt) (ho : EltOk o as r) : EltOk o bs r := by
  have hl : as.length = bs.length := by simpa using congrArg List.length h
  cases o
  case concat ax =>
    intro b hb
    have : b.elt ∈ as.map STy.elt := h ▸ List.mem_map_of_mem hb
    obtain ⟨a, ha, hab⟩ := List.mem_map.1 this
    rw [← hab]; exact ho a ha
  all_goals
    rcases as with _ | ⟨a, _ | ⟨a', _ | ⟨a'', _ | ⟨a3, as⟩⟩⟩⟩ <;>
    rcases bs with _ | ⟨b, _ | ⟨b', _ | ⟨b'', _ | ⟨b3, bs⟩⟩⟩⟩ <;>
    simp_all [EltOk] <;> first | exact h.1.symm.trans h.2 | exact h.1.symm.trans h.2.1

theorem Sound.at {r : Ex V → Outcome V} (h : Sound A r) (env : ℕ → Tensor V) : SoundAt A env r :=
  fun e e' => h env e e'

theorem SoundOn.at {P : (ℕ → Tensor V) → Ex V → Prop} {r : Ex V → Outcome V} (h : SoundOn A P r)
    (env : ℕ → Tensor V) : SoundAt A env (guarded (P env) r) := by
  intro e e' hr
  unfold guarded at hr
  split at hr
  · rename_i hp
    exact fun ht => h env e e' hr ht hp
  · cases hr

mutual
theorem step_keeps {rules : List (Ex V → Outcome V)} (hs : ∀ r ∈ rules, SoundAt A env r)
    {e e' : Ex V} (h : Step rules e e') (ht : Typed A env e) {v : Option (Tensor V)}
    (hv : eval A env e = some v) :
    eval A env e' = some v ∧ Typed A env e' ∧ e'.ty.elt = e.ty.elt := by
  match h with
  | .top hr he => exact hs _ hr _ _ he ht v hv
  | .inside (o := o) (as := as) (bs := bs) (ty := ty) hl =>
    obtain ⟨xs, t, hx, hsem, rfl⟩ := eval_op.1 hv
    have := stepL_keeps hs hl (typed_op.1 ht).2.2 hx
    have he' : eval A env (.op o bs ty) = some (some t) := eval_op.2 ⟨xs, t, this.1, hsem, rfl⟩
    refine ⟨he', typed_same ht hv he' (eltOk_congr ?_ (typed_op.1 ht).2.1) this.2.1, rfl⟩
    rw [List.map_map, List.map_map]
    exact this.2.2.symm
theorem stepL_keeps {rules : List (Ex V → Outcome V)} (hs : ∀ r ∈ rules, SoundAt A env r)
    {es es' : List (Ex V)} (h : StepL rules es es') (ht : TypedL A env es)
    {vs : List (Option (Tensor V))} (hv : evalL A env es = some vs) :
    evalL A env es' = some vs ∧ TypedL A env es' ∧
      es'.map (STy.elt ∘ Ex.ty) = es.map (STy.elt ∘ Ex.ty) := by
  match h with
  | .head hh =>
    obtain ⟨v, ws, h1, h2, rfl⟩ := evalL_cons.1 hv
    rw [typedL_cons] at ht
    have := step_keeps hs hh ht.1 h1
    exact ⟨evalL_cons.2 ⟨v, ws, this.1, h2, rfl⟩, typedL_cons.2 ⟨this.2.1, ht.2⟩,
      by simp [this.2.2]⟩
  | .tail hh =>
    obtain ⟨v, ws, h1, h2, rfl⟩ := evalL_cons.1 hv
    rw [typedL_cons] at ht
    have := stepL_keeps hs hh ht.2 h2
    exact ⟨evalL_cons.2 ⟨v, ws, h1, this.1, rfl⟩, typedL_cons.2 ⟨ht.1, this.2.1⟩,
      by rw [List.map_cons, List.map_cons, this.2.2]⟩
end

theorem steps_keep {rules : List (Ex V → Outcome V)} (hs : ∀ r ∈ rules, SoundAt A env r)
    {e e' : Ex V} (h : Steps rules e e') (ht : Typed A env e) {v : Option (Tensor V)}
    (hv : eval A env e = some v) : eval A env e' = some v ∧ Typed A env e' := by
  induction h with
  | refl => exact ⟨hv, ht⟩
  | step h1 _ ih =>
    have := step_keeps hs h1 ht hv
    exact ih this.2.1 this.1

end Verif.Rewrite
