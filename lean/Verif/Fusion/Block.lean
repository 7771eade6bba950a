import Verif.Fusion.Elements

/-!
# Blocks: reordering and replacing operations
-/

namespace Verif.Fusion

variable {α : Type}

theorem mapM_mem {β γ : Type} {f : β → Option γ} {l : List β} {r : List γ} (h : l.mapM f = some r) :
    ∀ x ∈ l, f x ≠ none := by
  induction l generalizing r with
  | nil => simp
  | cons a l ih =>
    simp only [List.mapM_cons] at h
    cases ha : f a with
    | none => simp [ha] at h
    | some b =>
      cases hl : l.mapM f with
      | none => simp [ha, hl] at h
      | some c =>
        intro x hx
        rcases List.mem_cons.1 hx with rfl | hx
        · simp [ha]
        · exact ih hl x hx

theorem mapM_congr {β γ : Type} {f g : β → Option γ} {l : List β} (h : ∀ x ∈ l, f x = g x) :
    l.mapM f = l.mapM g := by
  induction l with
  | nil => rfl
  | cons a l ih =>
    simp only [List.mapM_cons]
    rw [h a (by simp), ih fun x hx => h x (by simp [hx])]

theorem mapM_some {β γ : Type} {f : β → Option γ} {l : List β} (h : ∀ x ∈ l, f x ≠ none) :
    ∃ r, l.mapM f = some r := by
  induction l with
  | nil => exact ⟨[], rfl⟩
  | cons a l ih =>
    obtain ⟨r, hr⟩ := ih fun x hx => h x (by simp [hx])
    cases ha : f a with
    | none => exact absurd ha (h a (by simp))
    | some b => exact ⟨b :: r, by simp [List.mapM_cons, ha, hr]⟩

theorem value_ops {sem : Sem α} {ctx : Ctx} {env : Env α} {x : Item α} {t : Tensor α}
    (h : value sem ctx env x = some t) : ∀ v ∈ x.ops, env v ≠ none := by
  cases x with
  | const i t' => simp [Item.ops]
  | elt e =>
    obtain ⟨ts, h1, -⟩ := Option.bind_eq_some_iff.1 h
    exact mapM_mem h1
  | other i o f =>
    obtain ⟨ts, h1, -⟩ := Option.bind_eq_some_iff.1 h
    exact mapM_mem h1
  | fused i r st =>
    obtain ⟨ts, h1, h2⟩ := Option.bind_eq_some_iff.1 h
    obtain ⟨ls, h3, -⟩ := Option.bind_eq_some_iff.1 h2
    intro v hv
    rcases List.mem_append.1 hv with hv | hv
    · exact mapM_mem h1 v hv
    · obtain ⟨s, hs, hv⟩ := List.mem_flatMap.1 hv
      have h4 := mapM_mem h3 s hs
      obtain ⟨l, hl⟩ := Option.ne_none_iff_exists'.1 h4
      obtain ⟨os, ho, -⟩ := Option.map_eq_some_iff.1 hl
      obtain ⟨o, ho1, ho2⟩ := List.mem_filterMap.1 hv
      have h5 := mapM_mem ho o ho1
      rw [ho2] at h5
      intro hn
      apply h5
      simp [resolve, hn]

theorem value_congr {sem : Sem α} {ctx : Ctx} {env env' : Env α} {x : Item α}
    (h : ∀ v ∈ x.ops, env' v = env v) : value sem ctx env' x = value sem ctx env x := by
  cases x with
  | const i t' => rfl
  | elt e =>
    show (e.ops.mapM env').bind _ = (e.ops.mapM env).bind _
    rw [mapM_congr (l := e.ops) h]
  | other i o f =>
    show (o.mapM env').bind _ = (o.mapM env).bind _
    rw [mapM_congr (l := o) h]
  | fused i r st =>
    have h1 : r.ops.mapM env' = r.ops.mapM env :=
      mapM_congr fun v hv => h v (List.mem_append_left _ hv)
    have h2 : st.mapM (load ctx r.id env') = st.mapM (load ctx r.id env) := by
      apply mapM_congr
      intro s hs
      unfold load
      have : s.ops.mapM (resolve env') = s.ops.mapM (resolve env) := by
        apply mapM_congr
        intro o ho
        cases o with
        | none => rfl
        | some v =>
          have := h v (List.mem_append_right _
            (List.mem_flatMap.2 ⟨s, hs, List.mem_filterMap.2 ⟨some v, ho, rfl⟩⟩))
          simp [resolve, this]
      rw [this]
    show (r.ops.mapM env').bind _ = (r.ops.mapM env).bind _
    rw [h1]
    simp only [h2]

/-- The operands of every operation are there when it is reached, if those in `D` are at the start. -/
def Avail : (Nat → Prop) → List (Item α) → Prop
  | _, [] => True
  | D, x :: xs => (∀ v ∈ x.ops, D v) ∧ Avail (fun v => D v ∨ v = x.id) xs

/-- Later values extend earlier ones. -/
def Le (e e' : Env α) : Prop := ∀ v t, e v = some t → e' v = some t

theorem run_facts {sem : Sem α} {ctx : Ctx} {blk : List (Item α)} {e e1 : Env α}
    (h : run sem ctx e blk = some e1) (hn : (blk.map Item.id).Nodup) (hf : ∀ x ∈ blk, e x.id = none) :
    Le e e1 ∧ Avail (fun v => e v ≠ none) blk ∧
      (∀ x ∈ blk, ∃ t, e1 x.id = some t ∧ value sem ctx e1 x = some t) ∧
      (∀ v, e1 v ≠ none → e v ≠ none ∨ v ∈ blk.map Item.id) := by
  induction blk generalizing e with
  | nil =>
    cases h
    exact ⟨fun _ _ h => h, trivial, by simp, fun v hv => Or.inl hv⟩
  | cons x xs ih =>
    obtain ⟨t, h1, h2⟩ := Option.bind_eq_some_iff.1 h
    simp only [List.map_cons, List.nodup_cons] at hn
    obtain ⟨l1, l2, l3, l4⟩ := ih h2 hn.2 (by
      intro y hy
      have hne : y.id ≠ x.id := fun he => hn.1 (List.mem_map.2 ⟨y, hy, he⟩)
      rw [Function.update_of_ne hne]
      exact hf y (by simp [hy]))
    have hle : Le e e1 := by
      intro v u hv
      apply l1
      have hne : v ≠ x.id := by
        intro he
        rw [he, hf x (by simp)] at hv
        exact absurd hv (by simp)
      rw [Function.update_of_ne hne]; exact hv
    refine ⟨hle, ⟨value_ops h1, ?_⟩, ?_, ?_⟩
    · have : (fun v => Function.update e x.id (some t) v ≠ none) = fun v => e v ≠ none ∨ v = x.id := by
        funext v
        by_cases hv : v = x.id
        · rw [hv]; simp
        · rw [Function.update_of_ne hv]; simp [hv]
      rw [this] at l2
      exact l2
    · intro y hy
      rcases List.mem_cons.1 hy with rfl | hy
      · refine ⟨t, l1 _ _ (by simp), ?_⟩
        rw [← h1]
        apply value_congr
        intro v hv
        obtain ⟨u, hu⟩ := Option.ne_none_iff_exists'.1 (value_ops h1 v hv)
        rw [hu, hle _ _ hu]
      · exact l3 y hy
    · intro v hv
      rcases l4 v hv with h5 | h5
      · by_cases hvx : v = x.id
        · right; simp [hvx]
        · rw [Function.update_of_ne hvx] at h5; exact Or.inl h5
      · right; simp only [List.map_cons, List.mem_cons]; exact Or.inr h5

theorem run_build {sem : Sem α} {ctx : Ctx} {blk : List (Item α)} {env e : Env α} {D : Nat → Prop}
    (hle : Le e env) (hD : ∀ v, D v → e v ≠ none) (ha : Avail D blk)
    (hv : ∀ x ∈ blk, ∃ t, env x.id = some t ∧ value sem ctx env x = some t) :
    ∃ e1, run sem ctx e blk = some e1 ∧ Le e1 env ∧ Le e e1 ∧ ∀ x ∈ blk, e1 x.id ≠ none := by
  induction blk generalizing e D with
  | nil => exact ⟨e, rfl, hle, fun _ _ h => h, by simp⟩
  | cons x xs ih =>
    obtain ⟨t, h1, h2⟩ := hv x (by simp)
    have hval : value sem ctx e x = some t := by
      rw [← h2]
      apply value_congr
      intro v hvx
      obtain ⟨u, hu⟩ := Option.ne_none_iff_exists'.1 (hD v (ha.1 v hvx))
      rw [hu, hle _ _ hu]
    have hle' : Le (Function.update e x.id (some t)) env := by
      intro v u hu
      by_cases hvx : v = x.id
      · rw [hvx] at hu ⊢; simp at hu; rw [h1, hu]
      · rw [Function.update_of_ne hvx] at hu; exact hle _ _ hu
    obtain ⟨e1, r1, r2, r3, r4⟩ := ih hle' (D := fun v => D v ∨ v = x.id) (by
      intro v hv'
      by_cases hvx : v = x.id
      · rw [hvx]; simp
      · rw [Function.update_of_ne hvx]
        rcases hv' with h | h
        · exact hD v h
        · exact absurd h hvx) ha.2 (fun y hy => hv y (by simp [hy]))
    refine ⟨e1, ?_, r2, ?_, ?_⟩
    · show (value sem ctx e x).bind _ = _
      rw [hval]; exact r1
    · intro v u hu
      by_cases hvx : v = x.id
      · have h3 := hle _ _ hu
        rw [hvx, h1] at h3
        rw [hvx]
        exact r3 _ _ (by simp [Option.some.inj h3])
      · exact r3 _ _ (by rw [Function.update_of_ne hvx]; exact hu)
    · intro y hy
      rcases List.mem_cons.1 hy with rfl | hy
      · rw [r3 y.id t (by simp)]; simp
      · exact r4 y hy

theorem Avail.mono {D D' : Nat → Prop} {xs : List (Item α)} (h : Avail D xs) (hD : ∀ v, D v → D' v) :
    Avail D' xs := by
  induction xs generalizing D D' with
  | nil => trivial
  | cons x xs ih => exact ⟨fun v hv => hD v (h.1 v hv), ih h.2 fun v hv => hv.imp_left (hD v)⟩

theorem Avail.filter {D D' : Nat → Prop} {E : Nat → Prop} {xs : List (Item α)} {p : Item α → Bool}
    (h : Avail D xs) (hD : ∀ v, D v → ¬ E v → D' v) (hp : ∀ x ∈ xs, p x = true → ∀ v ∈ x.ops, ¬ E v)
    (hq : ∀ x ∈ xs, p x = false → E x.id ∨ D' x.id) : Avail D' (xs.filter p) := by
  induction xs generalizing D D' with
  | nil => trivial
  | cons x xs ih =>
    cases hx : p x with
    | true =>
      rw [List.filter_cons_of_pos hx]
      refine ⟨fun v hv => hD v (h.1 v hv) (hp x (by simp) hx v hv), ih h.2 ?_ ?_ ?_⟩
      · intro v hv he
        rcases hv with hv | hv
        · exact Or.inl (hD v hv he)
        · exact Or.inr hv
      · exact fun y hy => hp y (by simp [hy])
      · exact fun y hy h => (hq y (by simp [hy]) h).imp_right Or.inl
    | false =>
      rw [List.filter_cons_of_neg (by simp [hx])]
      refine ih h.2 ?_ ?_ ?_
      · intro v hv he
        rcases hv with hv | hv
        · exact hD v hv he
        · rcases hq x (by simp) hx with h | h
          · exact absurd (hv ▸ h) he
          · rw [hv]; exact h
      · exact fun y hy => hp y (by simp [hy])
      · exact fun y hy => hq y (by simp [hy])

theorem Avail.split {D : Nat → Prop} {xs ys : List (Item α)} :
    Avail D (xs ++ ys) ↔ Avail D xs ∧ Avail (fun v => D v ∨ v ∈ xs.map Item.id) ys := by
  induction xs generalizing D with
  | nil =>
    simp only [List.nil_append, List.map_nil, List.not_mem_nil, or_false]
    exact ⟨fun h => ⟨trivial, h⟩, fun h => h.2⟩
  | cons x xs ih =>
    simp only [List.cons_append, Avail, ih, and_assoc, List.map_cons, List.mem_cons, or_assoc]

theorem Avail.ops {D : Nat → Prop} {xs : List (Item α)} (h : Avail D xs) {x : Item α} (hx : x ∈ xs) :
    ∀ v ∈ x.ops, D v ∨ v ∈ xs.map Item.id := by
  induction xs generalizing D with
  | nil => simp at hx
  | cons y xs ih =>
    intro v hv
    rcases List.mem_cons.1 hx with rfl | hx
    · exact Or.inl (h.1 v hv)
    · rcases ih h.2 hx v hv with h | h
      · rcases h with h | h
        · exact Or.inl h
        · right; simp [h]
      · right; simp only [List.map_cons, List.mem_cons]; exact Or.inr h

theorem isConst_id {it : Item α} {c : Nat} (h : it.isConst c = true) : it.id = c ∧ it.ops = [] := by
  cases it with
  | const i t => exact ⟨by simpa [Item.isConst, Item.id] using h, rfl⟩
  | elt e => simp [Item.isConst] at h
  | other i o f => simp [Item.isConst] at h
  | fused i r s => simp [Item.isConst] at h

theorem perm_filter {xs : List (Item α)} {c : Nat} {it : Item α} (hn : (xs.map Item.id).Nodup)
    (h : xs.find? (Item.isConst c) = some it) : xs.Perm (it :: xs.filter fun y => y.id != c) := by
  have hm := List.mem_of_find?_eq_some h
  have hc := (isConst_id (List.find?_some h)).1
  clear h
  induction xs with
  | nil => simp at hm
  | cons x xs ih =>
    simp only [List.map_cons, List.nodup_cons] at hn
    rcases List.mem_cons.1 hm with rfl | hm
    · rw [List.filter_cons_of_neg (by simp [hc])]
      have : xs.filter (fun y => y.id != c) = xs := by
        rw [List.filter_eq_self]
        intro y hy
        have : y.id ≠ it.id := fun he => hn.1 (List.mem_map.2 ⟨y, hy, he⟩)
        rw [hc] at this
        simpa using this
      rw [this]
    · have hne : x.id ≠ c := by
        intro he
        exact hn.1 (List.mem_map.2 ⟨it, hm, by rw [hc, he]⟩)
      rw [List.filter_cons_of_pos (by simpa using hne)]
      exact ((ih hn.2 hm).cons x).trans (List.Perm.swap _ _ _)

theorem hoist_facts {D : Nat → Prop} {d c : Nat} {xs : List (Item α)} (hn : (xs.map Item.id).Nodup)
    (h : Avail D xs) : (hoist d c xs).Perm xs ∧ Avail D (hoist d c xs) := by
  induction xs generalizing D with
  | nil => exact ⟨List.Perm.refl _, trivial⟩
  | cons x xs ih =>
    simp only [List.map_cons, List.nodup_cons] at hn
    unfold hoist
    by_cases hx : x.id = d
    · rw [if_pos hx]
      cases hf : xs.find? (Item.isConst c) with
      | none => exact ⟨List.Perm.refl _, h⟩
      | some it =>
        have hc := isConst_id (List.find?_some hf)
        refine ⟨(List.Perm.swap _ _ _).trans ((perm_filter hn.2 hf).symm.cons x), ?_, ?_, ?_⟩
        · rw [hc.2]; simp
        · exact fun v hv => Or.inl (h.1 v hv)
        · apply Avail.filter (E := fun _ => False) h.2
          · intro v hv _
            rcases hv with hv | hv
            · exact Or.inl (Or.inl hv)
            · exact Or.inr hv
          · simp
          · intro y hy hyc
            have : y.id = c := by simpa using hyc
            right; left; right
            rw [this, hc.1]
    · rw [if_neg hx]
      obtain ⟨p, a⟩ := ih hn.2 h.2
      exact ⟨p.cons x, h.1, a⟩

theorem hoistOps_facts {ctx : Ctx} {D : Nat → Prop} {d : Nat} {vs : List Nat} {xs ys : List (Item α)}
    (hn : (xs.map Item.id).Nodup) (h : Avail D xs) (hh : hoistOps ctx d vs xs = some ys) :
    ys.Perm xs ∧ Avail D ys ∧ ∀ v ∈ vs, v ≠ d → ctx.outerConst v = false := by
  induction vs generalizing xs with
  | nil => cases hh; exact ⟨List.Perm.refl _, h, by simp⟩
  | cons v vs ih =>
    unfold hoistOps at hh
    by_cases hv : v = d
    · rw [if_pos hv] at hh
      obtain ⟨p, a, o⟩ := ih hn h hh
      refine ⟨p, a, ?_⟩
      intro w hw hwd
      rcases List.mem_cons.1 hw with rfl | hw
      · exact absurd hv hwd
      · exact o w hw hwd
    · rw [if_neg hv] at hh
      cases ho : ctx.outerConst v with
      | true => rw [ho, if_pos rfl] at hh; exact absurd hh (by simp)
      | false =>
        rw [ho, if_neg (by simp)] at hh
        obtain ⟨p1, a1⟩ := hoist_facts (d := d) (c := v) hn h
        obtain ⟨p, a, o⟩ := ih ((p1.map Item.id).nodup_iff.2 hn) a1 hh
        refine ⟨p.trans p1, a, ?_⟩
        intro w hw hwd
        rcases List.mem_cons.1 hw with rfl | hw
        · exact ho
        · exact o w hw hwd

/-- No operand of the fused operations is a constant of another block. -/
def NoOuter (ctx : Ctx) : Nat → List Elt → Prop
  | _, [] => True
  | d, u :: us => (∀ v ∈ u.ops, v ≠ d → ctx.outerConst v = false) ∧ NoOuter ctx u.id us

theorem hoistAll_facts {ctx : Ctx} {D : Nat → Prop} {d : Nat} {us : List Elt} {xs ys : List (Item α)}
    (hn : (xs.map Item.id).Nodup) (h : Avail D xs) (hh : hoistAll ctx d us xs = some ys) :
    ys.Perm xs ∧ Avail D ys ∧ NoOuter ctx d us := by
  induction us generalizing xs d with
  | nil => cases hh; exact ⟨List.Perm.refl _, h, trivial⟩
  | cons u us ih =>
    obtain ⟨zs, h1, h2⟩ := Option.bind_eq_some_iff.1 hh
    obtain ⟨p1, a1, o1⟩ := hoistOps_facts hn h h1
    obtain ⟨p2, a2, o2⟩ := ih ((p1.map Item.id).nodup_iff.2 hn) a1 h2
    exact ⟨p2.trans p1, a2, o1, o2⟩

end Verif.Fusion
