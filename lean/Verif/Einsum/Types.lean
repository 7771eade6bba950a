import Verif.Einsum.Signature
import Verif.Einsum.Main
import Verif.Rewrite.Term

/-!
# What signatures say of operands
-/

namespace Verif.Einsum.Sig

open Verif.Rewrite

variable {V : Type} [Inhabited V]

theorem zip_forall₂ {α β γ : Type} {R : β → γ → Prop} {l : List β} {l' : List γ} (h : List.Forall₂ R l l') :
    ∀ {s : List α} {a : α} {b : β}, (a, b) ∈ s.zip l → ∃ b', (a, b') ∈ s.zip l' ∧ R b b' := by
  induction h with
  | nil => intro s a b h; simp at h
  | cons h1 _ ih =>
    intro s a b h
    cases s with
    | nil => simp at h
    | cons x s =>
      rw [List.zip_cons_cons, List.mem_cons] at h
      rw [List.zip_cons_cons]
      rcases h with h | h
      · obtain ⟨rfl, rfl⟩ := Prod.mk.inj h
        exact ⟨_, List.mem_cons_self, h1⟩
      · obtain ⟨b', h2, h3⟩ := ih h
        exact ⟨b', List.mem_cons_of_mem _ h2, h3⟩

theorem mem_known {s : List Char} {t : List (Option ℕ)} {q : Char × ℕ} : q ∈ known (s, t) ↔ (q.1, some q.2) ∈ s.zip t := by
  unfold known
  rw [List.mem_filterMap]
  constructor
  · rintro ⟨⟨x, d⟩, h1, h2⟩
    obtain ⟨d, rfl, rfl⟩ := Option.map_eq_some_iff.1 h2
    exact h1
  · intro h
    exact ⟨_, h, rfl⟩

/-- The types of operands. -/
def Typed (ts : List (Tensor V)) (types : List (List (Option ℕ))) : Prop :=
  List.Forall₂ (fun (t : Tensor V) ty => FitsDims ty t.shape) ts types

omit [Inhabited V] in
theorem typed_static (ts : List (Tensor V)) : Typed ts (ts.map fun t => t.shape.map some) := by
  unfold Typed
  rw [List.forall₂_map_right_iff, List.forall₂_same]
  intro t _
  unfold FitsDims
  rw [List.forall₂_map_left_iff, List.forall₂_same]
  exact fun _ _ => .inr rfl

omit [Inhabited V] in
/-- An axis of an operand and of its type. -/
theorem axis_type {subs : List (List Char)} {ts : List (Tensor V)} {types : List (List (Option ℕ))} (h : Typed ts types)
    {s : List Char} {t : Tensor V} (hp : (s, t) ∈ subs.zip ts) {x : Char} {d : ℕ} (hq : (x, d) ∈ s.zip t.shape) :
    ∃ ty, (s, ty) ∈ subs.zip types ∧ ∃ e, (x, e) ∈ s.zip ty ∧ (e = none ∨ e = some d) := by
  obtain ⟨ty, h1, h2⟩ := zip_forall₂ h hp
  obtain ⟨e, h3, h4⟩ := zip_forall₂ (List.Forall₂.flip h2) hq
  exact ⟨ty, h1, e, h3, h4⟩

omit [Inhabited V] in
theorem type_axis {subs : List (List Char)} {ts : List (Tensor V)} {types : List (List (Option ℕ))} (h : Typed ts types)
    {s : List Char} {ty : List (Option ℕ)} (hp : (s, ty) ∈ subs.zip types) : ∃ t, (s, t) ∈ subs.zip ts ∧
      ∀ x e, (x, e) ∈ s.zip ty → ∃ d, (x, d) ∈ s.zip t.shape ∧ (e = none ∨ e = some d) := by
  obtain ⟨t, h1, h2⟩ := zip_forall₂ (List.Forall₂.flip h) hp
  exact ⟨t, h1, fun x e hx => zip_forall₂ h2 hx⟩

/-- Operands that fit have types that agree. -/
theorem agree_of_fits {subs : List (List Char)} {ts : List (Tensor V)} {types : List (List (Option ℕ))}
    (h : Typed ts types) {out : List Char} (hf : Fits (subs.zip ts) out) : Agree (subs.zip types) := by
  constructor
  · rintro ⟨s, ty⟩ hp q hq r hr hqr
    obtain ⟨t, h1, h2⟩ := type_axis h hp
    obtain ⟨d, h3, h4⟩ := h2 _ _ (mem_known.1 hq)
    obtain ⟨d', h5, h6⟩ := h2 _ _ (mem_known.1 hr)
    have e1 : q.2 = d := h4.elim (fun h => by cases h) Option.some.inj
    have e2 : r.2 = d' := h6.elim (fun h => by cases h) Option.some.inj
    rw [e1, e2]
    exact hf.same _ h1 _ h3 _ h5 hqr
  · intro q hq r hr hqr
    have key : ∀ q ∈ ((subs.zip types).flatMap known).filter (fun q => q.2 ≠ 1), q.2 = extent (subs.zip ts) q.1 := by
      intro q hq
      obtain ⟨h1, h2⟩ := List.mem_filter.1 hq
      rw [decide_eq_true_eq] at h2
      obtain ⟨⟨s, ty⟩, hp, hq⟩ := List.mem_flatMap.1 h1
      obtain ⟨t, h3, h4⟩ := type_axis h hp
      obtain ⟨d, h5, h6⟩ := h4 _ _ (mem_known.1 hq)
      have e1 : q.2 = d := h6.elim (fun h => by cases h) Option.some.inj
      rw [e1] at h2 ⊢
      exact (hf.stretch _ h3 _ h5).resolve_left h2
    rw [key q hq, key r hr, hqr]

/-- What is known of an extent is true. -/
theorem typeOf_fits {subs : List (List Char)} {ts : List (Tensor V)} {types : List (List (Option ℕ))}
    (h : Typed ts types) {out : List Char} (hf : Fits (subs.zip ts) out) (x : Char) :
    typeOf (subs.zip types) x = none ∨ typeOf (subs.zip types) x = some (extent (subs.zip ts) x) := by
  unfold typeOf
  rcases hc : ((subs.zip types).flatMap known).find? fun q => q.1 = x ∧ q.2 ≠ 1 with _ | ⟨y, d⟩
  · rw [hc]
    simp only
    by_cases hu : ∃ p ∈ subs.zip types, (x, none) ∈ p.1.zip p.2
    · rw [if_pos hu]
      exact .inl rfl
    · rw [if_neg hu]
      right
      rcases extent_cases (subs.zip ts) x with ⟨h1, -⟩ | ⟨⟨s, t⟩, hp, ⟨y, d⟩, hq, rfl, -, h2⟩
      · rw [h1]
      · exfalso
        obtain ⟨ty, g1, e, g2, rfl | rfl⟩ := axis_type h hp hq
        · exact hu ⟨_, g1, g2⟩
        · have := List.find?_eq_none.1 hc (y, d) (List.mem_flatMap.2 ⟨_, g1, mem_known.2 g2⟩)
          simp at this h2
          exact h2 this
  · right
    have h1 := List.mem_of_find?_eq_some hc
    have h2 := List.find?_some hc
    simp only [decide_eq_true_eq] at h2
    obtain ⟨rfl, h2⟩ := h2
    obtain ⟨⟨s, ty⟩, hp, hq⟩ := List.mem_flatMap.1 h1
    obtain ⟨t, h3, h4⟩ := type_axis h hp
    obtain ⟨d', h5, h6⟩ := h4 _ _ (mem_known.1 hq)
    have e1 : d = d' := h6.elim (fun h => by cases h) Option.some.inj
    subst e1
    have := (hf.stretch _ h3 _ h5).resolve_left h2
    rw [hc]
    simp only at this ⊢
    rw [← this]

/-! ### Subscripts of the result -/

theorem digit_inj : ∀ a < 10, ∀ b < 10, digit a = digit b → a = b := by decide

theorem digit_letter : ∀ a < 10, isLetter (digit a) = false := by decide

theorem subs_nodup {o : Param} (h : o.letters.Nodup) (hok : o.Ok) {k : ℕ} (hk : k ≤ 10) : (o.subs k).Nodup := by
  unfold Param.letters at h
  unfold Param.Ok Param.letters at hok
  unfold Param.subs
  rcases hq : o.post with _ | q
  · rw [hq] at h
    simpa using h
  · rw [hq, Option.getD_some] at h hok
    simp only
    rw [List.nodup_append] at h
    have hdig : ((List.range k).map digit).Nodup :=
      List.nodup_map_iff_inj_on List.nodup_range |>.2 fun a ha b hb hab => by
        rw [List.mem_range] at ha hb
        exact digit_inj a (by omega) b (by omega) hab
    have hne : ∀ c ∈ o.pre ++ q, c ∉ (List.range k).map digit := fun c hc hd => by
      obtain ⟨a, ha, rfl⟩ := List.mem_map.1 hd
      rw [List.mem_range] at ha
      have := hok _ hc
      rw [digit_letter a (by omega)] at this
      cases this
    rw [List.nodup_append, List.nodup_append]
    refine ⟨⟨h.1, hdig, ?_⟩, h.2.1, ?_⟩
    · rintro a ha b hb rfl
      exact hne a (List.mem_append_left _ ha) hb
    · rintro a ha b hb rfl
      rcases List.mem_append.1 ha with ha | ha
      · exact h.2.2 a ha a hb rfl
      · exact hne a (List.mem_append_right _ hb) ha

theorem result_ok {e : Eqn} (he : e.Ok) (hok : e.OutOk) {o : Param} (h : e.result o) :
    o.Ok ∧ o.letters.Nodup ∧ ∀ c ∈ o.letters, c ∈ e.letters := by
  unfold Eqn.result at h
  rcases hq : e.out with _ | q
  · rw [hq] at h
    obtain ⟨h1, q, h2, h3, h4⟩ := h
    have hl : o.letters = q := by
      unfold Param.letters
      rw [h1, h2]
      rfl
    have hmem : ∀ c ∈ q, c ∈ e.letters := fun c hc => List.count_pos_iff.1 (by rw [(h4 c).1 hc]; omega)
    unfold Param.Ok
    rw [hl]
    refine ⟨fun c hc => ?_, h3.imp fun h => Char.ne_of_lt h, hmem⟩
    obtain ⟨p, hp, hc⟩ := List.mem_flatMap.1 (hmem c hc)
    exact he.2.1 p hp c hc
  · rw [hq] at h
    simp only at h
    subst h
    exact ⟨he.2.2 o (hq ▸ rfl), hok o (hq ▸ rfl)⟩

theorem mem_subs {o : Param} {k : ℕ} {c : Char} : c ∈ o.subs k ↔ c ∈ o.letters ∨ (o.post ≠ none ∧ ∃ a < k, c = digit a) := by
  unfold Param.subs Param.letters
  rcases o.post with _ | q
  · simp
  · simp only [List.mem_append, List.mem_map, List.mem_range, Option.getD_some]
    constructor
    · rintro ((h | ⟨a, h1, h2⟩) | h)
      · exact .inl (.inl h)
      · exact .inr ⟨by simp, a, h1, h2.symm⟩
      · exact .inl (.inr h)
    · rintro ((h | h) | ⟨-, a, h1, h2⟩)
      · exact .inl (.inl h)
      · exact .inr h
      · exact .inl (.inr ⟨a, h1, h2.symm⟩)

theorem exists_zip {α β : Type} {l : List α} {l' : List β} (h : l.length = l'.length) {a : α} (ha : a ∈ l) :
    ∃ b, (a, b) ∈ l.zip l' := by
  obtain ⟨i, hi, rfl⟩ := List.mem_iff_getElem.1 ha
  have h' : i < (l.zip l').length := by
    rw [List.length_zip]
    omega
  exact ⟨l'[i]'(h ▸ hi), List.getElem_zip (h := h') ▸ List.getElem_mem h'⟩

/-- Operands of the given static shapes fit the subscripts, and the shape of the result is the inferred one. -/
theorem static_fits {e : Eqn} (he : e.Ok) (hok : e.OutOk) {ts : List (Tensor V)} {k : ℕ} {o : Param}
    (hk : e.Ellipsis (ts.map fun t => t.shape.length) k) (h10 : k ≤ 10) (hr : e.result o)
    (ha : Agree ((e.ins.map (·.subs k)).zip (ts.map fun t => t.shape.map some))) :
    Fits ((e.ins.map (·.subs k)).zip ts) (o.subs k) ∧ (o.subs k).map (typeOf ((e.ins.map (·.subs k)).zip
      (ts.map fun t => t.shape.map some))) = (o.subs k).map fun x => some (extent ((e.ins.map (·.subs k)).zip ts) x) := by
  have hlen : e.ins.length = ts.length := by simpa using hk.1.length_eq
  have hT := typed_static ts
  have hf : Fits ((e.ins.map (·.subs k)).zip ts) (o.subs k) := by
    obtain ⟨o1, o2, o3⟩ := result_ok he hok hr
    have hknown : ∀ s (t : Tensor V), (s, t) ∈ (e.ins.map (·.subs k)).zip ts → ∀ q ∈ s.zip t.shape,
        (s, t.shape.map some) ∈ (e.ins.map (·.subs k)).zip (ts.map fun t => t.shape.map some) ∧
          q ∈ known (s, t.shape.map some) := by
      intro s t hp q hq
      constructor
      · rw [List.zip_map_right]
        exact List.mem_map.2 ⟨_, hp, rfl⟩
      · refine mem_known.2 ?_
        rw [List.zip_map_right]
        exact List.mem_map.2 ⟨_, hq, rfl⟩
    refine ⟨?_, ?_, ?_, subs_nodup o2 o1 h10, ?_⟩
    · rintro ⟨s, t⟩ hp
      have h1 := hk.1
      rw [List.forall₂_map_right_iff] at h1
      obtain ⟨i, hi, hp⟩ := List.mem_iff_getElem.1 hp
      rw [List.getElem_zip] at hp
      obtain ⟨rfl, rfl⟩ := Prod.mk.inj hp
      simp only [List.length_zip, List.length_map] at hi
      have := (List.forall₂_iff_get.1 h1).2 i (by omega) (by omega)
      simp only [List.get_eq_getElem] at this
      simp only [List.getElem_map]
      exact this.symm
    · rintro ⟨s, t⟩ hp q hq r hr hqr
      exact ha.1 _ (hknown s t hp q hq).1 q (hknown s t hp q hq).2 r (hknown s t hp r hr).2 hqr
    · rintro ⟨s, t⟩ hp ⟨x, d⟩ hq
      by_cases h1 : d = 1
      · exact .inl h1
      right
      have mem1 : ∀ s (t : Tensor V), (s, t) ∈ (e.ins.map (·.subs k)).zip ts → ∀ q ∈ s.zip t.shape, q.2 ≠ 1 →
          q ∈ (((e.ins.map (·.subs k)).zip (ts.map fun t => t.shape.map some)).flatMap known).filter fun q => q.2 ≠ 1 :=
        fun s t hp q hq h => List.mem_filter.2 ⟨List.mem_flatMap.2 ⟨_, (hknown s t hp q hq).1, (hknown s t hp q hq).2⟩,
          by simpa using h⟩
      rcases extent_cases ((e.ins.map (·.subs k)).zip ts) x with ⟨-, h2⟩ | ⟨⟨s', t'⟩, hp', q', hq', h3, h4, h5⟩
      · exact absurd (h2 _ hp _ hq rfl) h1
      · rw [← h4]
        exact ha.2 _ (mem1 s t hp _ hq h1) _ (mem1 s' t' hp' q' hq' h5) h3.symm
    · intro x hx
      have key : ∀ p ∈ e.ins, x ∈ p.subs k → ∃ p ∈ (e.ins.map (·.subs k)).zip ts, x ∈ p.1 := fun p hp hx => by
        obtain ⟨t, ht⟩ := exists_zip (l := e.ins.map (·.subs k)) (l' := ts) (by simpa using hlen)
          (List.mem_map.2 ⟨p, hp, rfl⟩)
        exact ⟨_, ht, hx⟩
      rcases mem_subs.1 hx with hx | ⟨-, a, ha, rfl⟩
      · obtain ⟨p, hp, hc⟩ := List.mem_flatMap.1 (o3 x hx)
        exact key p hp (mem_subs.2 (.inl hc))
      · have : ∃ p ∈ e.ins, p.post ≠ none := by
          by_contra hn
          push Not at hn
          have := hk.2 hn
          omega
        obtain ⟨p, hp, hpn⟩ := this
        exact key p hp (mem_subs.2 (.inr ⟨hpn, a, ha, rfl⟩))
  refine ⟨hf, List.map_congr_left fun x _ => ?_⟩
  rcases typeOf_fits hT hf x with h | h
  · exfalso
    unfold typeOf at h
    rcases hc : (((e.ins.map (·.subs k)).zip (ts.map fun t => t.shape.map some)).flatMap known).find?
        fun q => q.1 = x ∧ q.2 ≠ 1 with _ | q
    · rw [hc] at h
      simp only at h
      by_cases hu : ∃ p ∈ (e.ins.map (·.subs k)).zip (ts.map fun t => t.shape.map some), (x, none) ∈ p.1.zip p.2
      · obtain ⟨p, hp, hx⟩ := hu
        rw [List.zip_map_right] at hp
        obtain ⟨q, -, rfl⟩ := List.mem_map.1 hp
        simp only [Prod.map_snd, List.zip_map_right] at hx
        obtain ⟨r, -, hr⟩ := List.mem_map.1 hx
        simp [Prod.map] at hr
      · rw [if_neg hu] at h
        cases h
    · rw [hc] at h
      cases h
  · exact h

end Verif.Einsum.Sig
